import Verif.Spec.Tree
import Verif.Props.SaveAll
import Verif.Props.Location
import Verif.Props.OnDisk
/-
Property theorems C81: saving on a file system.
-/
namespace KompareDiff2
open Spec

theorem noSlash_slash (d : Str) : noSlash (d ++ ['/']) = d := by
  unfold noSlash
  rw [if_pos (by simp), List.dropLast_concat]

theorem noSlash_file {d f : Str} (hf : f ≠ [] ∧ '/' ∉ f) : noSlash (d ++ f) = d ++ f := by
  unfold noSlash
  rw [if_neg]
  intro q
  rw [List.getLast?_append] at q
  cases hl : f.getLast? with
  | none => exact hf.1 (List.getLast?_eq_none_iff.1 hl)
  | some c =>
    rw [hl] at q
    simp only [Option.some_or, Option.some.injEq] at q
    subst q
    exact hf.2 (List.mem_of_getLast? hl)

theorem parentDir_file {d f : Str} (hf : f ≠ [] ∧ '/' ∉ f) : parentDir (d ++ ['/'] ++ f) = d := by
  unfold parentDir
  rw [noSlash_file hf, List.reverse_append, List.reverse_append]
  have : ∀ (a b : Str), '/' ∉ a → (a ++ (['/'].reverse ++ b)).dropWhile (fun c => decide (c ≠ '/')) = '/' :: b := by
    intro a b
    induction a with
    | nil => intro _; rfl
    | cons c a ih =>
      intro h
      rw [List.cons_append, List.dropWhile_cons, if_pos]
      · exact ih (fun q => h (List.mem_cons_of_mem _ q))
      · have : c ≠ '/' := fun q => h (by rw [q]; exact List.mem_cons_self ..)
        simpa using this
  rw [this _ _ (fun q => hf.2 (List.mem_reverse.1 q))]
  simp

theorem parentDir_slash {d : Str} (h : d.getLast? ≠ some '/') : parentDir (d ++ ['/']) = parentDir d := by
  unfold parentDir
  rw [noSlash_slash]
  unfold noSlash
  rw [if_neg h]

/-- The jobs when there is a place for the file. -/
theorem jobs_place {r : Remote} {t : Tree} {i : Info} {m : DModel} {text d : Str} (hmode : i.mode = .ComparingDirs) (hd : MLState.saveDir i m = d ++ ['/'])
    (hp : Place r t d m.destinationFile) :
    ∃ v t', MLState.saveJobs r t i m text = (v, t') ∧ v.failure i.mode = none ∧ Written t t' d (saveTarget i m) text := by
  unfold MLState.saveJobs saveTarget
  rw [if_pos hmode, if_pos hmode]
  dsimp only
  have hst : t.stat (MLState.saveDir i m) = t.dir d := by
    unfold Tree.stat
    rw [hd, noSlash_slash]
    simp
  have hcopy : ∀ t1 : Tree, t1.dir d = true → t1.dir (d ++ ['/'] ++ m.destinationFile) = false → t1.copy r text (MLState.saveDir i m ++ m.destinationFile) none =
      some { t1 with file := fun q => if q = MLState.saveDir i m ++ m.destinationFile then some (text, (none : Option Int).getD (r.mode (MLState.saveDir i m ++ m.destinationFile) ((t1.file (MLState.saveDir i m ++ m.destinationFile)).map Prod.snd))) else t1.file q } := by
    intro t1 h1 h2
    unfold Tree.copy
    rw [if_pos]
    rw [hd]
    exact ⟨hp.write, by rw [parentDir_file hp.name]; exact h1, by rw [noSlash_file hp.name]; exact h2⟩
  have hne : d ++ ['/'] ++ m.destinationFile ≠ d := by
    intro q
    have := congrArg List.length q
    simp at this
  rw [hst]
  cases hdir : t.dir d with
  | true =>
    rw [if_pos rfl, hcopy t hdir hp.free]
    refine ⟨_, _, rfl, ?_, ⟨_, if_pos rfl⟩, hdir, fun q hq => if_neg hq, fun _ _ => rfl⟩
    unfold MLState.SaveEnv.failure
    simp
  | false =>
    rw [if_neg (by simp)]
    obtain ⟨h1, h2, h3, h4⟩ : t.dir (parentDir d) = true ∧ r.mayCreate d = true ∧ t.file d = none ∧ d.getLast? ≠ some '/' := by
      rcases hp.place with h | h
      · rw [hdir] at h; cases h
      · exact h
    have hmk : t.mkdir r (MLState.saveDir i m) = some { t with dir := fun q => if q = d then true else t.dir q } := by
      unfold Tree.mkdir
      rw [hd, noSlash_slash, parentDir_slash h4, if_pos ⟨h2, h1, hdir, h3⟩]
    rw [hmk]
    dsimp only
    rw [hcopy _ (if_pos rfl) ((if_neg hne).trans hp.free)]
    refine ⟨_, _, rfl, ?_, ⟨_, if_pos rfl⟩, if_pos rfl, fun q hq => if_neg hq, fun q hq => if_neg hq⟩
    unfold MLState.SaveEnv.failure
    simp

theorem saveOn_unsaved {r : Remote} {t : Tree} {s : MLState} {m : Nat} {i : Info} (hm : m ∉ s.dead) (hi : s.info = some i)
    (hu : (s.store m).hasUnsavedChanges s.heap = true) :
    MLState.saveOn r t s m = (s.saveDestination (MLState.saveJobs r t i (s.store m) ((s.store m).savedText s.heap)).1 m).bind
      (fun x => Res.ok ((MLState.saveJobs r t i (s.store m) ((s.store m).savedText s.heap)).2, x.1, x.2)) := by
  have hmod : s.model (some m) = Res.ok m := by unfold MLState.model; simp [hm]
  unfold MLState.saveOn
  rw [hmod, Res.bind_ok, if_neg (by rw [hu]; simp), hi]
  rfl

theorem saveOn_saved {r : Remote} {t : Tree} {s : MLState} {m : Nat} (hm : m ∉ s.dead) (hu : (s.store m).hasUnsavedChanges s.heap = false) :
    MLState.saveOn r t s m = Res.ok (t, s, true) := by
  have hmod : s.model (some m) = Res.ok m := by unfold MLState.model; simp [hm]
  unfold MLState.saveOn
  rw [hmod, Res.bind_ok, if_pos hu]

/-- **C81, files.** Saving when two files were compared: if the destination may be written (it is in an existing directory and is not one itself), it
has the text of the model afterwards, and the permissions it had; no other file and no directory is changed, and nothing is unsaved. -/
theorem C81_file {r : Remote} {t : Tree} {s : MLState} {m : Nat} {i : Info} (hm : m ∉ s.dead) (hi : s.info = some i) (hmode : i.mode ≠ .ComparingDirs)
    (hu : (s.store m).hasUnsavedChanges s.heap = true) (hw : r.mayWrite i.destination = true) (hd : t.dir (parentDir i.destination) = true)
    (hf : t.dir (noSlash i.destination) = false) :
    ∃ t' s', MLState.saveOn r t s m = Res.ok (t', s', true) ∧ (s'.store m).hasUnsavedChanges s'.heap = false ∧
      (∃ p, t'.file i.destination = some ((s.store m).savedText s.heap, p) ∧ ∀ old p', t.file i.destination = some (old, p') → p = p') ∧
      (∀ q, q ≠ i.destination → t'.file q = t.file q) ∧ t'.dir = t.dir := by
  have hj : MLState.saveJobs r t i (s.store m) ((s.store m).savedText s.heap) = ({ copyOk := true },
      { t with file := fun q => if q = i.destination then some ((s.store m).savedText s.heap, ((t.file i.destination).map Prod.snd).getD (r.mode i.destination ((t.file i.destination).map Prod.snd))) else t.file q }) := by
    unfold MLState.saveJobs
    rw [if_neg hmode]
    dsimp only
    unfold Tree.copy
    rw [if_pos ⟨hw, hd, hf⟩]
  have hu' : ∃ d ∈ (s.store m).differences, (s.heap.cell d).unsaved = true := by
    unfold DModel.hasUnsavedChanges at hu; simpa using hu
  obtain ⟨hp, k1, k2, _⟩ := ((C36_save (v := { copyOk := true }) hm hi).2 hu').2 (by unfold MLState.SaveEnv.failure; simp)
  rw [saveOn_unsaved hm hi hu, hj]
  dsimp only
  rw [k1]
  refine ⟨_, _, rfl, ?_, ⟨_, if_pos rfl, ?_⟩, fun q hq => if_neg hq, rfl⟩
  · unfold DModel.hasUnsavedChanges
    rw [List.any_eq_false]
    intro d hd
    show ¬ (hp.cell d).unsaved = true
    rw [k2 d hd]
    simp
  · intro old p' e
    rw [e]
    rfl

/-- **C81, directories.** Saving when two directories were compared: if the directory of the file exists or can be created in an existing one, the
file has the text of the model afterwards; no other file is changed, no other directory created, and nothing of the model is unsaved. -/
theorem C81_dirs {r : Remote} {t : Tree} {s : MLState} {m : Nat} {i : Info} {d : Str} (hm : m ∉ s.dead) (hi : s.info = some i) (hmode : i.mode = .ComparingDirs)
    (hu : (s.store m).hasUnsavedChanges s.heap = true) (hd : MLState.saveDir i (s.store m) = d ++ ['/']) (hp : Place r t d (s.store m).destinationFile) :
    ∃ t' s', MLState.saveOn r t s m = Res.ok (t', s', true) ∧ (s'.store m).hasUnsavedChanges s'.heap = false ∧
      Written t t' d (saveTarget i (s.store m)) ((s.store m).savedText s.heap) := by
  obtain ⟨v, t', e, hv, hw⟩ := jobs_place (text := (s.store m).savedText s.heap) hmode hd hp
  have hu' : ∃ d ∈ (s.store m).differences, (s.heap.cell d).unsaved = true := by
    unfold DModel.hasUnsavedChanges at hu; simpa using hu
  obtain ⟨hh, k1, k2, _⟩ := ((C36_save (v := v) hm hi).2 hu').2 hv
  rw [saveOn_unsaved hm hi hu, e]
  dsimp only
  rw [k1]
  refine ⟨_, _, rfl, ?_, hw⟩
  unfold DModel.hasUnsavedChanges
  rw [List.any_eq_false]
  intro d hd
  show ¬ (hh.cell d).unsaved = true
  rw [k2 d hd]
  simp

/-- **C81.** Whatever the file system permits: saving a model changes no file but its target, and creates no directory but the one of the target.  If
the target has changed, it has the text of the model.  Without unsaved changes nothing happens. -/
theorem C81_frame {r : Remote} {t t' : Tree} {s s' : MLState} {m : Nat} {i : Info} {b : Bool} (hm : m ∉ s.dead) (hi : s.info = some i)
    (h : MLState.saveOn r t s m = Res.ok (t', s', b)) :
    (∀ q, q ≠ saveTarget i (s.store m) → t'.file q = t.file q) ∧
    (t'.file (saveTarget i (s.store m)) = t.file (saveTarget i (s.store m)) ∨ ∃ p, t'.file (saveTarget i (s.store m)) = some ((s.store m).savedText s.heap, p)) ∧
    (∀ q, t.dir q = true → t'.dir q = true) ∧ (∀ q, t'.dir q = true → t.dir q = true ∨ q = noSlash (MLState.saveDir i (s.store m))) ∧
    ((s.store m).hasUnsavedChanges s.heap = false → t' = t) := by
  cases hu : (s.store m).hasUnsavedChanges s.heap with
  | false =>
    rw [saveOn_saved hm hu] at h
    cases h
    exact ⟨fun _ _ => rfl, .inl rfl, fun _ h => h, fun _ h => .inl h, fun _ => rfl⟩
  | true =>
    rw [saveOn_unsaved hm hi hu] at h
    obtain ⟨x, _, h⟩ := Res.bind_eq_ok.1 h
    have ht : (MLState.saveJobs r t i (s.store m) ((s.store m).savedText s.heap)).2 = t' := by cases h; rfl
    clear h
    have copies : ∀ {a b : Tree} {p text : Str} {perm : Option Int}, a.copy r text p perm = some b →
        (∀ q, q ≠ p → b.file q = a.file q) ∧ (∃ x, b.file p = some (text, x)) ∧ b.dir = a.dir := by
      intro a b p text perm h
      unfold Tree.copy at h
      split at h
      · cases h
        exact ⟨fun q hq => if_neg hq, ⟨_, if_pos rfl⟩, rfl⟩
      · cases h
    have makes : ∀ {a b : Tree} {p : Str}, a.mkdir r p = some b →
        b.file = a.file ∧ (∀ q, a.dir q = true → b.dir q = true) ∧ (∀ q, b.dir q = true → a.dir q = true ∨ q = noSlash p) := by
      intro a b p h
      unfold Tree.mkdir at h
      split at h
      · cases h
        refine ⟨rfl, fun q hq => ?_, fun q hq => ?_⟩
        · show (if q = noSlash p then true else a.dir q) = true
          split
          · rfl
          · exact hq
        · have hq : (if q = noSlash p then true else a.dir q) = true := hq
          split at hq
          · rename_i e; exact .inr e
          · exact .inl hq
      · cases h
    refine and_assoc.1 (and_assoc.1 (and_assoc.1 ⟨?_, fun q => by cases q⟩))
    rw [and_assoc, and_assoc, ← ht]
    unfold MLState.saveJobs saveTarget
    by_cases hmode : i.mode = .ComparingDirs
    · rw [if_pos hmode, if_pos hmode]
      dsimp only
      split
      · split
        · rename_i e
          obtain ⟨c1, c2, c3⟩ := copies e
          exact ⟨c1, .inr c2, fun q hq => by rw [c3]; exact hq, fun q hq => by rw [c3] at hq; exact .inl hq⟩
        · exact ⟨fun _ _ => rfl, .inl rfl, fun _ h => h, fun _ h => .inl h⟩
      · split
        · exact ⟨fun _ _ => rfl, .inl rfl, fun _ h => h, fun _ h => .inl h⟩
        · rename_i e0
          obtain ⟨d1, d2, d3⟩ := makes e0
          split
          · rename_i e
            obtain ⟨c1, c2, c3⟩ := copies e
            exact ⟨fun q hq => (c1 q hq).trans (by rw [d1]), .inr c2, fun q hq => by rw [c3]; exact d2 q hq, fun q hq => by rw [c3] at hq; exact d3 q hq⟩
          · exact ⟨fun _ _ => by rw [d1], .inl (by rw [d1]), d2, d3⟩
    · rw [if_neg hmode, if_neg hmode]
      dsimp only
      split
      · rename_i e
        obtain ⟨c1, c2, c3⟩ := copies e
        exact ⟨c1, .inr c2, fun q hq => by rw [c3]; exact hq, fun q hq => by rw [c3] at hq; exact .inl hq⟩
      · exact ⟨fun _ _ => rfl, .inl rfl, fun _ h => h, fun _ h => .inl h⟩

/-- **C81, defect.** Saving when two directories were compared: a file whose directory does not exist, nor the one above it, is not saved: the user
is told that the directory could not be created.  "Save all" gives up at it: if it is the first model, nothing at all is saved. -/
theorem C81_deep_defect {r : Remote} {t : Tree} {s : MLState} {m : Nat} {i : Info} {d : Str} (hm : m ∉ s.dead) (hi : s.info = some i)
    (hmode : i.mode = .ComparingDirs) (hu : (s.store m).hasUnsavedChanges s.heap = true) (hd : MLState.saveDir i (s.store m) = d ++ ['/'])
    (hl : d.getLast? ≠ some '/') (h1 : t.dir d = false) (h2 : t.dir (parentDir d) = false) :
    MLState.saveOn r t s m = Res.ok (t, s.emit (.error .mkdir), false) ∧
    ∀ rest, s.models = some (m :: rest) → MLState.saveAllOn r t s = Res.ok (t, s.emit (.error .mkdir), false) := by
  have hj : MLState.saveJobs r t i (s.store m) ((s.store m).savedText s.heap) = ({ statOk := false, mkdirOk := false }, t) := by
    unfold MLState.saveJobs
    rw [if_pos hmode]
    dsimp only
    have hst : t.stat (MLState.saveDir i (s.store m)) = false := by
      unfold Tree.stat
      rw [hd, noSlash_slash, h1]
      simp
    have hmk : t.mkdir r (MLState.saveDir i (s.store m)) = none := by
      unfold Tree.mkdir
      rw [hd, noSlash_slash, parentDir_slash hl, if_neg]
      rintro ⟨_, q, _⟩
      rw [h2] at q
      cases q
    rw [hst, if_neg (by simp), hmk]
  have hu' : ∃ d ∈ (s.store m).differences, (s.heap.cell d).unsaved = true := by
    unfold DModel.hasUnsavedChanges at hu; simpa using hu
  have key : MLState.saveOn r t s m = Res.ok (t, s.emit (.error .mkdir), false) := by
    rw [saveOn_unsaved hm hi hu, hj]
    dsimp only
    rw [((C36_save (v := { statOk := false, mkdirOk := false }) hm hi).2 hu').1 .mkdir (by
      unfold MLState.SaveEnv.failure
      rw [hmode]
      simp)]
    rfl
  refine ⟨key, fun rest hr => ?_⟩
  unfold MLState.saveAllOn
  rw [hr]
  dsimp only
  unfold MLState.saveLoopOn
  rw [key]
  rfl

theorem Spec.Place.kept {r : Remote} {t t1 : Tree} {d d' f target text : Str} (h : Place r t d f) (w : Written t t1 d' target text)
    (h1 : d ≠ target) (h2 : d ++ ['/'] ++ f ≠ d') : Place r t1 d f := by
  obtain ⟨_, w2, w3, w4⟩ := w
  have mono : ∀ q, t.dir q = true → t1.dir q = true := by
    intro q hq
    by_cases e : q = d'
    · rw [e]; exact w2
    · rw [w4 q e]; exact hq
  refine ⟨h.name, ?_, h.write, by rw [w4 _ h2]; exact h.free⟩
  rcases h.place with q | ⟨q1, q2, q3, q4⟩
  · exact .inl (mono _ q)
  · exact .inr ⟨mono _ q1, q2, by rw [w3 d h1]; exact q3, q4⟩

/-- The loop of "save all" when there is a place for every file. -/
theorem saveLoopOn_all {r : Remote} {i : Info} (hmode : i.mode = .ComparingDirs) (d : Nat → Str) : ∀ (l : List Nat) (t : Tree) (s : MLState),
    s.info = some i → (∀ m ∈ l, m ∉ s.dead) →
    l.Pairwise (fun m m' => ∀ d ∈ (s.store m').differences, d ∉ (s.store m).differences) →
    (∀ m ∈ l, MLState.saveDir i (s.store m) = d m ++ ['/']) → (∀ m ∈ l, Place r t (d m) (s.store m).destinationFile) →
    l.Pairwise (fun m m' => saveTarget i (s.store m) ≠ saveTarget i (s.store m')) →
    (∀ m ∈ l, ∀ m' ∈ l, saveTarget i (s.store m) ≠ d m') →
    ∃ t' s', MLState.saveLoopOn r l t s = Res.ok (t', s', true) ∧ s'.store = s.store ∧ s'.models = s.models ∧
      (∀ m ∈ l, (s.store m).hasUnsavedChanges s'.heap = false) ∧
      (∀ x, (s.heap.cell x).unsaved = false → (s'.heap.cell x).unsaved = false) ∧
      (∀ m ∈ l, (s.store m).hasUnsavedChanges s.heap = true → ∃ p, t'.file (saveTarget i (s.store m)) = some ((s.store m).savedText s.heap, p)) ∧
      (∀ q, (∀ m ∈ l, (s.store m).hasUnsavedChanges s.heap = true → q ≠ saveTarget i (s.store m)) → t'.file q = t.file q) ∧
      (∀ q, t.dir q = true → t'.dir q = true) ∧
      (∀ q, t'.dir q = true → t.dir q = true ∨ ∃ m ∈ l, (s.store m).hasUnsavedChanges s.heap = true ∧ q = d m) := by
  intro l
  induction l with
  | nil =>
    intro t s _ _ _ _ _ _ _
    exact ⟨t, s, rfl, rfl, rfl, (fun _ h => by cases h), fun _ h => h, (fun _ h => by cases h), fun _ _ => rfl, fun _ h => h, fun _ h => .inl h⟩
  | cons m l ih =>
    intro t s hi hlive hdis hd hp htar hap
    obtain ⟨p1, p2⟩ := List.pairwise_cons.1 hdis
    obtain ⟨t1', t2'⟩ := List.pairwise_cons.1 htar
    have hm := hlive m (List.mem_cons_self ..)
    have tail : ∀ {x}, x ∈ l → x ∈ m :: l := fun h => List.mem_cons_of_mem _ h
    cases hu : (s.store m).hasUnsavedChanges s.heap with
    | false =>
      obtain ⟨t', s', k1, k2, k3, k4, k5, k6, k7, k8, k9⟩ := ih t s hi (fun x hx => hlive x (tail hx)) p2 (fun x hx => hd x (tail hx)) (fun x hx => hp x (tail hx)) t2'
        (fun x hx y hy => hap x (tail hx) y (tail hy))
      refine ⟨t', s', ?_, k2, k3, ?_, k5, ?_, ?_, k8, ?_⟩
      · unfold MLState.saveLoopOn
        rw [saveOn_saved hm hu]
        exact k1
      · intro x hx
        rcases List.mem_cons.1 hx with rfl | hx
        · unfold DModel.hasUnsavedChanges at hu ⊢
          rw [List.any_eq_false] at hu ⊢
          intro y hy
          have := hu y hy
          rw [k5 y (by simpa using this)]
          simp
        · exact k4 x hx
      · intro x hx hux
        rcases List.mem_cons.1 hx with rfl | hx
        · rw [hu] at hux; cases hux
        · exact k6 x hx hux
      · exact fun q hq => k7 q (fun x hx => hq x (tail hx))
      · intro q hq
        rcases k9 q hq with h | ⟨x, hx, h⟩
        · exact .inl h
        · exact .inr ⟨x, tail hx, h⟩
    | true =>
      obtain ⟨v, t1, e, hv, hw⟩ := jobs_place (text := (s.store m).savedText s.heap) hmode (hd m (List.mem_cons_self ..)) (hp m (List.mem_cons_self ..))
      have hu' : ∃ d ∈ (s.store m).differences, (s.heap.cell d).unsaved = true := by
        unfold DModel.hasUnsavedChanges at hu; simpa using hu
      obtain ⟨hh, j1, j2, j3⟩ := ((C36_save (v := v) hm hi).2 hu').2 hv
      have hus : ∀ x ∈ l, (s.store x).hasUnsavedChanges hh = (s.store x).hasUnsavedChanges s.heap := by
        intro x hx
        have hcell : ∀ y ∈ (s.store x).differences, hh.cell y = s.heap.cell y := fun y hy => j3 y (p1 x hx y hy)
        unfold DModel.hasUnsavedChanges
        rw [Bool.eq_iff_iff, List.any_eq_true, List.any_eq_true]
        constructor
        · rintro ⟨y, hy, h⟩; exact ⟨y, hy, by rw [hcell y hy] at h; exact h⟩
        · rintro ⟨y, hy, h⟩; exact ⟨y, hy, by rw [hcell y hy]; exact h⟩
      have hst : ∀ x, (s.store x).savedText hh = (s.store x).savedText s.heap := by
        intro x
        refine savedText_unsaved _ (fun y => ?_)
        by_cases hy : y ∈ (s.store m).differences
        · exact .inr (j2 y hy)
        · exact .inl (j3 y hy)
      have htg : ∀ x ∈ l, saveTarget i (s.store x) = d x ++ ['/'] ++ (s.store x).destinationFile := by
        intro x hx
        unfold saveTarget
        rw [if_pos hmode, hd x (tail hx)]
      generalize hs1 : ({ s with heap := hh, log := s.log ++ [.upload (saveTarget i (s.store m)) ((s.store m).savedText s.heap)] } : MLState) = s1 at j1
      have q1 : s1.store = s.store := by rw [← hs1]
      have q2 : s1.heap = hh := by rw [← hs1]
      have q3 : s1.info = s.info := by rw [← hs1]
      have q4 : s1.dead = s.dead := by rw [← hs1]
      have q5 : s1.models = s.models := by rw [← hs1]
      obtain ⟨t', s', k1, k2, k3, k4, k5, k6, k7, k8, k9⟩ := ih t1 s1 (q3.trans hi) (fun x hx => by rw [q4]; exact hlive x (tail hx)) (by rw [q1]; exact p2)
        (fun x hx => by rw [q1]; exact hd x (tail hx))
        (fun x hx => by
          rw [q1]
          exact (hp x (tail hx)).kept hw (fun q => hap m (List.mem_cons_self ..) x (tail hx) q.symm)
            (by rw [← htg x hx]; exact hap x (tail hx) m (List.mem_cons_self ..)))
        (by rw [q1]; exact t2') (by rw [q1]; exact fun x hx y hy => hap x (tail hx) y (tail hy))
      rw [q1] at k2 k4 k6 k7 k9
      rw [q2] at k5 k6 k7 k9
      obtain ⟨w1, w2, w3, w4⟩ := hw
      refine ⟨t', s', ?_, k2, k3.trans q5, ?_, ?_, ?_, ?_, ?_, ?_⟩
      · unfold MLState.saveLoopOn
        rw [saveOn_unsaved hm hi hu, e]
        dsimp only
        rw [j1]
        exact k1
      · intro x hx
        rcases List.mem_cons.1 hx with rfl | hx
        · unfold DModel.hasUnsavedChanges
          rw [List.any_eq_false]
          intro y hy
          rw [k5 y (by rw [j2 y hy])]
          simp
        · exact k4 x hx
      · intro x hx
        refine k5 x ?_
        by_cases hy : x ∈ (s.store m).differences
        · rw [j2 x hy]
        · rw [j3 x hy]; exact hx
      · intro x hx hux
        rcases List.mem_cons.1 hx with rfl | hx
        · obtain ⟨p, hp⟩ := w1
          exact ⟨p, by rw [k7 _ (fun y hy _ => t1' y hy)]; exact hp⟩
        · have := k6 x hx (by rw [hus x hx]; exact hux)
          rw [hst x] at this
          exact this
      · intro q hq
        rw [k7 q (fun x hx hux => hq x (tail hx) (by rw [← hus x hx]; exact hux))]
        exact w3 q (hq m (List.mem_cons_self ..) hu)
      · intro q hq
        refine k8 q ?_
        by_cases e : q = d m
        · rw [e]; exact w2
        · rw [w4 q e]; exact hq
      · intro q hq
        rcases k9 q hq with h | ⟨x, hx, h1, h2⟩
        · by_cases e : q = d m
          · exact .inr ⟨m, List.mem_cons_self .., hu, e⟩
          · rw [w4 q e] at h; exact .inl h
        · exact .inr ⟨x, tail hx, by rw [← hus x hx]; exact h1, h2⟩

/-- **C81, "save all" when two directories were compared.** In every state that can arise: if there is a place for every file (its directory exists, or
can be created in an existing one) and the files and directories do not get into each other's way, then every model with unsaved changes is
saved: its file has the text of the model.  No other file is changed, no other directory is created, and nothing is unsaved any more. -/
theorem C81_all {r : Remote} {t : Tree} {s : MLState} (hs : Reachable s) {l : List Nat} (hl : s.models = some l) (hne : l ≠ [])
    {i : Info} (hi : s.info = some i) (hmode : i.mode = .ComparingDirs) (d : Nat → Str)
    (hd : ∀ m ∈ l, MLState.saveDir i (s.store m) = d m ++ ['/']) (hp : ∀ m ∈ l, Place r t (d m) (s.store m).destinationFile)
    (distinct : l.Pairwise (fun m m' => saveTarget i (s.store m) ≠ saveTarget i (s.store m')))
    (apart : ∀ m ∈ l, ∀ m' ∈ l, saveTarget i (s.store m) ≠ d m') :
    ∃ t' s', MLState.saveAllOn r t s = Res.ok (t', s', true) ∧ s'.hasUnsavedChanges = false ∧
      (∀ m ∈ l, (s.store m).hasUnsavedChanges s.heap = true → ∃ p, t'.file (saveTarget i (s.store m)) = some ((s.store m).savedText s.heap, p)) ∧
      (∀ q, (∀ m ∈ l, (s.store m).hasUnsavedChanges s.heap = true → q ≠ saveTarget i (s.store m)) → t'.file q = t.file q) ∧
      (∀ q, t.dir q = true → t'.dir q = true) ∧
      (∀ q, t'.dir q = true → t.dir q = true ∨ ∃ m ∈ l, (s.store m).hasUnsavedChanges s.heap = true ∧ q = d m) := by
  have o := hs.owned
  have e : s.models.getD [] = l := by rw [hl]; rfl
  have h1 := o.models
  have h2 := o.diffs
  rw [e] at h1 h2
  have hpw : l.Pairwise (fun m m' => ∀ d ∈ (s.store m').differences, d ∉ (s.store m).differences) := by
    refine List.Pairwise.imp_of_mem ?_ (List.pairwise_iff_forall_sublist.2 (fun {a b} hab => (List.pairwise_iff_forall_sublist.1 h1 hab : a ≠ b)))
    intro a b ha hb hab d hd
    exact flatMap_nodup_disjoint h1 h2 hb ha (fun q => hab q.symm) hd
  have hm : ∀ m ∈ l, m ∉ s.dead := fun m hm => o.live m (by rw [e]; exact hm)
  obtain ⟨t', s', k1, k2, k3, k4, _, k6, k7, k8, k9⟩ := saveLoopOn_all (r := r) hmode d l t s hi hm hpw hd hp distinct apart
  refine ⟨t', s', ?_, ?_, k6, k7, k8, k9⟩
  · unfold MLState.saveAllOn
    rw [hl]
    cases l with
    | nil => exact absurd rfl hne
    | cons m l => exact k1
  · unfold MLState.hasUnsavedChanges
    rw [k3, hl]
    show l.any _ = false
    rw [List.any_eq_false, k2]
    intro x hx
    rw [k4 x hx]
    simp

/-- A name splits in one way only. -/
theorem splitOf_unique {path d f d' f' : Str} (h : SplitOf path d f) (h' : SplitOf path d' f') : d = d' ∧ f = f' := by
  obtain ⟨h1, h2, h3⟩ := h
  obtain ⟨g1, g2, g3⟩ := h'
  have key : ∀ {d f d' f' : Str}, d ++ f = d' ++ f' → '/' ∉ f → (d' = [] ∨ d'.getLast? = some '/') → d.length < d'.length → False := by
    intro d f d' f' e hf hd hl
    obtain ⟨x, hx⟩ : d <+: d' := List.prefix_of_prefix_length_le ⟨_, e⟩ ⟨_, rfl⟩ (by omega)
    rw [← hx, List.append_assoc] at e
    have e := List.append_cancel_left e
    have hne : x ≠ [] := by rintro rfl; rw [List.append_nil] at hx; rw [hx] at hl; omega
    rcases hd with hd | hd
    · rw [hd] at hl; simp at hl
    · rw [← hx, List.getLast?_append, List.getLast?_eq_some_getLast hne, Option.some_or] at hd
      exact hf (by rw [e]; exact List.mem_append_left _ (by rw [← Option.some.inj hd]; exact List.getLast_mem hne))
  have e := h1.trans g1.symm
  have hl : d.length = d'.length := by
    by_cases a : d.length < d'.length
    · exact (key e h2 g3 a).elim
    · by_cases b : d'.length < d.length
      · exact (key e.symm g2 h3 b).elim
      · omega
  exact List.append_inj e hl

/-- The directory a file is saved to is that of its place in the destination directory. -/
theorem under_dir {i : Info} {m : DModel} (hmode : i.mode = .ComparingDirs) (p : m.PathsFit) {rest d f : Str} (h : Under i.localDestination m.destination rest)
    (hu : Under i.destination (i.destination ++ rest) rest) (hs : SplitOf (i.destination ++ rest) (d ++ ['/']) f) :
    MLState.saveDir i m = d ++ ['/'] ∧ m.destinationFile = f := by
  have ht := under_target hmode p h
  unfold saveTarget at ht
  rw [if_pos hmode] at ht
  obtain ⟨_, q1, q2, q3⟩ := p
  refine splitOf_unique ⟨ht, q2, ?_⟩ hs
  unfold MLState.saveDir at ht ⊢
  by_cases hp : i.localDestination.isPrefixOf m.destinationPath = true
  · rw [if_pos hp] at ht ⊢
    obtain ⟨x, hx⟩ := List.isPrefixOf_iff_prefix.1 hp
    have hxd : m.destinationPath.drop i.localDestination.length = x := by rw [← hx, List.drop_left]
    rw [hxd] at ht ⊢
    rw [List.append_assoc] at ht
    have hr := List.append_cancel_left ht
    by_cases hne : x = []
    · subst hne
      rw [List.append_nil]
      rcases hu.2 with hu | hu | hu
      · exact .inl hu
      · exact .inr hu
      · rw [← hr] at hu; exact absurd hu q2
    · refine .inr ?_
      rw [List.getLast?_append, List.getLast?_eq_some_getLast hne, Option.some_or]
      rcases q3 with q3 | q3
      · rw [← hx] at q3
        exact absurd (List.append_eq_nil_iff.1 q3).2 hne
      · rw [← hx, List.getLast?_append, List.getLast?_eq_some_getLast hne, Option.some_or] at q3
        exact q3
  · exfalso
    rw [if_neg hp] at ht
    apply hp
    rw [List.isPrefixOf_iff_prefix]
    by_cases hl : i.localDestination.length ≤ m.destinationPath.length
    · exact List.prefix_of_prefix_length_le ⟨_, rfl⟩ ⟨_, q1.trans h.1⟩ hl
    · rw [List.append_assoc] at ht
      have hr := List.append_cancel_left ht
      have := h.1
      rw [← q1, ← hr] at this
      have := congrArg List.length this
      simp only [List.length_append] at this
      have : i.localDestination.length = 0 := by omega
      omega

theorem run_paths {s s1 s2 : MLState} {op : MLOp} (hs : Reachable s) (ho : OpensDiff op s s1) (hn : TakesNames op) {ops : List UserOp}
    (hops : ∀ o ∈ ops, o.Ok s1) (hrun : runUser ops s1 = Res.ok s2) {ms : List Nat} (hms : s2.models = some ms) : ∀ m ∈ ms, (s2.store m).PathsFit := by
  obtain ⟨_, _, ms', k, j, m, d, o1, a1⟩ := (ho.inUse hs).facts
  obtain ⟨s2', k', j', m', d', g⟩ := runUser_ok ops o1 a1 hops
  have e : s2' = s2 := Res.ok.inj (g.ok.symm.trans hrun)
  subst e
  exact fun m hm => paths_of_head (g.frame.head m) (opens_paths hs ho hn m (by rw [← g.frame.models, hms]; exact hm))

/-- **C81, comparing directories and saving all on a file system.** After two directories were compared and the user has selected and applied
differences: if the directory of every changed file exists in the destination directory or can be created in an existing one, and the file may be
written, then "save all" writes the text of every changed file to its place in the destination directory; it changes no other file and creates no
other directories. -/
theorem C81_compared {r : Remote} {t : Tree} {s s1 s2 : MLState} {op : MLOp} (hs : Reachable s) (ho : OpensDiff op s s1) (hn : TakesNames op) (ops : List UserOp)
    (hops : ∀ o ∈ ops, o.Ok s1) (hrun : runUser ops s1 = Res.ok s2) {i : Info} (hi : s2.info = some i) (hmode : i.mode = .ComparingDirs) {ms : List Nat}
    (hms : s2.models = some ms) (rest dir file : Nat → Str) (hu : ∀ m ∈ ms, Under i.localDestination (s2.store m).destination (rest m))
    (hu' : ∀ m ∈ ms, Under i.destination (i.destination ++ rest m) (rest m)) (hsp : ∀ m ∈ ms, SplitOf (i.destination ++ rest m) (dir m ++ ['/']) (file m))
    (hp : ∀ m ∈ ms, Place r t (dir m) (file m))
    (distinct : ms.Pairwise (fun m m' => (s2.store m).destination ≠ (s2.store m').destination))
    (apart : ∀ m ∈ ms, ∀ m' ∈ ms, i.destination ++ rest m ≠ dir m') :
    ∃ t' s', MLState.saveAllOn r t s2 = Res.ok (t', s', true) ∧ s'.hasUnsavedChanges = false ∧
      (∀ m ∈ ms, (s2.store m).hasUnsavedChanges s2.heap = true → ∃ p, t'.file (i.destination ++ rest m) = some ((s2.store m).savedText s2.heap, p)) ∧
      (∀ q, (∀ m ∈ ms, (s2.store m).hasUnsavedChanges s2.heap = true → q ≠ i.destination ++ rest m) → t'.file q = t.file q) ∧
      (∀ q, t.dir q = true → t'.dir q = true) ∧
      (∀ q, t'.dir q = true → t.dir q = true ∨ ∃ m ∈ ms, (s2.store m).hasUnsavedChanges s2.heap = true ∧ q = dir m) := by
  obtain ⟨_, _, ms', k, j, m, d, o1, a1⟩ := (ho.inUse hs).facts
  obtain ⟨s2', k', j', m', d', g⟩ := runUser_ok ops o1 a1 hops
  have e : s2' = s2 := Res.ok.inj (g.ok.symm.trans hrun)
  subst e
  have hr := reachable_runUser ops (ho.reachable hs) hrun
  have hpf := run_paths hs ho hn hops hrun hms
  have ht : ∀ m ∈ ms, saveTarget i (s2'.store m) = i.destination ++ rest m := fun m hm => under_target hmode (hpf m hm) (hu m hm)
  have hd : ∀ m ∈ ms, MLState.saveDir i (s2'.store m) = dir m ++ ['/'] ∧ (s2'.store m).destinationFile = file m :=
    fun m hm => under_dir hmode (hpf m hm) (hu m hm) (hu' m hm) (hsp m hm)
  have hne : ms ≠ [] := by
    have := g.opened.models
    rw [hms] at this
    cases this
    exact g.opened.ne
  obtain ⟨t', s', k1, k2, k3, k4, k5, k6⟩ := C81_all (r := r) (t := t) hr hms hne hi hmode dir (fun m hm => (hd m hm).1)
    (fun m hm => by rw [(hd m hm).2]; exact hp m hm)
    (by
      refine List.Pairwise.imp_of_mem ?_ distinct
      intro a b ha hb hab q
      rw [ht a ha, ht b hb] at q
      apply hab
      rw [(hu a ha).1, (hu b hb).1, List.append_cancel_left q])
    (fun m hm m' hm' => by rw [ht m hm]; exact apart m hm m' hm')
  refine ⟨t', s', k1, k2, fun m hm hx => ?_, fun q hq => k4 q (fun m hm hx => ?_), k5, k6⟩
  · rw [← ht m hm]; exact k3 m hm hx
  · rw [ht m hm]; exact hq m hm hx

/-- A file system without the directory of one of the files: `/home/new` exists, `/home/new/sub` does not. -/
def exampleTree : Tree where
  dir q := decide (q = str "file:///home" ∨ q = str "file:///home/new")
  file q := if q = str "file:///home/new/b.txt" then some (str "b\n", 420) else none

/-- Everything is permitted. -/
def exampleRemote : Remote := ⟨fun _ => true, fun _ => true, fun _ _ => 420⟩

/-- Directories were compared and a difference was applied: the hypotheses of `C81_compared`, `C81_all`, `C81_dirs` and `C81_frame` are met, with a
directory that has to be created; and on a file system without these directories those of `C81_deep_defect`. -/
theorem tree_example : ∃ (s1 s2 : MLState) (ops : List UserOp) (i : Info) (a b : Nat) (rest dir file : Nat → Str), OpensDiff (.diffFinished emptyEnv dirOutput) dirStart s1 ∧
    (∀ o ∈ ops, o.Ok s1) ∧ runUser ops s1 = Res.ok s2 ∧ s2.info = some i ∧ i.mode = .ComparingDirs ∧ s2.models = some [a, b] ∧
    (∀ m ∈ [a, b], Under i.localDestination (s2.store m).destination (rest m)) ∧
    (∀ m ∈ [a, b], Under i.destination (i.destination ++ rest m) (rest m)) ∧
    (∀ m ∈ [a, b], SplitOf (i.destination ++ rest m) (dir m ++ ['/']) (file m)) ∧
    (∀ m ∈ [a, b], Place exampleRemote exampleTree (dir m) (file m)) ∧
    [a, b].Pairwise (fun m m' => (s2.store m).destination ≠ (s2.store m').destination) ∧
    (∀ m ∈ [a, b], ∀ m' ∈ [a, b], i.destination ++ rest m ≠ dir m') ∧
    (∃ m ∈ [a, b], (s2.store m).hasUnsavedChanges s2.heap = true) ∧
    (∀ m ∈ [a, b], MLState.saveDir i (s2.store m) = dir m ++ ['/'] ∧ (dir m).getLast? ≠ some '/' ∧
      parentDir (dir m) ≠ str "file:///") := by
  obtain ⟨s1, s2, ops, i, a, b, rest, h1, h2, h3, h4, h5, h6, h7, h8, h9, _, hloc, hdest, hn⟩ := dirs_edited
  have hcase : ∀ m ∈ [a, b], ((s2.store m).destination = str "new/b.txt" ∧ rest m = str "b.txt") ∨
      ((s2.store m).destination = str "new/sub/a.txt" ∧ rest m = str "sub/a.txt") := by
    intro m hm
    have e := (h7 m hm).1
    rw [hloc] at e
    rcases hn m hm with q | q
    · rw [q] at e
      exact .inl ⟨q, (List.append_cancel_left (as := str "new/") (bs := str "b.txt") e).symm⟩
    · rw [q] at e
      exact .inr ⟨q, (List.append_cancel_left (as := str "new/") (bs := str "sub/a.txt") e).symm⟩
  let dir : Nat → Str := fun m => if rest m = str "b.txt" then str "file:///home/new" else str "file:///home/new/sub"
  let file : Nat → Str := fun m => if rest m = str "b.txt" then str "b.txt" else str "a.txt"
  have hall : ∀ m ∈ [a, b], (rest m = str "b.txt" ∧ dir m = str "file:///home/new" ∧ file m = str "b.txt") ∨
      (rest m = str "sub/a.txt" ∧ dir m = str "file:///home/new/sub" ∧ file m = str "a.txt") := by
    intro m hm
    rcases hcase m hm with ⟨_, q⟩ | ⟨_, q⟩
    · refine .inl ⟨q, ?_, ?_⟩ <;> simp only [dir, file, q] <;> rfl
    · refine .inr ⟨q, ?_, ?_⟩ <;> simp only [dir, file, q] <;> rfl
  have hu' : ∀ m ∈ [a, b], Under i.destination (i.destination ++ rest m) (rest m) := by
    intro m _
    exact ⟨rfl, .inr (.inl (by rw [hdest]; rfl))⟩
  have hsp : ∀ m ∈ [a, b], SplitOf (i.destination ++ rest m) (dir m ++ ['/']) (file m) := by
    intro m hm
    rcases hall m hm with ⟨q1, q2, q3⟩ | ⟨q1, q2, q3⟩ <;> rw [q1, q2, q3, hdest] <;> exact ⟨by decide, by decide, .inr (by decide)⟩
  refine ⟨s1, s2, ops, i, a, b, rest, dir, file, h1, h2, h3, h4, h5, h6, h7, hu', hsp, ?_, h8, ?_, h9, ?_⟩
  · intro m hm
    rcases hall m hm with ⟨q1, q2, q3⟩ | ⟨q1, q2, q3⟩ <;> rw [q2, q3]
    · exact ⟨by decide, .inl (by decide), rfl, by decide⟩
    · exact ⟨by decide, .inr (by decide), rfl, by decide⟩
  · intro m hm m' hm'
    rcases hall m hm with ⟨q1, _⟩ | ⟨q1, _⟩ <;> rcases hall m' hm' with ⟨_, q2, _⟩ | ⟨_, q2, _⟩ <;> rw [q1, q2, hdest] <;> decide
  · intro m hm
    have hpf := run_paths dirStart_reachable h1 (by trivial) h2 h3 h6 m hm
    refine ⟨(under_dir h5 hpf (h7 m hm) (hu' m hm) (hsp m hm)).1, ?_⟩
    rcases hall m hm with ⟨_, q2, _⟩ | ⟨_, q2, _⟩ <;> rw [q2] <;> decide

/-- The file in the directory `sub` is written although that directory did not exist, if it was changed; the other way round, on a file system without
`/home/new` nothing is saved. -/
example : ∃ (s : MLState) (t' : Tree) (s' : MLState), Reachable s ∧ s.hasUnsavedChanges = true ∧ MLState.saveAllOn exampleRemote exampleTree s = Res.ok (t', s', true) ∧
    s'.hasUnsavedChanges = false := by
  obtain ⟨s1, s2, ops, i, a, b, rest, dir, file, h1, h2, h3, h4, h5, h6, h7, h8, h9, h10, h11, h12, ⟨m, hm, hu⟩, _⟩ := tree_example
  obtain ⟨t', s', k1, k2, _⟩ := C81_compared dirStart_reachable h1 (by trivial) ops h2 h3 h4 h5 h6 rest dir file h7 h8 h9 h10 h11 h12
  refine ⟨s2, t', s', reachable_runUser ops (h1.reachable dirStart_reachable) h3, ?_, k1, k2⟩
  unfold MLState.hasUnsavedChanges
  rw [h6]
  exact List.any_eq_true.2 ⟨m, hm, hu⟩

/-- The hypotheses of `C81_deep_defect` are met: only the root directory exists. -/
example : ∃ (s : MLState) (m : Nat) (r : Remote) (t : Tree), Reachable s ∧ t.dir (str "file:///") = true ∧ (s.store m).hasUnsavedChanges s.heap = true ∧
    MLState.saveOn r t s m = Res.ok (t, s.emit (.error .mkdir), false) := by
  obtain ⟨s1, s2, ops, i, a, b, rest, dir, file, h1, h2, h3, h4, h5, h6, h7, h8, h9, h10, h11, h12, ⟨m, hm, hu⟩, hd⟩ := tree_example
  have hr := reachable_runUser ops (h1.reachable dirStart_reachable) h3
  obtain ⟨d1, d2, d3⟩ := hd m hm
  refine ⟨s2, m, exampleRemote, ⟨fun q => decide (q = str "file:///"), fun _ => none⟩, hr, by decide, hu, ?_⟩
  refine (C81_deep_defect (hr.owned.live m (by rw [h6]; exact hm)) h4 h5 hu d1 d2 ?_ (decide_eq_false d3)).1
  refine decide_eq_false (fun q => ?_)
  rw [q] at d2
  exact d2 (by decide)

/-- Two files were compared and the difference was applied: the hypotheses of `C81_file` are met. -/
example : ∃ (s : MLState) (m : Nat) (i : Info) (r : Remote) (t : Tree), Reachable s ∧ m ∉ s.dead ∧ s.info = some i ∧ i.mode ≠ .ComparingDirs ∧
    (s.store m).hasUnsavedChanges s.heap = true ∧ r.mayWrite i.destination = true ∧ t.dir (parentDir i.destination) = true ∧ t.dir (noSlash i.destination) = false ∧
    t.file i.destination = some (str "old\n", 384) := by
  obtain ⟨s1, ms, fs, h1, o, _, ⟨i, hi, hso⟩, _⟩ := compare_ready (e := examplePatch) (r := ⟨1, .NormalExit, exampleOne.render.flatten, []⟩) exampleFiles_reachable rfl
    (by decide) rfl exampleOne rfl exampleOne_ok ⟨_, List.mem_cons_self .., by decide⟩ (.inr ⟨rfl, rfl, by decide⟩) (fun _ => exampleNew) (by
      intro f hf hc
      simp only [exampleOne, exampleDiff, List.take_succ_cons, List.take_zero, List.mem_cons, List.not_mem_nil, or_false] at hf
      subst hf
      exact example_patches)
  have hm1 := congrArg Info.mode hso
  have hd1 := congrArg Info.destination hso
  dsimp only at hm1 hd1
  have ho : OpensDiff (.diffFinished examplePatch ⟨1, .NormalExit, exampleOne.render.flatten, []⟩) exampleFiles s1 := ⟨h1, rfl, by rw [o.models]; simp⟩
  obtain ⟨m, hm⟩ := List.exists_mem_of_ne_nil _ o.ne
  obtain ⟨s, u, r, hms, hi2, hu⟩ := make_unsaved (ho.inUse exampleFiles_reachable) (ho.reachable exampleFiles_reachable) o.models hm
  refine ⟨s, m, i, exampleRemote, ⟨fun q => decide (q = str "file:/d"), fun q => if q = str "file:/d/b.txt" then some (str "old\n", 384) else none⟩, r,
    r.owned.live m (by rw [hms]; exact hm), hi2.trans hi, ?_, hu, rfl, ?_, ?_, ?_⟩
  · rw [hm1]; decide
  · rw [hd1]; decide
  · rw [hd1]; decide
  · rw [hd1]; rfl

end KompareDiff2
