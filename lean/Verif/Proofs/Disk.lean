import Verif.Spec.Disk
import Verif.Proofs.Lifetime
import Verif.Props.Compare
/-
Steps of saving and the disk.
-/
namespace KompareDiff2
open Spec

theorem Disk.run_append (d : Disk) (a b : List DiskStep) : d.run (a ++ b) = (d.run a).run b := List.foldl_append ..

/-- The step concerns the temporary file `t` only. -/
def OnTemp (t : Nat) (p : DiskStep) : Prop := ∃ c, p = .temp t c
/-- The step concerns the file `u` or a directory. -/
def OnFile (u : Str) (p : DiskStep) : Prop := (∃ c, p = .file u c) ∨ ∃ v, p = .mkdir v

theorem run_onTemp {t : Nat} {l : List DiskStep} (h : ∀ p ∈ l, OnTemp t p) (d : Disk) :
    (d.run l).file = d.file ∧ (d.run l).dir = d.dir ∧ ∀ t', t' ≠ t → (d.run l).temp t' = d.temp t' := by
  induction l generalizing d with
  | nil => exact ⟨rfl, rfl, fun _ _ => rfl⟩
  | cons p l ih =>
    obtain ⟨c, rfl⟩ := h p (by simp)
    obtain ⟨h1, h2, h3⟩ := ih (fun q hq => h q (List.mem_cons_of_mem _ hq)) (d.step (.temp t c))
    refine ⟨h1, h2, fun t' ht => (h3 t' ht).trans ?_⟩
    exact if_neg ht

theorem run_onFile {u : Str} {l : List DiskStep} (h : ∀ p ∈ l, OnFile u p) (d : Disk) :
    (d.run l).temp = d.temp ∧ (∀ u', u' ≠ u → (d.run l).file u' = d.file u') ∧ ∀ p, d.dir p = true → (d.run l).dir p = true := by
  induction l generalizing d with
  | nil => exact ⟨rfl, fun _ _ => rfl, fun _ h => h⟩
  | cons p l ih =>
    rcases h p (by simp) with ⟨c, rfl⟩ | ⟨w, rfl⟩
    · obtain ⟨h1, h2, h3⟩ := ih (fun q hq => h q (List.mem_cons_of_mem _ hq)) (d.step (.file u c))
      exact ⟨h1, fun u' hu => (h2 u' hu).trans (if_neg hu), h3⟩
    · obtain ⟨h1, h2, h3⟩ := ih (fun q hq => h q (List.mem_cons_of_mem _ hq)) (d.step (.mkdir w))
      refine ⟨h1, h2, fun p hp => h3 p ?_⟩
      show (if p = w then true else d.dir p) = true
      split
      · rfl
      · exact hp

theorem prefix_append {α : Type} {p a b : List α} (h : p <+: a ++ b) : p <+: a ∨ ∃ q, p = a ++ q ∧ q <+: b := by
  rcases List.prefix_or_prefix_of_prefix h (List.prefix_append a b) with h1 | ⟨q, rfl⟩
  · exact .inl h1
  · exact .inr ⟨q, rfl, (List.prefix_append_right_inj a).1 h⟩

theorem mem_prefix {α : Type} {P : α → Prop} {p l : List α} (h : p <+: l) (hl : ∀ x ∈ l, P x) : ∀ x ∈ p, P x :=
  fun x hx => hl x (h.subset hx)

/-- The shape of the steps of a save. -/
inductive Shape (t : Nat) (target text : Str) : List DiskStep → Option (Option ErrorKind) → Prop where
  | none : Shape t target text [] none
  | noTemp : Shape t target text [] (some (some .tempFile))
  | badTemp (a : List DiskStep) : (∀ p ∈ a, OnTemp t p) → Shape t target text (a ++ [.temp t .none]) (some (some .tempFile))
  | badDir (a : List DiskStep) : (∀ p ∈ a, OnTemp t p) → Shape t target text (a ++ [.temp t .none]) (some (some .mkdir))
  | badCopy (a b : List DiskStep) : (∀ p ∈ a, OnTemp t p) → (∀ p ∈ b, OnFile target p) →
      Shape t target text ((a ++ [.temp t (some text)]) ++ b) (some (some .upload))
  | good (a b : List DiskStep) : (∀ p ∈ a, OnTemp t p) → (∀ p ∈ b, OnFile target p) →
      Shape t target text ((a ++ [.temp t (some text)]) ++ b ++ [.file target (some text), .temp t .none]) (some .none)

/-- The result of a save: nothing to do, or the first failure. -/
def saveResult (v : MLState.SaveEnv) (s : MLState) (i : Info) (m : Nat) : Option (Option ErrorKind) :=
  if (s.store m).hasUnsavedChanges s.heap = false then none else some (v.failure i.mode)

theorem saveSteps_shape {v : MLState.SaveRun} {t : Nat} {s : MLState} {m : Nat} {i : Info} (hm : m ∉ s.dead) (hi : s.info = some i) :
    ∃ steps, s.saveSteps v t m = Res.ok steps ∧
      Shape t (saveTarget i (s.store m)) ((s.store m).savedText s.heap) steps (saveResult v.toSaveEnv s i m) := by
  have hmod : s.model (some m) = Res.ok m := by unfold MLState.model; simp [hm]
  unfold MLState.saveSteps saveResult
  simp only [hmod, Res.bind_ok, hi]
  split
  · exact ⟨_, rfl, .none⟩
  have ht : ∀ p ∈ DiskStep.temp t (some []) :: v.flushed.map (fun n => DiskStep.temp t (some (((s.store m).savedText s.heap).take n))), OnTemp t p := by
    intro p hp
    rcases List.mem_cons.1 hp with rfl | hp
    · exact ⟨_, rfl⟩
    · obtain ⟨n, _, rfl⟩ := List.mem_map.1 hp
      exact ⟨_, rfl⟩
  split
  · rename_i h
    refine ⟨_, rfl, ?_⟩
    unfold MLState.SaveEnv.failure
    rw [if_pos (.inl h)]
    exact .noTemp
  rename_i ho
  split
  · rename_i h
    refine ⟨_, rfl, ?_⟩
    unfold MLState.SaveEnv.failure
    rw [if_pos (.inr h)]
    exact .badTemp _ ht
  rename_i hw
  unfold MLState.SaveEnv.failure
  rw [if_neg (show ¬ (v.tempOpens = false ∨ v.writeOk = false ∨ v.closeOk = false) from fun h => h.elim ho hw)]
  split
  · exact ⟨_, rfl, .badDir _ (by
      intro p hp
      rcases List.mem_append.1 hp with hp | hp
      · exact ht p hp
      · rw [List.mem_singleton] at hp
        exact ⟨_, hp⟩)⟩
  have hf : ∀ p ∈ (if i.mode = .ComparingDirs ∧ v.statOk = false then [DiskStep.mkdir (MLState.saveDir i (s.store m))] else []) ++
      v.copied.map (fun n => DiskStep.file (saveTarget i (s.store m)) (n.map (fun n => ((s.store m).savedText s.heap).take n))),
      OnFile (saveTarget i (s.store m)) p := by
    intro p hp
    rcases List.mem_append.1 hp with hp | hp
    · split at hp
      · rw [List.mem_singleton] at hp
        exact .inr ⟨_, hp⟩
      · cases hp
    · obtain ⟨n, _, rfl⟩ := List.mem_map.1 hp
      exact .inl ⟨_, rfl⟩
  split
  · rename_i hc
    rw [if_neg (show ¬ (v.copyOk = false) by rw [hc]; simp)]
    exact ⟨_, rfl, .good _ _ ht hf⟩
  · rename_i hc
    rw [if_pos (show v.copyOk = false by simpa using hc)]
    exact ⟨_, rfl, .badCopy _ _ ht hf⟩

theorem interrupted_temp {t : Nat} {target text : Str} {a : List DiskStep} (h : ∀ p ∈ a, OnTemp t p) (d : Disk) : Interrupted d (d.run a) target text t := by
  obtain ⟨h1, h2, h3⟩ := run_onTemp h d
  exact ⟨fun u _ => by rw [h1], h3, fun p hp => by rw [h2]; exact hp, .inl (by rw [h1])⟩

theorem interrupted_file {t : Nat} {target text : Str} {a b : List DiskStep} (ha : ∀ p ∈ a, OnTemp t p) (hb : ∀ p ∈ b, OnFile target p) (d : Disk) :
    Interrupted d (d.run ((a ++ [.temp t (some text)]) ++ b)) target text t ∧ (d.run ((a ++ [.temp t (some text)]) ++ b)).temp t = some text := by
  have ha' : ∀ p ∈ a ++ [DiskStep.temp t (some text)], OnTemp t p := by
    intro p hp
    rcases List.mem_append.1 hp with hp | hp
    · exact ha p hp
    · rw [List.mem_singleton] at hp; exact ⟨_, hp⟩
  obtain ⟨h1, h2, h3⟩ := run_onTemp ha' d
  obtain ⟨g1, g2, g3⟩ := run_onFile hb (d.run (a ++ [.temp t (some text)]))
  have ht : (d.run (a ++ [.temp t (some text)])).temp t = some text := by
    rw [Disk.run_append]
    exact if_pos rfl
  rw [Disk.run_append]
  refine ⟨⟨fun u hu => by rw [g2 u hu, h1], fun t' ht' => by rw [g1, h3 t' ht'], fun p hp => g3 p (by rw [h2]; exact hp), .inr (.inr ?_)⟩, ?_⟩
  · rw [g1, ht]
  · rw [g1, ht]

theorem shape_interrupted {t : Nat} {target text : Str} {steps : List DiskStep} {r : Option (Option ErrorKind)} (h : Shape t target text steps r)
    {pre : List DiskStep} (hp : pre <+: steps) (d : Disk) : Interrupted d (d.run pre) target text t := by
  have hmore : ∀ (a : List DiskStep) (c : Option Str), (∀ p ∈ a, OnTemp t p) → ∀ p ∈ a ++ [DiskStep.temp t c], OnTemp t p := by
    intro a c ha p hp
    rcases List.mem_append.1 hp with hp | hp
    · exact ha p hp
    · rw [List.mem_singleton] at hp; exact ⟨_, hp⟩
  cases h with
  | none => exact interrupted_temp (mem_prefix hp (fun x hx => by cases hx)) d
  | noTemp => exact interrupted_temp (mem_prefix hp (fun x hx => by cases hx)) d
  | badTemp a ha => exact interrupted_temp (mem_prefix hp (hmore a _ ha)) d
  | badDir a ha => exact interrupted_temp (mem_prefix hp (hmore a _ ha)) d
  | badCopy a b ha hb =>
    rcases prefix_append hp with h | ⟨q, rfl, hq⟩
    · exact interrupted_temp (mem_prefix h (hmore a _ ha)) d
    · exact (interrupted_file ha (mem_prefix hq hb) d).1
  | good a b ha hb =>
    rcases prefix_append hp with h | ⟨q, rfl, hq⟩
    · rcases prefix_append h with h | ⟨q, rfl, hq⟩
      · exact interrupted_temp (mem_prefix h (hmore a _ ha)) d
      · exact (interrupted_file ha (mem_prefix hq hb) d).1
    · obtain ⟨⟨i1, i2, i3, _⟩, i5⟩ := interrupted_file (text := text) ha hb d
      rw [Disk.run_append]
      generalize d.run ((a ++ [.temp t (some text)]) ++ b) = e at *
      have hcases : q = [] ∨ q = [.file target (some text)] ∨ q = [.file target (some text), .temp t none] := by
        match q, hq with
        | [], _ => exact .inl rfl
        | [x], hq => exact .inr (.inl (by rw [List.cons_prefix_cons] at hq; rw [hq.1]))
        | [x, y], hq => exact .inr (.inr (by rw [List.cons_prefix_cons, List.cons_prefix_cons] at hq; rw [hq.1, hq.2.1]))
        | x :: y :: z :: w, hq => have := hq.length_le; simp at this
      rcases hcases with rfl | rfl | rfl
      · exact ⟨i1, i2, i3, .inr (.inr i5)⟩
      · refine ⟨fun u hu => (if_neg hu).trans (i1 u hu), i2, i3, .inr (.inl (if_pos rfl))⟩
      · refine ⟨fun u hu => (if_neg hu).trans (i1 u hu), fun t' ht' => (if_neg ht').trans (i2 t' ht'), i3, .inr (.inl (if_pos rfl))⟩

theorem shape_ended {t : Nat} {target text : Str} {steps : List DiskStep} {r : Option (Option ErrorKind)} (h : Shape t target text steps r) (d : Disk) :
    Ended d (d.run steps) target text t r := by
  cases h with
  | none => rfl
  | noTemp => exact ⟨rfl, rfl, id⟩
  | badTemp a ha =>
    obtain ⟨h1, h2, _⟩ := run_onTemp ha d
    rw [Disk.run_append]
    exact ⟨h1, h2, fun _ => if_pos rfl⟩
  | badDir a ha =>
    obtain ⟨h1, h2, _⟩ := run_onTemp ha d
    rw [Disk.run_append]
    exact ⟨h1, h2, fun _ => if_pos rfl⟩
  | badCopy a b ha hb => exact (interrupted_file ha hb d).2
  | good a b ha hb =>
    rw [Disk.run_append]
    exact ⟨if_pos rfl, if_pos rfl⟩

theorem savedText_unsaved (x : DModel) {h h' : Heap} (e : ∀ d, h'.cell d = h.cell d ∨ h'.cell d = { h.cell d with unsaved := false }) :
    x.savedText h' = x.savedText h := by
  unfold DModel.savedText
  refine congrArg List.flatten ?_
  have : ∀ i, (h'.cell i).savedLines = (h.cell i).savedLines := by
    intro i
    rcases e i with e | e <;> rw [e] <;> rfl
  simp only [this]

theorem saveDestination_step {v : MLState.SaveEnv} {s : MLState} {m : Nat} {i : Info} (hm : m ∉ s.dead) (hi : s.info = some i) :
    ∃ s' b, s.saveDestination v m = Res.ok (s', b) ∧ s'.info = s.info ∧ s'.dead = s.dead ∧ s'.store = s.store ∧
      (∀ x, (s.store x).savedText s'.heap = (s.store x).savedText s.heap) ∧
      (∀ x, (∀ d ∈ (s.store x).differences, d ∉ (s.store m).differences) →
        (s.store x).hasUnsavedChanges s'.heap = (s.store x).hasUnsavedChanges s.heap) ∧
      (b = true → saveResult v s i m = none ∨ saveResult v s i m = some none ∨ saveResult v s i m = some (some .upload)) := by
  obtain ⟨h1, h2⟩ := C36_save (v := v) hm hi
  cases hu : (s.store m).hasUnsavedChanges s.heap with
  | false =>
    refine ⟨s, true, h1 ?_, rfl, rfl, rfl, fun _ => rfl, fun _ _ => rfl, fun _ => .inl ?_⟩
    · unfold DModel.hasUnsavedChanges at hu
      simpa using hu
    · unfold saveResult
      rw [if_pos hu]
  | true =>
    obtain ⟨h3, h4⟩ := h2 (by
      unfold DModel.hasUnsavedChanges at hu
      simpa using hu)
    have er : saveResult v s i m = some (v.failure i.mode) := by
      unfold saveResult
      rw [if_neg (by rw [hu]; simp)]
    rw [er]
    cases hf : v.failure i.mode with
    | some err =>
      refine ⟨_, _, h3 err hf, rfl, rfl, rfl, fun _ => rfl, fun _ _ => rfl, fun hb => .inr (.inr ?_)⟩
      rw [decide_eq_true_eq] at hb
      rw [hb]
    | none =>
      obtain ⟨hp, e, g1, g2⟩ := h4 hf
      refine ⟨_, _, e, rfl, rfl, rfl, fun x => savedText_unsaved _ (fun d => ?_), fun x hx => ?_, fun _ => .inr (.inl rfl)⟩
      · by_cases hd : d ∈ (s.store m).differences
        · exact .inr (g1 d hd)
        · exact .inl (g2 d hd)
      · unfold DModel.hasUnsavedChanges
        dsimp only
        rw [Bool.eq_iff_iff, List.any_eq_true, List.any_eq_true]
        constructor
        · rintro ⟨d, hd, q⟩
          exact ⟨d, hd, by rw [← g2 d (hx d hd)]; exact q⟩
        · rintro ⟨d, hd, q⟩
          exact ⟨d, hd, by rw [g2 d (hx d hd)]; exact q⟩

/-- The models can be saved independently of each other. -/
structure Independent (s : MLState) (i : Info) (t : Nat → Nat) (l : List Nat) : Prop where
  live : ∀ m ∈ l, m ∉ s.dead
  targets : l.Pairwise (fun m m' => saveTarget i (s.store m) ≠ saveTarget i (s.store m'))
  temps : l.Pairwise (fun m m' => t m ≠ t m')
  diffs : l.Pairwise (fun m m' => ∀ d ∈ (s.store m').differences, d ∉ (s.store m).differences)

theorem saveLoop_interrupted (v : Nat → MLState.SaveRun) (t : Nat → Nat) (i : Info) (l : List Nat) : ∀ (s : MLState), s.info = some i → Independent s i t l →
    ∃ steps, MLState.saveLoopSteps v t l s = Res.ok steps ∧ ∀ (d : Disk) (pre : List DiskStep), pre <+: steps →
      AllInterrupted d (d.run pre) l (fun m => (s.store m).hasUnsavedChanges s.heap = true) (fun m => saveTarget i (s.store m))
        (fun m => (s.store m).savedText s.heap) t ∧ ∀ t', (∀ m ∈ l, t' ≠ t m) → (d.run pre).temp t' = d.temp t' := by
  induction l with
  | nil =>
    intro s hi _
    refine ⟨[], rfl, fun d pre hp => ?_⟩
    rw [List.prefix_nil] at hp
    subst hp
    exact ⟨⟨[], [], rfl, by simp, by simp, fun _ _ => rfl⟩, fun _ _ => rfl⟩
  | cons m l ih =>
    intro s hi ind
    have i2 := List.pairwise_cons.1 ind.targets
    have i3 := List.pairwise_cons.1 ind.temps
    have i4 := List.pairwise_cons.1 ind.diffs
    have hm := ind.live m (by simp)
    obtain ⟨st, hst, shape⟩ := saveSteps_shape (v := v m) (t := t m) hm hi
    obtain ⟨s', b, hs, e1, e2, e3, e4, e5, e6⟩ := saveDestination_step (v := (v m).toSaveEnv) hm hi
    have first : ∀ (d : Disk) (pre : List DiskStep), pre <+: st →
        AllInterrupted d (d.run pre) (m :: l) (fun m => (s.store m).hasUnsavedChanges s.heap = true) (fun m => saveTarget i (s.store m))
          (fun m => (s.store m).savedText s.heap) t ∧ ∀ t', (∀ x ∈ m :: l, t' ≠ t x) → (d.run pre).temp t' = d.temp t' := by
      intro d pre hp
      obtain ⟨j1, j2, j3, j4⟩ := shape_interrupted shape hp d
      refine ⟨⟨[], m :: l, rfl, by simp, ?_, ?_⟩, fun t' ht' => j2 t' (ht' m (by simp))⟩
      · intro x hx
        simp only [List.head?_cons, Option.some.injEq] at hx
        subst hx
        exact j4
      · intro u hu
        exact j1 u (hu m (by simp))
    unfold MLState.saveLoopSteps
    rw [hst, Res.bind_ok, hs, Res.bind_ok]
    cases b with
    | false => exact ⟨st, rfl, first⟩
    | true =>
      rw [if_neg (by simp)]
      obtain ⟨st', hst', hall⟩ := ih s' (by rw [e1]; exact hi)
        ⟨fun x hx => by rw [e2]; exact ind.live x (List.mem_cons_of_mem _ hx), by rw [e3]; exact i2.2, i3.2, by rw [e3]; exact i4.2⟩
      dsimp only
      rw [hst', Res.bind_ok]
      refine ⟨st ++ st', rfl, fun d pre hp => ?_⟩
      rcases prefix_append hp with h | ⟨q, rfl, hq⟩
      · exact first d pre h
      · obtain ⟨⟨done, rest, k1, k2, k3, k4⟩, k5⟩ := hall (d.run st) q hq
        rw [Disk.run_append]
        obtain ⟨j1, j2, _, _⟩ := shape_interrupted shape (List.prefix_refl _) d
        have jend := shape_ended shape d
        generalize d.run st = d1 at *
        generalize d1.run q = d2 at *
        rw [e3] at k2 k3 k4
        dsimp only at k2 k3 k4
        have hf : d2.file (saveTarget i (s.store m)) = d1.file (saveTarget i (s.store m)) :=
          k4 _ (fun x hx => i2.1 x (by
            rw [k1]
            rcases List.mem_append.1 hx with hx | hx
            · exact List.mem_append_left _ hx
            · exact List.mem_append_right _ (List.mem_of_mem_take hx)))
        have ht : d2.temp (t m) = d1.temp (t m) := k5 _ (fun x hx => i3.1 x hx)
        refine ⟨⟨m :: done, rest, by rw [k1]; rfl, ?_, ?_, ?_⟩, ?_⟩
        · intro x hx hu
          rcases List.mem_cons.1 hx with rfl | hx
          · rw [hf, ht]
            rcases e6 rfl with e | e | e
            · exfalso
              unfold saveResult at e
              rw [if_neg (by rw [hu]; simp)] at e
              cases e
            · rw [e] at jend
              exact .inl jend.1
            · rw [e] at jend
              exact .inr jend
          · have hxl : x ∈ l := by rw [k1]; exact List.mem_append_left _ hx
            have := k2 x hx (by rw [e5 x (i4.1 x hxl)]; exact hu)
            rw [e4] at this
            exact this
        · intro x hx
          have hxl : x ∈ l := by rw [k1]; exact List.mem_append_right _ (List.mem_of_mem_head? (by rw [hx]; rfl))
          have := k3 x hx
          rw [e4, j1 _ (fun q => i2.1 x hxl q.symm)] at this
          exact this
        · intro u hu
          rw [k4 u (fun x hx => hu x (by rw [List.cons_append]; exact List.mem_cons_of_mem _ hx)), j1 u (hu m (by simp))]
        · intro t' ht'
          rw [k5 t' (fun x hx => ht' x (List.mem_cons_of_mem _ hx)), j2 t' (ht' m (by simp))]

end KompareDiff2
