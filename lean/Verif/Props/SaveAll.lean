import Verif.Props.Disk
/-
C36 for `saveAll` with any failures.
-/
namespace KompareDiff2
open Spec

/-- What saving one model of a list tells and does outside, given the state before `saveAll`: nothing if it has no unsaved changes, the
message about the step that failed, or the upload of its text. -/
def saveReport (v : Nat → MLState.SaveEnv) (i : Info) (s : MLState) (m : Nat) : List Event :=
  if (s.store m).hasUnsavedChanges s.heap = true then
    match (v m).failure i.mode with
    | some err => [.error err]
    | none => [.upload (saveTarget i (s.store m)) ((s.store m).savedText s.heap)]
  else []

/-- The model has to be saved and saving it fails before the upload. -/
def SaveBlocked (v : Nat → MLState.SaveEnv) (i : Info) (s : MLState) (m : Nat) : Prop :=
  (s.store m).hasUnsavedChanges s.heap = true ∧ ∃ err, (v m).failure i.mode = some err ∧ err ≠ .upload

/-- The flags after the models of `done` were tried. -/
def SavedFlags (v : Nat → MLState.SaveEnv) (i : Info) (s : MLState) (hp : Heap) (done : List Nat) : Prop :=
  (∀ m ∈ done, (v m).failure i.mode = none → ∀ d ∈ (s.store m).differences, hp.cell d = { s.heap.cell d with unsaved := false }) ∧
  ∀ d, (∀ m ∈ done, (v m).failure i.mode = none → d ∉ (s.store m).differences) → hp.cell d = s.heap.cell d

theorem saveOne (v : Nat → MLState.SaveEnv) (i : Info) (m : Nat) (s : MLState) (hi : s.info = some i) (hm : m ∉ s.dead) :
    ∃ hp b, s.saveDestination (v m) m = Res.ok ({ s with heap := hp, log := s.log ++ saveReport v i s m }, b) ∧
      (b = false ↔ SaveBlocked v i s m) ∧ SavedFlags v i s hp [m] := by
  obtain ⟨h1, h2⟩ := C36_save (v := v m) hm hi
  cases hu : (s.store m).hasUnsavedChanges s.heap with
  | false =>
    have hu' : ∀ d ∈ (s.store m).differences, (s.heap.cell d).unsaved = false := by
      unfold DModel.hasUnsavedChanges at hu; simpa using hu
    refine ⟨s.heap, true, ?_, ?_, ?_, fun d _ => rfl⟩
    · rw [h1 hu']
      simp [saveReport, hu]
    · simp only [SaveBlocked, hu]; simp
    · intro x hx _ d hd
      rw [List.mem_singleton.1 hx] at hd
      have := hu' d hd
      revert this; generalize s.heap.cell d = c
      intro hc; cases c; simp only at hc; subst hc; rfl
  | true =>
    have hu' : ∃ d ∈ (s.store m).differences, (s.heap.cell d).unsaved = true := by
      unfold DModel.hasUnsavedChanges at hu; simpa using hu
    obtain ⟨h3, h4⟩ := h2 hu'
    cases hf : (v m).failure i.mode with
    | some err =>
      refine ⟨s.heap, decide (err = .upload), ?_, ?_, ?_, fun d _ => rfl⟩
      · rw [h3 err hf]
        simp [saveReport, hu, hf, MLState.emit]
      · simp only [SaveBlocked, hu, hf, true_and, Option.some.injEq, decide_eq_false_iff_not]
        exact ⟨fun h => ⟨err, rfl, h⟩, fun ⟨_, e, h⟩ => e ▸ h⟩
      · intro x hx hn
        rw [List.mem_singleton.1 hx, hf] at hn; cases hn
    | none =>
      obtain ⟨hp, k1, k2, k3⟩ := h4 hf
      refine ⟨hp, true, ?_, ?_, ?_, ?_⟩
      · rw [k1]; simp [saveReport, hu, hf]
      · simp [SaveBlocked, hf]
      · intro x hx _ d hd
        rw [List.mem_singleton.1 hx] at hd
        exact k2 d hd
      · intro d hd
        exact k3 d (hd m (List.mem_singleton.2 rfl) hf)

theorem saveLoop_any (v : Nat → MLState.SaveEnv) (i : Info) (l : List Nat) : ∀ (s : MLState), s.info = some i → (∀ m ∈ l, m ∉ s.dead) →
    l.Pairwise (fun m m' => ∀ d ∈ (s.store m').differences, d ∉ (s.store m).differences) →
    ∃ done hp b, MLState.saveLoop v l s = Res.ok ({ s with heap := hp, log := s.log ++ done.flatMap (saveReport v i s) }, b) ∧
      SavedFlags v i s hp done ∧
      (b = true → done = l ∧ ∀ m ∈ l, ¬ SaveBlocked v i s m) ∧
      (b = false → ∃ a m c, l = a ++ m :: c ∧ done = a ++ [m] ∧ SaveBlocked v i s m ∧ ∀ x ∈ a, ¬ SaveBlocked v i s x) := by
  induction l with
  | nil =>
    intro s _ _ _
    exact ⟨[], s.heap, true, by simp [MLState.saveLoop], ⟨by simp, fun _ _ => rfl⟩, fun _ => ⟨rfl, by simp⟩, (fun h => by cases h)⟩
  | cons m l ih =>
    intro s hi hd hp
    obtain ⟨p1, p2⟩ := List.pairwise_cons.1 hp
    obtain ⟨h1, b1, e1, e2, e3⟩ := saveOne v i m s hi (hd m (List.mem_cons_self ..))
    unfold MLState.saveLoop
    rw [e1, Res.bind_ok]
    dsimp only
    cases b1 with
    | false =>
      rw [if_pos rfl]
      refine ⟨[m], h1, false, by simp, e3, (fun h => by cases h), fun _ => ⟨[], m, l, rfl, rfl, e2.1 rfl, by simp⟩⟩
    | true =>
      rw [if_neg (by simp)]
      have hnb : ¬ SaveBlocked v i s m := fun h => by have := e2.2 h; cases this
      obtain ⟨done, h2, b2, f1, f2, f3, f4⟩ := ih { s with heap := h1, log := s.log ++ saveReport v i s m } hi
        (fun x hx => hd x (List.mem_cons_of_mem _ hx)) p2
      -- the models still to come look as before
      have hcell : ∀ x ∈ l, ∀ d ∈ (s.store x).differences, h1.cell d = s.heap.cell d := by
        intro x hx d hdx
        exact e3.2 d (fun y hy _ => by rw [List.mem_singleton.1 hy]; exact p1 x hx d hdx)
      have hus : ∀ x ∈ l, (s.store x).hasUnsavedChanges h1 = (s.store x).hasUnsavedChanges s.heap := by
        intro x hx
        unfold DModel.hasUnsavedChanges
        rw [Bool.eq_iff_iff, List.any_eq_true, List.any_eq_true]
        constructor
        · rintro ⟨d, hdx, h⟩; exact ⟨d, hdx, by rw [hcell x hx d hdx] at h; exact h⟩
        · rintro ⟨d, hdx, h⟩; exact ⟨d, hdx, by rw [hcell x hx d hdx]; exact h⟩
      have hst : ∀ x, (s.store x).savedText h1 = (s.store x).savedText s.heap := by
        intro x
        refine savedText_unsaved _ (fun d => ?_)
        by_cases hdm : (v m).failure i.mode = none ∧ d ∈ (s.store m).differences
        · exact .inr (e3.1 m (List.mem_singleton.2 rfl) hdm.1 d hdm.2)
        · refine .inl (e3.2 d (fun y hy hf hdy => hdm ?_))
          rw [List.mem_singleton.1 hy] at hf hdy
          exact ⟨hf, hdy⟩
      have hrep : ∀ x ∈ l, saveReport v i { s with heap := h1, log := s.log ++ saveReport v i s m } x = saveReport v i s x := by
        intro x hx
        simp only [saveReport, hus x hx, hst x]
      have hblk : ∀ x ∈ l, (SaveBlocked v i { s with heap := h1, log := s.log ++ saveReport v i s m } x ↔ SaveBlocked v i s x) := by
        intro x hx
        simp only [SaveBlocked, hus x hx]
      have hsub : ∀ x ∈ done, x ∈ l := by
        intro x hx
        cases b2 with
        | true => rw [← (f3 rfl).1]; exact hx
        | false =>
          obtain ⟨a, y, c, q1, q2, _⟩ := f4 rfl
          rw [q2] at hx; rw [q1]
          rcases List.mem_append.1 hx with h | h
          · exact List.mem_append_left _ h
          · rw [List.mem_singleton.1 h]; exact List.mem_append_right _ (List.mem_cons_self ..)
      refine ⟨m :: done, h2, b2, ?_, ⟨?_, ?_⟩, ?_, ?_⟩
      · rw [f1]
        have : done.flatMap (saveReport v i { s with heap := h1, log := s.log ++ saveReport v i s m }) = done.flatMap (saveReport v i s) := by
          rw [List.flatMap_def, List.flatMap_def, List.map_congr_left (fun x hx => hrep x (hsub x hx))]
        rw [this]
        simp [List.append_assoc]
      · intro x hx hf d hdx
        by_cases hq : ∃ y ∈ done, (v y).failure i.mode = none ∧ d ∈ (s.store y).differences
        · obtain ⟨y, hy, hfy, hdy⟩ := hq
          have := f2.1 y hy hfy d hdy
          rw [this]
          show { h1.cell d with unsaved := false } = _
          rw [hcell y (hsub y hy) d hdy]
        · have := f2.2 d (fun y hy hfy hdy => hq ⟨y, hy, hfy, hdy⟩)
          rw [this]
          rcases List.mem_cons.1 hx with rfl | hx
          · exact e3.1 x (List.mem_singleton.2 rfl) hf d hdx
          · exact absurd ⟨x, hx, hf, hdx⟩ hq
      · intro d hdn
        rw [f2.2 d (fun y hy hfy => hdn y (List.mem_cons_of_mem _ hy) hfy)]
        exact e3.2 d (fun y hy hfy => hdn y (by rw [List.mem_singleton.1 hy]; exact List.mem_cons_self ..) hfy)
      · intro hb
        obtain ⟨q1, q2⟩ := f3 hb
        refine ⟨by rw [q1], fun x hx => ?_⟩
        rcases List.mem_cons.1 hx with rfl | hx
        · exact hnb
        · exact fun h => q2 x hx ((hblk x hx).2 h)
      · intro hb
        obtain ⟨a, y, c, q1, q2, q3, q4⟩ := f4 hb
        refine ⟨m :: a, y, c, by rw [q1]; rfl, by rw [q2]; rfl, (hblk y (by rw [q1]; simp)).1 q3, fun x hx => ?_⟩
        rcases List.mem_cons.1 hx with rfl | hx
        · exact hnb
        · exact fun h => q4 x hx ((hblk x (by rw [q1]; simp [hx])).2 h)

/-- **C36.** `saveAll` whatever fails, in every state that can arise: the models are tried in the order of the list; it stops (and returns
false) exactly at the first model that has unsaved changes and fails before its upload; a failed upload is reported but does not stop it.  For
every model tried, what happens is what `saveReport` says; exactly the differences of the models tried that did not fail are no longer unsaved,
and nothing else changes: the models behind keep all their flags. -/
theorem C36_saveAll_any (v : Nat → MLState.SaveEnv) {s : MLState} (hs : Reachable s) {l : List Nat} (hl : s.models = some l) (hne : l ≠ [])
    {i : Info} (hi : s.info = some i) :
    ∃ done hp b, s.saveAll v = Res.ok ({ s with heap := hp, log := s.log ++ done.flatMap (saveReport v i s) }, b) ∧
      SavedFlags v i s hp done ∧
      (b = true → done = l ∧ ∀ m ∈ l, ¬ SaveBlocked v i s m) ∧
      (b = false → ∃ a m c, l = a ++ m :: c ∧ done = a ++ [m] ∧ SaveBlocked v i s m ∧ ∀ x ∈ a, ¬ SaveBlocked v i s x) := by
  have o := hs.owned
  have e : s.models.getD [] = l := by rw [hl]; rfl
  have h1 := o.models
  have h2 := o.diffs
  rw [e] at h1 h2
  have hp : l.Pairwise (fun m m' => ∀ d ∈ (s.store m').differences, d ∉ (s.store m).differences) := by
    refine List.Pairwise.imp_of_mem ?_ (List.pairwise_iff_forall_sublist.2 (fun {a b} hab => (List.pairwise_iff_forall_sublist.1 h1 hab : a ≠ b)))
    intro a b ha hb hab d hd
    exact flatMap_nodup_disjoint h1 h2 hb ha (fun q => hab q.symm) hd
  have hm : ∀ m ∈ l, m ∉ s.dead := fun m hm => o.live m (by rw [e]; exact hm)
  obtain ⟨done, hp', b, k⟩ := saveLoop_any v i l s hi hm hp
  refine ⟨done, hp', b, ?_, k.2⟩
  rw [← k.1]
  unfold MLState.saveAll
  rw [hl]
  cases l with
  | nil => exact absurd rfl hne
  | cons _ _ => rfl

/-- **C36 (defect).** `saveAll` returns true although uploads failed: if no model fails before its upload, the result is true, whatever became
of the uploads; the models whose upload failed still have unsaved changes. -/
theorem C36_saveAll_upload_defect (v : Nat → MLState.SaveEnv) {s : MLState} (hs : Reachable s) {l : List Nat} (hl : s.models = some l) (hne : l ≠ [])
    {i : Info} (hi : s.info = some i) (hv : ∀ m ∈ l, (v m).failure i.mode = none ∨ (v m).failure i.mode = some .upload)
    {m : Nat} (hm : m ∈ l) (hu : (s.store m).hasUnsavedChanges s.heap = true) (hf : (v m).failure i.mode = some .upload) :
    ∃ s', s.saveAll v = Res.ok (s', true) ∧ (s'.store m).hasUnsavedChanges s'.heap = true ∧ s'.hasUnsavedChanges = true := by
  obtain ⟨done, hp, b, h1, h2, h3, h4⟩ := C36_saveAll_any v hs hl hne hi
  have hb : b = true := by
    cases b with
    | true => rfl
    | false =>
      obtain ⟨a, y, c, q1, _, ⟨_, err, q3, q4⟩, _⟩ := h4 rfl
      rcases hv y (by rw [q1]; simp) with h | h
      · rw [h] at q3; cases q3
      · rw [h] at q3; cases q3; exact absurd rfl q4
  subst hb
  obtain ⟨h5, _⟩ := h3 rfl
  have o := hs.owned
  have e : s.models.getD [] = l := by rw [hl]; rfl
  have o1 := o.models
  have o2 := o.diffs
  rw [e] at o1 o2
  have hun : (s.store m).hasUnsavedChanges hp = true := by
    unfold DModel.hasUnsavedChanges at hu ⊢
    rw [List.any_eq_true] at hu ⊢
    obtain ⟨d, hd, h⟩ := hu
    refine ⟨d, hd, ?_⟩
    rw [h2.2 d (fun y hy hfy hdy => ?_)]
    · exact h
    · rw [h5] at hy
      by_cases hym : y = m
      · rw [hym, hf] at hfy; cases hfy
      · exact flatMap_nodup_disjoint o1 o2 hy hm hym hdy hd
  refine ⟨_, h1, hun, ?_⟩
  unfold MLState.hasUnsavedChanges
  show (match s.models with | none => false | some ms => ms.any (fun m => (s.store m).hasUnsavedChanges hp)) = true
  rw [hl]
  exact List.any_eq_true.2 ⟨m, hm, hun⟩

/-- Two files, the second with unsaved changes: all hypotheses are met, and with a failing upload, or a failing temporary file, both outcomes of
`saveAll` occur. -/
example : ∃ (s s1 s2 : MLState) (b : Nat), Reachable s ∧ s.saveAll (fun _ => { copyOk := false }) = Res.ok (s1, true) ∧
    (s1.store b).hasUnsavedChanges s1.heap = true ∧ s.saveAll (fun _ => { tempOpens := false }) = Res.ok (s2, false) ∧ s2.log = s.log ++ [.error .tempFile] := by
  obtain ⟨s, a, b, i, hs, hm, hb, hi, hmode, hu, _⟩ := disk_example
  have hl : s.models = some [a, b] := hm
  have f1 : ({ copyOk := false } : MLState.SaveEnv).failure i.mode = some .upload := by
    simp [MLState.SaveEnv.failure, hmode]
  have f2 : ({ tempOpens := false } : MLState.SaveEnv).failure i.mode = some .tempFile := by
    simp [MLState.SaveEnv.failure]
  obtain ⟨s1, h1, h2, _⟩ := C36_saveAll_upload_defect (fun _ => { copyOk := false }) hs hl (by simp) hi (fun _ _ => .inr f1) (m := b) (by simp) hu f1
  obtain ⟨done, hp, r, k1, _, k3, k4⟩ := C36_saveAll_any (fun _ => { tempOpens := false }) hs hl (by simp) hi
  have hr : r = false := by
    cases r with
    | false => rfl
    | true => exact absurd ⟨hu, _, f2, by simp⟩ ((k3 rfl).2 b (by simp))
  subst hr
  refine ⟨s, s1, _, b, hs, h1, h2, k1, ?_⟩
  obtain ⟨x, m, c, q1, q2, q3, q4⟩ := k4 rfl
  show s.log ++ done.flatMap _ = _
  have hx : ∀ y ∈ x, saveReport (fun _ => { tempOpens := false }) i s y = [] := by
    intro y hy
    have := q4 y hy
    unfold saveReport
    rw [if_neg]
    intro hy'
    exact this ⟨hy', _, f2, by simp⟩
  rw [q2, List.flatMap_append, List.flatMap_eq_nil_iff.2 hx]
  simp [saveReport, q3.1, f2]

end KompareDiff2
