import Verif.Proofs.Stale
import Verif.Props.Parser
/-
Properties of `ModelList`: selection, navigation, actions, opening (C37–C40).

`Reachable`: states reached from a new `ModelList` by any calls.  `InUse`: a diff was opened in a reachable state and only operations
of a user followed.
-/
namespace KompareDiff2
open Spec

/-- A unified diff with a change is opened successfully, whatever was done before (the information about the operands must be set). -/
theorem opens_unified {s : MLState} (hs : Reachable s) (hi : s.info ≠ none) (e : Env) (D : UDiff) (hD : D.Ok) (hc : ∃ f ∈ D.files, f.changes = true)
    (hwin : e.win = false) :
    ∃ s', OpensDiff (.parseAndOpenDiff e D.render.flatten) s s' := by
  have hne : D.files ≠ [] := by obtain ⟨f, hf, _⟩ := hc; exact List.ne_nil_of_mem hf
  obtain ⟨r, h, _, hr⟩ := C26_unified D hD hne false e.cmp s.heap
  obtain ⟨ms, hms⟩ : ∃ ms, r.models = some ms := by
    cases hms : r.models with
    | none =>
      rw [hms] at hr
      obtain ⟨f, hf, hx⟩ := hc
      rw [hr f hf] at hx
      exact absurd hx (by simp)
    | some ms => exact ⟨ms, rfl⟩
  rw [← hwin] at h
  obtain ⟨s', h'⟩ := parseAndOpenDiff_total (text := D.render.flatten) hs.wf hi h
  rw [hms] at h'
  exact ⟨s', h'⟩

/-! ## C37 -/

/-- C37: after opening a diff in any reachable state, any sequence of operations is free of undefined behaviour and the selection is
consistent. -/
theorem C37_selection_valid {s s1 : MLState} {op : MLOp} (hs : Reachable s) (ho : OpensDiff op s s1) (ops : List UserOp)
    (hops : ∀ o ∈ ops, UserOp.Ok s1 o) :
    ∃ s2 ms k j m d, runUser ops s1 = Res.ok s2 ∧ s1.models = some ms ∧ SelectionValid s2 ms k j m d := by
  obtain ⟨⟨ms, h1, ⟨k, j, m, d, a1⟩, _⟩, _⟩ := opens_ok hs.wf ho
  obtain ⟨s2, k', j', m', d', g⟩ := runUser_ok ops h1 a1 hops
  exact ⟨s2, ms, k', j', m', d', g.ok, h1.models, g.atIt.valid g.opened⟩

/-- A file system with nothing in it. -/
def emptyEnv : Env :=
  { win := false, cmp := fun _ _ => 0, url := fun p => { valid := p != [], scheme := [], authority := [], path := p }, relativeUp := fun _ p => p, filePath := fun d n => d ++ '/' :: n, isDir := fun _ => false
    isFile := fun _ => false, exists_ := fun _ => false, contents := fun _ => [], isPatch := fun _ => false }

/-- A new `ModelList` that was given some information about the operands. -/
def exampleStart : MLState := (MLState.init none true ⟨fun _ => Diff.new 0 0 .Unchanged, 0⟩).setInfo (some {})

theorem exampleStart_reachable : Reachable exampleStart := ⟨none, true, ⟨fun _ => Diff.new 0 0 .Unchanged, 0⟩, [.setInfo (some {})], rfl⟩

/-- The hypotheses of the properties below are met: the diff of C26 is opened in a new list and the user does something. -/
theorem example_opens : ∃ s1, OpensDiff (.parseAndOpenDiff emptyEnv exampleDiff.render.flatten) exampleStart s1 :=
  opens_unified exampleStart_reachable (by simp [exampleStart, MLState.setInfo]) emptyEnv exampleDiff exampleDiff_ok (by decide) rfl

theorem example_inUse : ∃ s, InUse s := by
  obtain ⟨s1, h⟩ := example_opens
  exact ⟨s1, h.inUse exampleStart_reachable⟩

example : ∃ s1 s2 ms k j m d, OpensDiff (.parseAndOpenDiff emptyEnv exampleDiff.render.flatten) exampleStart s1 ∧
    runUser [.nextDifference, .apply, .previousFile, .saveAll (fun _ => {})] s1 = Res.ok s2 ∧ SelectionValid s2 ms k j m d := by
  obtain ⟨s1, h⟩ := example_opens
  obtain ⟨s2, ms, k, j, m, d, h1, _, h2⟩ := C37_selection_valid exampleStart_reachable h
    [.nextDifference, .apply, .previousFile, .saveAll (fun _ => {})] (by simp [UserOp.Ok])
  exact ⟨s1, s2, ms, k, j, m, d, h, h1, h2⟩

/-- C37, the limit: selecting a model that is not in the list (for example one of a diff opened earlier, whose objects are still alive)
is accepted: the model becomes the selected one although its position is -1. -/
theorem C37_foreign_model_defect {s : MLState} (h : InUse s) {m d : Nat} (hm : m ∉ s.models.getD []) (hl : m ∉ s.dead)
    (hd : d ∈ (s.store m).differences) (hdl : d ∉ s.deadDiffs) :
    ∃ s', s.slotSelectionChanged (some m) (some d) = Res.ok s' ∧ s'.selectedModel = some m ∧ m ∉ s'.models.getD [] ∧
      s'.currentModel = Res.ok (-1) := by
  obtain ⟨_, _, ms, k, j, m', d', ho, _⟩ := h.facts
  rw [ho.models] at hm
  obtain ⟨s', h1, h2, h3, _, h4, _⟩ := foreign_ok ho.models hm hl hd hdl
  exact ⟨s', h1, h3, by rw [h2]; exact hm, h4⟩

/-- The hypotheses are met: open a diff and then another one; the models of the first are still alive. -/
example : ∃ s m d, InUse s ∧ m ∉ s.models.getD [] ∧ m ∉ s.dead ∧ d ∈ (s.store m).differences ∧ d ∉ s.deadDiffs := by
  obtain ⟨s1, h1⟩ := example_opens
  have r1 := h1.reachable exampleStart_reachable
  obtain ⟨w1, _, ms, k, j, m, d, ho, ha⟩ := (h1.inUse exampleStart_reachable).facts
  obtain ⟨s2, h2⟩ := opens_unified r1 ho.info emptyEnv exampleDiff exampleDiff_ok (by decide) rfl
  have hm : m ∈ ms := ho.mem ha.model
  have hlt : m < s1.nextModel := w1.models m (by rw [ho.models]; exact hm)
  have h2' : s1.parseAndOpenDiff emptyEnv exampleDiff.render.flatten = Res.ok (s2, true) := h2
  unfold MLState.parseAndOpenDiff at h2'
  obtain ⟨⟨t, b⟩, h3, h4⟩ := Res.bind_eq_ok.1 h2'
  have wc : WF (s1.clear.emit (.status .Parsing)) := w1.keep ((keep_clear s1).trans (keep_emit _ _))
  have hd := parseDiffOutput_dead h3
  obtain ⟨_, _, _, r, _, _, _, htrue⟩ := parseDiffOutput_spec wc h3
  dsimp only at h4
  split at h4
  · cases h4
  · rename_i hb
    obtain ⟨dms, m1, d1, _, hot, _, _⟩ := htrue (by simpa using hb)
    obtain ⟨u, hu, h4⟩ := Res.bind_eq_ok.1 h4
    cases h4
    have hk : Keep t ((u.show_).emit (.status .FinishedParsing)) := ((keep_updateActions hu).trans (keep_show u)).trans (keep_emit _ _)
    have hcl : (s1.clear.emit (.status .Parsing)).models.getD [] = [] := by
      show (s1.models.map (fun _ => [])).getD [] = []
      rw [ho.models]; rfl
    refine ⟨_, m, d, h2.inUse r1, ?_, ?_, ?_, ?_⟩
    · intro hmem
      have := hk.models.subset hmem
      rw [hot.models] at this
      have := (List.mem_range'_1.1 this).1
      exact absurd hlt (Nat.not_lt.2 this)
    · rw [hk.dead, hd.1, hcl, List.append_nil]
      exact ho.live m hm
    · rw [hk.differences, hd.2.2 m hlt]
      exact List.mem_of_getElem? ha.diff
    · rw [hk.deadDiffs, hd.2.1, hcl]
      simp only [List.flatMap_nil, List.append_nil]
      exact ho.liveDiffs m hm d (List.mem_of_getElem? ha.diff)

/-! ## C38 -/

theorem InUse.seq {s s' : MLState} (f : Frame s s') : sequence s' = sequence s := by
  unfold sequence
  rw [f.models]
  congr 1
  funext m
  rw [f.differences]

/-- C38: no difference occurs twice in the sequence, so there is exactly one position of the selection, and it exists. -/
theorem C38_position {s : MLState} (h : InUse s) : ∃ p, SelectedAt s p ∧ p < (sequence s).length ∧ ∀ q, SelectedAt s q → q = p := by
  obtain ⟨_, _, ms, k, j, m, d, ho, ha⟩ := h.facts
  refine ⟨pos s ms k j, ha.selectedAt ho, ?_, fun q hq => (ha.selectedAt_iff ho q).1 hq⟩
  obtain ⟨x, y, h1, _⟩ := ha.selectedAt ho
  exact (List.getElem?_eq_some_iff.1 h1).1

/-- C38: `slotNextDifference` goes to the following difference of the whole sequence, or stays on the last one. -/
theorem C38_next {s : MLState} (h : InUse s) {p : Nat} (hp : SelectedAt s p) :
    ∃ s', s.slotNextDifference = Res.ok s' ∧ InUse s' ∧ sequence s' = sequence s ∧
      SelectedAt s' (if p + 1 < (sequence s).length then p + 1 else p) := by
  obtain ⟨_, _, ms, k, j, m, d, ho, ha⟩ := h.facts
  have hp' := (ha.selectedAt_iff ho p).1 hp
  subst hp'
  obtain ⟨s', k', j', m', d', g, hcase⟩ := slotNextDifference_ok ho ha
  have hs : sequence s' = sequence s := InUse.seq g.frame
  refine ⟨s', g.ok, h.step (op := .nextDifference) trivial g.ok, hs, ?_⟩
  have hpos : pos s' ms k' j' = pos s ms k' j' := by
    unfold pos
    congr 3
    funext m
    rw [g.frame.differences]
  have hsel := g.atIt.selectedAt g.opened
  rw [hpos] at hsel
  have hj : j < (s.store m).differences.length := (List.getElem?_eq_some_iff.1 ha.diff).1
  have hk : k < ms.length := (List.getElem?_eq_some_iff.1 ha.model).1
  have hn := pos_next_iff ho ha.model hj
  rcases hcase with ⟨c1, rfl, rfl⟩ | ⟨c1, c2, rfl, rfl⟩ | ⟨c1, c2, rfl, rfl⟩
  · rw [if_pos (hn.2 (.inl c1))]; exact hsel
  · rw [if_pos (hn.2 (.inr c2))]
    have : pos s ms (k + 1) 0 = pos s ms k j + 1 := by
      unfold pos
      rw [flatMap_take_succ _ _ ha.model]
      omega
    rw [← this]; exact hsel
  · rw [if_neg (fun hc => by rcases hn.1 hc with hc | hc <;> omega)]; exact hsel

/-- C38: `slotPreviousDifference` goes to the preceding difference of the whole sequence, or stays on the first one. -/
theorem C38_previous {s : MLState} (h : InUse s) {p : Nat} (hp : SelectedAt s p) :
    ∃ s', s.slotPreviousDifference = Res.ok s' ∧ InUse s' ∧ sequence s' = sequence s ∧ SelectedAt s' (p - 1) := by
  obtain ⟨_, _, ms, k, j, m, d, ho, ha⟩ := h.facts
  have hp' := (ha.selectedAt_iff ho p).1 hp
  subst hp'
  obtain ⟨s', k', j', m', d', g, hcase⟩ := slotPreviousDifference_ok ho ha
  have hs : sequence s' = sequence s := InUse.seq g.frame
  refine ⟨s', g.ok, h.step (op := .previousDifference) trivial g.ok, hs, ?_⟩
  have hpos : pos s' ms k' j' = pos s ms k' j' := by
    unfold pos
    congr 3
    funext m
    rw [g.frame.differences]
  have hsel := g.atIt.selectedAt g.opened
  rw [hpos] at hsel
  rcases hcase with ⟨c1, rfl, rfl⟩ | ⟨c1, c2, rfl, c4⟩ | ⟨c1, c2, rfl, rfl⟩
  · have : pos s ms k' j' = pos s ms k' (j' + 1) - 1 := by unfold pos; omega
    rw [← this]; exact hsel
  · subst c1
    have : pos s ms (k' + 1) 0 = pos s ms k' j' + 1 := by
      unfold pos
      rw [flatMap_take_succ _ _ g.atIt.model]
      omega
    rw [this]; exact hsel
  · subst c1; subst c2
    have : pos s ms 0 0 = 0 := by unfold pos; simp
    rw [this] at hsel ⊢; exact hsel

/-- C38: going on `n` times goes `n` places on, but not beyond the last difference. -/
theorem C38_next_times {s : MLState} (h : InUse s) {p : Nat} (hp : SelectedAt s p) (n : Nat) :
    ∃ s', times MLState.slotNextDifference n s = Res.ok s' ∧ InUse s' ∧ sequence s' = sequence s ∧
      SelectedAt s' (min (p + n) ((sequence s).length - 1)) := by
  induction n generalizing s p with
  | zero =>
    obtain ⟨q, h1, h2, h3⟩ := C38_position h
    have := h3 p hp
    subst this
    refine ⟨s, rfl, h, rfl, ?_⟩
    rw [show min (p + 0) ((sequence s).length - 1) = p by omega]; exact hp
  | succ n ih =>
    obtain ⟨s1, h1, u1, q1, p1⟩ := C38_next h hp
    obtain ⟨s2, h2, u2, q2, p2⟩ := ih u1 p1
    obtain ⟨q, _, h2', h3⟩ := C38_position h
    have := h3 p hp
    subst this
    refine ⟨s2, ?_, u2, q2.trans q1, ?_⟩
    · show (s.slotNextDifference >>= fun s => times MLState.slotNextDifference n s) = _
      rw [h1]; exact h2
    · rw [q1] at p2
      have e : min ((if p + 1 < (sequence s).length then p + 1 else p) + n) ((sequence s).length - 1) =
          min (p + (n + 1)) ((sequence s).length - 1) := by
        split <;> omega
      rw [← e]; exact p2

/-- C38: going back `n` times goes `n` places back, but not before the first difference. -/
theorem C38_previous_times {s : MLState} (h : InUse s) {p : Nat} (hp : SelectedAt s p) (n : Nat) :
    ∃ s', times MLState.slotPreviousDifference n s = Res.ok s' ∧ InUse s' ∧ sequence s' = sequence s ∧ SelectedAt s' (p - n) := by
  induction n generalizing s p with
  | zero => exact ⟨s, rfl, h, rfl, hp⟩
  | succ n ih =>
    obtain ⟨s1, h1, u1, q1, p1⟩ := C38_previous h hp
    obtain ⟨s2, h2, u2, q2, p2⟩ := ih u1 p1
    refine ⟨s2, ?_, u2, q2.trans q1, ?_⟩
    · show (s.slotPreviousDifference >>= fun s => times MLState.slotPreviousDifference n s) = _
      rw [h1]; exact h2
    · rw [show p - (n + 1) = p - 1 - n by omega]; exact p2

/-- C38: from the first difference every difference of every file is reached, in order: the `k`-th after `k` steps. -/
theorem C38_all_visited {s : MLState} (h : InUse s) (hp : SelectedAt s 0) (k : Nat) {m d : Nat} (hk : (sequence s)[k]? = some (m, d)) :
    ∃ s', times MLState.slotNextDifference k s = Res.ok s' ∧ s'.selectedModel = some m ∧ s'.selectedDifference = some d := by
  obtain ⟨s', h1, _, h2, h3⟩ := C38_next_times h hp k
  have hlt := (List.getElem?_eq_some_iff.1 hk).1
  rw [show min (0 + k) ((sequence s).length - 1) = k by omega] at h3
  obtain ⟨m', d', q1, q2, q3⟩ := h3
  rw [h2, hk] at q1
  cases q1
  exact ⟨s', h1, q2, q3⟩

/-- C38: next and then previous returns to the same difference, except on the last one. -/
theorem C38_next_previous {s : MLState} (h : InUse s) {p : Nat} (hp : SelectedAt s p) (hl : p + 1 < (sequence s).length) :
    ∃ s1 s2, s.slotNextDifference = Res.ok s1 ∧ s1.slotPreviousDifference = Res.ok s2 ∧ s2.selectedModel = s.selectedModel ∧
      s2.selectedDifference = s.selectedDifference := by
  obtain ⟨s1, h1, u1, q1, p1⟩ := C38_next h hp
  rw [if_pos hl] at p1
  obtain ⟨s2, h2, u2, q2, p2⟩ := C38_previous u1 p1
  refine ⟨s1, s2, h1, h2, ?_⟩
  obtain ⟨m, d, a1, a2, a3⟩ := hp
  obtain ⟨m', d', b1, b2, b3⟩ := p2
  rw [q2, q1, show p + 1 - 1 = p by omega, a1] at b1
  cases b1
  exact ⟨b2.trans a2.symm, b3.trans a3.symm⟩

/-- C38: next/previous file selects the first difference of the following/preceding file; on the last/first file the file stays
selected, but its first difference becomes the selected one. -/
theorem C38_files {s : MLState} (h : InUse s) {ms : List Nat} {k m : Nat} (hms : s.models = some ms) (hk : ms[k]? = some m)
    (hs : s.selectedModel = some m) :
    (∃ s' m' d, s.slotNextModel = Res.ok s' ∧ ms[if k + 1 < ms.length then k + 1 else k]? = some m' ∧
      (s.store m').differences[0]? = some d ∧ s'.selectedModel = some m' ∧ s'.selectedDifference = some d) ∧
    (∃ s' m' d, s.slotPreviousModel = Res.ok s' ∧ ms[k - 1]? = some m' ∧
      (s.store m').differences[0]? = some d ∧ s'.selectedModel = some m' ∧ s'.selectedDifference = some d) := by
  obtain ⟨_, _, ms', k0, j, m0, d, ho, ha⟩ := h.facts
  have e1 : ms' = ms := by have := ho.models; rw [hms] at this; cases this; rfl
  subst e1
  have e2 : m0 = m := by have := ha.selectedModel; rw [hs] at this; cases this; rfl
  subst e2
  have e3 : k0 = k := nodup_getElem?_inj ho.nodup ha.model hk
  subst e3
  constructor
  · obtain ⟨s', k', m', d', g, hc⟩ := slotNextModel_ok ho ha
    have hkk : k' = if k0 + 1 < ms'.length then k0 + 1 else k0 := by
      rcases hc with ⟨c, rfl⟩ | ⟨c, rfl⟩
      · rw [if_pos c]
      · rw [if_neg (by omega)]
    rw [← hkk]
    exact ⟨s', m', d', g.ok, g.atIt.model, g.frame.differences m' ▸ g.atIt.diff, g.atIt.selectedModel, g.atIt.selectedDifference⟩
  · obtain ⟨s', k', m', d', g, hc⟩ := slotPreviousModel_ok ho ha
    have hkk : k' = k0 - 1 := by rcases hc with ⟨c, e⟩ | ⟨c, e⟩ <;> omega
    rw [← hkk]
    exact ⟨s', m', d', g.ok, g.atIt.model, g.frame.differences m' ▸ g.atIt.diff, g.atIt.selectedModel, g.atIt.selectedDifference⟩

/-- The hypotheses of C38 are met by the example, which has at least one difference in each of two files. -/
example : ∃ s p, InUse s ∧ SelectedAt s p := by
  obtain ⟨s, h⟩ := example_inUse
  obtain ⟨p, hp, _⟩ := C38_position h
  exact ⟨s, p, h, hp⟩

/-! ## C39 -/

/-- C39: while a diff is in use, the actions for navigation are enabled exactly when they lead somewhere. -/
theorem C39_navigation {s : MLState} (h : InUse s) : NavigationRight s := h.facts.2.1

/-- C39: after every navigation, selection or apply action the actions for writing are right, too. -/
theorem C39_writing {s s' : MLState} (h : InUse s) {op : UserOp} (hop : op.Ok s) (hu : op.updates = true) (hc : s.canSave = true)
    (hr : op.run s = Res.ok s') : WritingRight s' := by
  obtain ⟨_, hn, ms, k, j, m, d, ho, ha⟩ := h.facts
  obtain ⟨s1, k', j', m', d', g, q⟩ := user_ok ho ha op hop
  have : s1 = s' := by have := g.ok; rw [hr] at this; cases this; rfl
  subst this
  exact (q hu).2 (by rw [g.frame.canSave]; exact hc)

/-- C39: the actions are right immediately after opening. -/
theorem C39_opened {s s1 : MLState} {op : MLOp} (hs : Reachable s) (ho : OpensDiff op s s1) :
    NavigationRight s1 ∧ (s1.canSave = true → WritingRight s1) := by
  obtain ⟨⟨ms, _, _, r⟩, _⟩ := opens_ok hs.wf ho
  exact r

/-- C39: switching between read-only and read-write makes them right. -/
theorem C39_readWrite {s : MLState} (h : InUse s) (hc : s.canSave = true) (b : Bool) (hb : s.isReadWrite ≠ b) :
    ∃ s', s.setReadWrite b = Res.ok s' ∧ s'.isReadWrite = b ∧ NavigationRight s' ∧ WritingRight s' := by
  obtain ⟨_, hn, ms, k, j, m, d, ho, ha⟩ := h.facts
  obtain ⟨s', g, q1, q2⟩ := setReadWrite_ok ho ha b
  have hr := q2 (.inl hb)
  exact ⟨s', g.ok, q1, hr.1, hr.2 (by rw [g.frame.canSave]; exact hc)⟩

/-- C39: when no diff is open – after a failed open, whatever was selected before – switching between read-only and read-write disables all
actions; the actions for writing do not exist if the list cannot save. -/
theorem C39_closed {s : MLState} (hm : s.models = none) (b : Bool) (hb : s.isReadWrite ≠ b) :
    ∃ s', s.setReadWrite b = Res.ok s' ∧ s'.isReadWrite = b ∧
      s'.actions.previousFile = false ∧ s'.actions.nextFile = false ∧ s'.actions.previousDifference = false ∧ s'.actions.nextDifference = false ∧
      (s.canSave = true → s'.actions.apply = false ∧ s'.actions.unapply = false ∧ s'.actions.applyAll = false ∧ s'.actions.unapplyAll = false ∧
        s'.actions.save = false) ∧
      (s.canSave = false → s'.actions.apply = s.actions.apply ∧ s'.actions.unapply = s.actions.unapply ∧ s'.actions.applyAll = s.actions.applyAll ∧
        s'.actions.unapplyAll = s.actions.unapplyAll ∧ s'.actions.save = s.actions.save) := by
  unfold MLState.setReadWrite MLState.updateActions
  rw [if_neg hb, if_neg (fun q => q.1 hm)]
  refine ⟨_, rfl, rfl, rfl, rfl, rfl, rfl, fun hc => ?_, fun hc => ?_⟩
  · dsimp only; rw [if_pos hc]; exact ⟨rfl, rfl, rfl, rfl, rfl⟩
  · dsimp only; rw [if_neg (by rw [hc]; simp)]; exact ⟨rfl, rfl, rfl, rfl, rfl⟩

/-- C39, defect: the public slot for applying (not the action) does not update the actions: "apply" stays enabled although the selected
difference is now applied, and "unapply" stays disabled. -/
theorem C39_slot_stale_defect {s : MLState} (h : InUse s) (hw : WritingRight s) (hrw : s.isReadWrite = true) {d : Nat}
    (hd : s.selectedDifference = some d) (ha : (s.heap.cell d).applied = false) :
    ∃ s', s.slotApplyDifference true = Res.ok s' ∧ s'.selectedDifference = some d ∧ (s'.heap.cell d).applied = true ∧
      s'.actions.apply = true ∧ s'.actions.unapply = false := by
  obtain ⟨_, hn, ms, k, j, m, d0, ho, hat⟩ := h.facts
  obtain ⟨s', g, q1, q2, _, q3⟩ := slotApplyDifference_ok ho hat true
  have e : d0 = d := by have := hat.selectedDifference; rw [hd] at this; cases this; rfl
  subst e
  have hwa := hw.apply d0 hrw hd
  refine ⟨s', g.ok, g.atIt.selectedDifference, ?_, by rw [q3]; exact hwa.1.2 ha, ?_⟩
  · simp only [MOp.run, DModel.applyDifference, hat.modelSelected, ha, Bool.false_eq_true, if_false, Res.ok.injEq, Prod.mk.injEq] at q2
    rw [← q2.2, applied_direct, if_pos rfl]
  · rw [q3]
    cases hx : s.actions.unapply with
    | false => rfl
    | true => rw [hwa.2.1 hx] at ha; exact absurd ha (by simp)

theorem parseAndOpenDiff_flags {e : Env} {s s' : MLState} {text : Str} {b : Bool} (w : WF s) (h : s.parseAndOpenDiff e text = Res.ok (s', b)) :
    s'.isReadWrite = s.isReadWrite ∧ s'.canSave = s.canSave := by
  unfold MLState.parseAndOpenDiff at h
  obtain ⟨⟨t, b'⟩, h3, h4⟩ := Res.bind_eq_ok.1 h
  have wc : WF (s.clear.emit (.status .Parsing)) := w.keep ((keep_clear s).trans (keep_emit _ _))
  obtain ⟨_, q1, q2, _⟩ := parseDiffOutput_spec wc h3
  dsimp only at h4
  split at h4
  · cases h4; exact ⟨q2, q1⟩
  · obtain ⟨u, hu, h4⟩ := Res.bind_eq_ok.1 h4
    cases h4
    have : u.isReadWrite = t.isReadWrite ∧ u.canSave = t.canSave := by
      unfold MLState.updateActions at hu
      split at hu
      · obtain ⟨_, _, hu⟩ := Res.bind_eq_ok.1 hu
        obtain ⟨_, _, hu⟩ := Res.bind_eq_ok.1 hu
        obtain ⟨_, _, hu⟩ := Res.bind_eq_ok.1 hu
        obtain ⟨_, _, hu⟩ := Res.bind_eq_ok.1 hu
        cases hu; exact ⟨rfl, rfl⟩
      · cases hu; exact ⟨rfl, rfl⟩
    exact ⟨this.1.trans q2, this.2.trans q1⟩

/-- A state in use that meets the hypotheses of C39: read-write, with right actions and the selected difference not applied. -/
theorem example_readWrite : ∃ s d, InUse s ∧ s.isReadWrite = true ∧ s.canSave = true ∧ WritingRight s ∧ s.selectedDifference = some d ∧
    (s.heap.cell d).applied = false := by
  obtain ⟨s1, h1⟩ := example_opens
  have u1 := h1.inUse exampleStart_reachable
  obtain ⟨f1, f2⟩ := parseAndOpenDiff_flags exampleStart_reachable.wf h1
  obtain ⟨_, _, ms, k, j, m, d, ho, ha⟩ := u1.facts
  obtain ⟨s2, g2, r2, q2, _, _⟩ := slotApplyDifference_ok ho ha false
  have u2 := u1.step (op := .applySlot false) trivial g2.ok
  obtain ⟨s3, j3, d3, n3, q3, _⟩ := slotDiffSelectionChanged_ok (d := d) g2.opened g2.atIt
  have e3 := q3 (List.mem_of_getElem? g2.atIt.diff)
  subst e3
  have hdd : d3 ∉ s2.deadDiffs := g2.opened.liveDiffs m (g2.opened.mem g2.atIt.model) d3 (List.mem_of_getElem? g2.atIt.diff)
  have u3 := u2.step (op := .selectDiff d3) hdd n3.ok
  have hcs : s3.canSave = true := by rw [n3.frame.canSave, g2.frame.canSave, f2]; rfl
  refine ⟨s3, d3, u3, by rw [n3.rw_, r2, f1]; rfl, hcs, n3.right.2 hcs, n3.atIt.selectedDifference, ?_⟩
  rw [n3.heap]
  simp only [MOp.run, DModel.applyDifference, ha.modelSelected] at q2
  split at q2
  · rename_i hx
    simp only [Res.ok.injEq, Prod.mk.injEq] at q2
    rw [← q2.2]; exact hx
  · simp only [Res.ok.injEq, Prod.mk.injEq] at q2
    rw [← q2.2, applied_direct, if_pos rfl]

/-! ## C40 -/

theorem failed_open {e : Env} {s s' : MLState} {text : Str} (hs : WF s) (h : s.parseAndOpenDiff e text = Res.ok (s', false)) :
    s'.modelCount = 0 ∧ s'.models = none ∧ s'.selectedModel = s.selectedModel ∧ s'.selectedDifference = s.selectedDifference ∧
      s'.differenceCount = s.differenceCount ∧ s'.actions = s.actions := by
  unfold MLState.parseAndOpenDiff at h
  obtain ⟨⟨t, b'⟩, h3, h4⟩ := Res.bind_eq_ok.1 h
  have wc : WF (s.clear.emit (.status .Parsing)) := hs.keep ((keep_clear s).trans (keep_emit _ _))
  obtain ⟨_, _, _, r, _, _, hf, _⟩ := parseDiffOutput_spec wc h3
  dsimp only at h4
  split at h4
  · rename_i hb
    obtain ⟨_, m1, m2, m3, m4, m5, m6, m7, _⟩ := hf hb
    cases h4
    have hd : t.dead = s.dead := by
      rw [m7]
      show s.dead ++ (s.models.map (fun _ => [])).getD [] = s.dead
      cases s.models <;> simp
    have m2' : t.selectedModel = s.selectedModel := m2
    have m6' : t.store = s.store := m6
    refine ⟨?_, m1, m2, m3, ?_, m5⟩
    · unfold MLState.modelCount; rw [show (t.emit (.error .couldNotParse)).models = none from m1]
    · unfold MLState.differenceCount MLState.model
      rw [show (t.emit (.error .couldNotParse)).selectedModel = s.selectedModel from m2', show (t.emit (.error .couldNotParse)).dead = s.dead from hd,
        show (t.emit (.error .couldNotParse)).store = s.store from m6']
  · obtain ⟨u, hu, h4⟩ := Res.bind_eq_ok.1 h4
    cases h4

/-- C40: after an open that yields no models there are no models, but the selection, the number of differences of the selected file and
all actions are still those of before. -/
theorem C40_failed_open {e : Env} {s s' : MLState} {text : Str} (hs : Reachable s) (h : s.parseAndOpenDiff e text = Res.ok (s', false)) :
    s'.modelCount = 0 ∧ s'.models = none ∧ s'.selectedModel = s.selectedModel ∧ s'.selectedDifference = s.selectedDifference ∧
      s'.differenceCount = s.differenceCount ∧ s'.actions = s.actions :=
  failed_open hs.wf h

/-- Opening an empty text fails, in any state. -/
theorem empty_fails {s : MLState} (hs : Reachable s) (hi : s.info ≠ none) : ∃ s', s.parseAndOpenDiff emptyEnv [] = Res.ok (s', false) := by
  obtain ⟨s', h⟩ := parseAndOpenDiff_total (e := emptyEnv) (text := []) (r := { models := none, malformed := false, heap := s.heap }) hs.wf hi rfl
  exact ⟨s', h⟩

/-- The hypotheses of `C39_closed` are met: a diff was in use, the next open failed, and a difference is still selected. -/
example : ∃ s1 s, Reachable s1 ∧ s1.parseAndOpenDiff emptyEnv [] = Res.ok (s, false) ∧ s.models = none ∧ s.selectedModel ≠ none ∧
    s.isReadWrite ≠ !s.isReadWrite := by
  obtain ⟨s1, h⟩ := example_opens
  obtain ⟨_, _, ms, k, j, m, d, ho, ha⟩ := (h.inUse exampleStart_reachable).facts
  have hr := h.reachable exampleStart_reachable
  obtain ⟨s2, h2⟩ := empty_fails hr ho.info
  obtain ⟨_, q1, q2, _⟩ := C40_failed_open hr h2
  refine ⟨s1, s2, hr, h2, q1, ?_, by simp⟩
  rw [q2, ha.selectedModel]; simp

/-- C40: without models, every navigation is undefined behaviour. -/
theorem C40_navigation_ub {s : MLState} (h : s.models = none) :
    s.slotNextDifference = Res.ub ∧ s.slotPreviousDifference = Res.ub ∧ s.slotNextModel = Res.ub ∧ s.slotPreviousModel = Res.ub ∧
      ∀ m d, s.slotSelectionChanged m d = Res.ub :=
  ⟨noModels_next h, noModels_previous h, noModels_nextFile h, noModels_previousFile h, fun m d => by
    unfold MLState.slotSelectionChanged; rw [list_none h]; rfl⟩

/-- C40: so, when a diff was in use and the next open fails, "next difference" is still enabled if it was, but triggering it is undefined
behaviour. -/
theorem C40_enabled_ub {e : Env} {s s' : MLState} {text : Str} {p : Nat} (hu : InUse s) (hs : Reachable s) (hp : SelectedAt s p)
    (hl : p + 1 < (sequence s).length) (h : s.parseAndOpenDiff e text = Res.ok (s', false)) :
    s'.actions.nextDifference = true ∧ s'.slotNextDifference = Res.ub := by
  obtain ⟨_, h1, _, _, _, h2⟩ := C40_failed_open hs h
  exact ⟨by rw [h2]; exact ((C39_navigation hu).nextDifference p hp).2 hl, (C40_navigation_ub h1).1⟩

/-- C40: when nothing was ever selected (for example because every open so far failed), all actions are disabled and there is no count of
differences. -/
theorem C40_never_selected {s : MLState} (h : Reachable s) (hn : s.selectedModel = none) :
    s.actions = ⟨false, false, false, false, false, false, false, false, false⟩ ∧ s.differenceCount = Res.ok (-1) := by
  refine ⟨reachable_noSel h hn, ?_⟩
  unfold MLState.differenceCount
  rw [hn]

/-- C40: while the diff program started by `compare(mode)` is running there are no models, but the selection and the actions are those of
the previous diff; on the last difference of a file, "next difference" is then undefined behaviour. -/
theorem C40_pending {e : Env} {s s' : MLState} {mode : Mode} (hu : InUse s) (h : s.compareMode e mode = Res.ok (s', true)) :
    s'.models = some [] ∧ s'.modelCount = 0 ∧ s'.selectedModel = s.selectedModel ∧ s'.selectedDifference = s.selectedDifference ∧
      s'.actions = s.actions ∧
      (∀ j : Nat, s.currentDifference = Res.ok j → s.differenceCount = Res.ok ((j : Int) + 1) → s'.slotNextDifference = Res.ub) := by
  obtain ⟨_, _, ms, k, j, m, d, ho, ha⟩ := hu.facts
  unfold MLState.compareMode at h
  dsimp only at h
  split at h
  · cases h
  · obtain ⟨x, _, h⟩ := Res.bind_eq_ok.1 h
    cases h
    have hm : (MLState.emit { s.clear with process := some (.compare x.1 x.2) } (.status .RunningDiff)).models = some [] := by
      show s.models.map (fun _ => []) = some []
      rw [ho.models]; rfl
    refine ⟨hm, ?_, rfl, rfl, rfl, ?_⟩
    · unfold MLState.modelCount; rw [hm]; rfl
    intro j0 hj hc
    have hv := ha.valid ho
    rw [hv.currentDifference] at hj
    have hj' : j = j0 := by have := Res.ok.inj hj; omega
    subst hj'
    have hlen : (s.store m).differences.length = j + 1 := by
      unfold MLState.differenceCount at hc
      rw [ha.selectedModel] at hc
      dsimp only at hc
      rw [ho.model (ho.mem ha.model), Res.bind_ok] at hc
      simp only [Res.ok.injEq] at hc
      omega
    have ha' : At (MLState.emit { s.clear with process := some (.compare x.1 x.2) } (.status .RunningDiff)) ms k j m d := ha
    have hsm : (MLState.emit { s.clear with process := some (.compare x.1 x.2) } (.status .RunningDiff)).model (some m) = Res.ok m := ho.model (ho.mem ha.model)
    have hst : (MLState.emit { s.clear with process := some (.compare x.1 x.2) } (.status .RunningDiff)).store = s.store := rfl
    generalize MLState.emit { s.clear with process := some (.compare x.1 x.2) } (.status .RunningDiff) = t at hm ha' hsm hst
    unfold MLState.slotNextDifference
    rw [ha'.selectedModel, hsm, Res.bind_ok, selectWith_next_out ha' (by rw [hst]; omega), Res.bind_ok]
    rw [if_neg (by simp [MLState.left_])]
    have hix : (t.left_ m).modelIndex = k := ha'.index
    have hml : (t.left_ m).list = Res.ok [] := by
      unfold MLState.list; rw [show (t.left_ m).models = some [] from hm]
    unfold MLState.nextModel_
    rw [hml, Res.bind_ok, if_neg (by rw [hix]; show ¬ (k : Int) + 1 < (([] : List Nat).length : Int); simp only [List.length_nil]; omega), Res.bind_ok, if_neg (by simp)]
    unfold MLState.lastModel
    rw [show ({ t.left_ m with modelIndex := 0, selectedModel := none } : MLState).list = Res.ok [] from hml]
    rfl

/-- C40: when the diff program finishes while another diff is in use and its output cannot be parsed, the models in use are deleted but one
of them stays selected: even asking for the number of differences is undefined behaviour. -/
theorem C40_dangling_ub {e : Env} {s s' : MLState} {r : ProcessResult} (hu : InUse s) (h : s.slotDiffProcessFinished e r = Res.ok s')
    (hr : r.finishedNormally = true) (hm : s'.models = none) : s'.selectedModel = s.selectedModel ∧ s'.differenceCount = Res.ub := by
  obtain ⟨w, _, ms, k, j, m, d, ho, ha⟩ := hu.facts
  unfold MLState.slotDiffProcessFinished at h
  dsimp only at h
  rw [if_pos hr] at h
  obtain ⟨⟨u, ok⟩, hp, h⟩ := Res.bind_eq_ok.1 h
  obtain ⟨wu, _, _, pr, _, _, hf, ht⟩ := parseDiffOutput_spec (w.keep (keep_emit s (.status .Parsing))) hp
  dsimp only at h
  split at h
  · rename_i hok
    obtain ⟨_, m1, m2, m3, m4, m5, m6, m7, _⟩ := hf hok
    cases h
    have m2' : u.selectedModel = s.selectedModel := m2
    have m7' : u.dead = s.dead ++ s.models.getD [] := m7
    refine ⟨m2', ?_⟩
    have e1 : u.selectedModel = some m := m2'.trans ha.selectedModel
    have e2 : m ∈ u.dead := by
      rw [m7', ho.models]
      exact List.mem_append_right _ (ho.mem ha.model)
    clear m1 m2 m3 m4 m5 m6 m7 hm hf hp
    have key : ∀ t : MLState, t.selectedModel = some m → m ∈ t.dead → t.differenceCount = Res.ub := by
      intro t h1 h2
      unfold MLState.differenceCount MLState.model
      rw [h1]
      dsimp only
      rw [if_pos h2]; rfl
    exact key _ e1 e2
  · rename_i hok
    exfalso
    obtain ⟨dms, m0, d0, _, ho', ha', _⟩ := ht (by simpa using hok)
    split at h
    · cases h
    · rename_i i hi
      have fin : ∀ x : MLState, x.models ≠ none → ∀ y : MLState, x.updateActions = Res.ok y → y.models ≠ none := by
        intro x hx y hy
        unfold MLState.updateActions at hy
        split at hy
        · obtain ⟨_, _, hy⟩ := Res.bind_eq_ok.1 hy
          obtain ⟨_, _, hy⟩ := Res.bind_eq_ok.1 hy
          obtain ⟨_, _, hy⟩ := Res.bind_eq_ok.1 hy
          obtain ⟨_, _, hy⟩ := Res.bind_eq_ok.1 hy
          cases hy; exact hx
        · cases hy; exact hx
      split at h
      · obtain ⟨v, b', hv, ov, wv, kv, sv, _⟩ := blendOriginal_ok e ho' wu i.localSource ⟨0, 0, m0, d0, ha'⟩
        rw [hv] at h
        simp only [Res.bind_ok] at h
        obtain ⟨x, hx, h⟩ := Res.bind_eq_ok.1 h
        cases h
        exact fin v (by rw [ov.models]; simp) x hx hm
      · simp only [Res.bind_ok] at h
        obtain ⟨x, hx, h⟩ := Res.bind_eq_ok.1 h
        cases h
        exact fin u (by rw [ho'.models]; simp) x hx hm

/-- The hypotheses of C40 are met: the example, then an empty text. -/
example : ∃ s s', InUse s ∧ Reachable s ∧ s.parseAndOpenDiff emptyEnv [] = Res.ok (s', false) := by
  obtain ⟨s1, h1⟩ := example_opens
  have r1 := h1.reachable exampleStart_reachable
  have u1 := h1.inUse exampleStart_reachable
  obtain ⟨_, _, ms, k, j, m, d, ho, ha⟩ := u1.facts
  obtain ⟨s', h'⟩ := empty_fails r1 ho.info
  exact ⟨s1, s', u1, r1, h'⟩

/-- Nothing was ever selected after a failed first open. -/
example : ∃ s', exampleStart.parseAndOpenDiff emptyEnv [] = Res.ok (s', false) ∧ s'.selectedModel = none := by
  obtain ⟨s', h⟩ := empty_fails exampleStart_reachable (by simp [exampleStart, MLState.setInfo])
  exact ⟨s', h, (C40_failed_open exampleStart_reachable h).2.2.1⟩

end KompareDiff2
