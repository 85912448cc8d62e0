import Verif.Proofs.MovedSession
import Verif.Props.ModelList
/-
C66: opening starts afresh.
-/
namespace KompareDiff2
open Spec

theorem Spec.MovedBy.alike {c : Bool} {a b : Nat} {L L' : List Event} {s s' : MLState} (w : MovedBy (SameActions c) c a b L L' s s') :
    Alike a b L L' s s' := by
  unfold Alike; rw [w.canSave]; exact w

theorem MovedOpen.alike {A : Actions → Actions → Prop} {c : Bool} {a b : Nat} {L L' : List Event} {P : Prop} {x y : MLState × Bool}
    (h : MovedOpen A c a b L L' P x y) : OpensAlike a b L L' x y := ⟨h.same, fun q => (h.good q).alike⟩

/-- **C66.** Opening a diff in a list that was used in any way, or in a new list with the same settings and operands: the calls return the
same, and if they succeed the two lists are alike, up to the addresses of the objects: the same models, differences, selection, enabled
actions and, since the list was cleared, the same signals. -/
theorem C66_opens_like_new {u : MLState} (hu : Reachable u) (cell : Nat → Diff) (e : Env) :
    (∀ file, Agree (OpensAlike u.heap.next u.nextModel (asNew cell u).clear.log u.clear.log) ((asNew cell u).openDiff e file) (u.openDiff e file)) ∧
    (∀ text, Agree (OpensAlike u.heap.next u.nextModel (asNew cell u).clear.log u.clear.log) ((asNew cell u).parseAndOpenDiff e text)
      (u.parseAndOpenDiff e text)) ∧
    Agree (OpensAlike u.heap.next u.nextModel (asNew cell u).clear.log u.clear.log) ((asNew cell u).openAndDiff e) (u.openAndDiff e) := by
  have w := movedStart_clear hu.wf cell
  refine ⟨fun file => ?_, fun text => ?_, ?_⟩
  · by_cases hf : file = []
    · unfold MLState.openDiff
      rw [if_pos hf, if_pos hf]
      exact ⟨rfl, fun q => (by cases q)⟩
    · exact (move_openDiff e file w hf).mono fun _ _ h => h.alike
  · exact (move_parseAndOpenDiff e text w).mono fun _ _ h => h.alike
  · exact (move_openAndDiff e w).mono fun _ _ h => h.alike

theorem compareMode_keeps_info {e : Env} {mode : Mode} {s : MLState} {r : MLState × Bool} (h : s.compareMode e mode = Res.ok r) : r.1.info = s.info := by
  unfold MLState.compareMode at h
  dsimp only at h
  split at h
  · cases h
  · obtain ⟨p, _, h⟩ := Res.bind_eq_ok.1 h
    cases h
    rfl

theorem movedStart_runs {A : Actions → Actions → Prop} {c : Bool} {a b : Nat} {L L' : List Event} {x y : MLState}
    (w : MovedStart A c a b L L' x y) : RunsAlike a b L L' x y :=
  ⟨w.rest.process, fun e r hr => (move_finished e r w hr).mono fun _ _ h => ⟨h.same, fun q => (h.good q).alike⟩⟩

/-- **C66.** The same for `compare()`: it finds out the same kind of comparison; if that is a patch to be blended into its originals the lists
are alike afterwards; otherwise the same process runs, and its diff will be read alike. -/
theorem C66_compares_like_new {u : MLState} (hu : Reachable u) (cell : Nat → Diff) (e : Env) :
    Agree (fun x y => y.2 = x.2 ∧ (x.2 = true → y.1.info = x.1.info ∧
        RunsAlike u.heap.next u.nextModel (asNew cell u).clear.log u.clear.log x.1 y.1 ∧
        ((∃ i, x.1.info = some i ∧ (i.mode = .BlendingFile ∨ i.mode = .BlendingDir)) →
          Alike u.heap.next u.nextModel (asNew cell u).clear.log u.clear.log x.1 y.1)))
      ((asNew cell u).compare e) (u.compare e) := by
  unfold MLState.compare
  show Agree _ (match u.info with | none => _ | some i => _) _
  cases u.info with
  | none => exact trivial
  | some i =>
    have ws : ∀ j, MovedStart (fun _ _ => True) u.canSave u.heap.next u.nextModel (asNew cell u).clear.log u.clear.log
        ({ asNew cell u with info := some j } : MLState).clear ({ u with info := some j } : MLState).clear :=
      fun j => (movedStart_clear hu.wf cell).setInfo (some j)
    have opens : ∀ j, Agree _ (({ asNew cell u with info := some j } : MLState).openAndDiff e) (({ u with info := some j } : MLState).openAndDiff e) :=
      fun j => (move_openAndDiff e (ws j)).mono (Q := fun x y => y.2 = x.2 ∧ (x.2 = true → y.1.info = x.1.info ∧
        RunsAlike u.heap.next u.nextModel (asNew cell u).clear.log u.clear.log x.1 y.1 ∧
        ((∃ i, x.1.info = some i ∧ (i.mode = .BlendingFile ∨ i.mode = .BlendingDir)) →
          Alike u.heap.next u.nextModel (asNew cell u).clear.log u.clear.log x.1 y.1))) fun x y h =>
        ⟨h.same, fun q => ⟨(h.good q).info, movedStart_runs (h.good q).start, fun _ => (h.good q).alike⟩⟩
    have runs : ∀ (j : Info) (mode : Mode), j.mode = .ComparingFiles ∨ j.mode = .ComparingDirs →
        Agree _ (({ asNew cell u with info := some j } : MLState).compareMode e mode) (({ u with info := some j } : MLState).compareMode e mode) :=
      fun j mode hj => (move_compareMode e mode (ws j)).with_ok.mono (Q := fun x y => y.2 = x.2 ∧ (x.2 = true → y.1.info = x.1.info ∧
        RunsAlike u.heap.next u.nextModel (asNew cell u).clear.log u.clear.log x.1 y.1 ∧
        ((∃ i, x.1.info = some i ∧ (i.mode = .BlendingFile ∨ i.mode = .BlendingDir)) →
          Alike u.heap.next u.nextModel (asNew cell u).clear.log u.clear.log x.1 y.1))) fun x y ⟨h, ex⟩ =>
        ⟨h.1, fun _ => ⟨h.2.1.info, movedStart_runs h.2.1, fun ⟨k, hk, hm⟩ => by
          rw [compareMode_keeps_info ex] at hk
          cases hk
          rcases hj with q | q <;> rw [q] at hm <;> rcases hm with hm | hm <;> cases hm⟩⟩
    refine agree_ite Iff.rfl (fun _ => runs _ _ (.inr rfl)) fun _ => ?_
    refine agree_ite Iff.rfl (fun _ => ?_) fun _ => ?_
    · refine agree_ite Iff.rfl (fun _ => opens _) fun _ => ?_
      exact agree_ite Iff.rfl (fun _ => opens _) fun _ => runs _ _ (.inl rfl)
    · exact agree_ite Iff.rfl (fun _ => opens _) fun _ => opens _

/-- **C66.** The same for `refresh()`: the same process runs, and its diff will be read alike. -/
theorem C66_refreshes_like_new {u : MLState} (hu : Reachable u) (cell : Nat → Diff) (e : Env) :
    Agree (RunsAlike u.heap.next u.nextModel (asNew cell u).clear.log u.clear.log) ((asNew cell u).refresh e) (u.refresh e) := by
  unfold MLState.refresh
  show Agree _ (match u.info with | none => _ | some i => _) _
  cases u.info with
  | none => exact trivial
  | some i => exact (move_compareMode e i.mode (movedStart_clear hu.wf cell)).bind fun _ _ h => movedStart_runs h.2.1

/-- **C66.** Whenever the diff process ends with a diff, what is read does not depend on what the list was used for before. -/
theorem C66_reads_like_new {u : MLState} (hu : Reachable u) (cell : Nat → Diff) (e : Env) (r : ProcessResult) (hr : r.finishedNormally = true) :
    Agree (ReadsAlike u.heap.next u.nextModel [] u.log) ((asNew cell u).slotDiffProcessFinished e r) (u.slotDiffProcessFinished e r) :=
  (movedStart_runs (movedStart_asNew hu.wf cell)).2 e r hr

/-- **C66.** From then on the lists stay alike: every call, with the corresponding objects as arguments, ends in the same way in both and leaves
them alike. -/
theorem C66_session {a b : Nat} {L L' : List Event} {s s' : MLState} (w : Alike a b L L' s s') (ops : List MLOp) (hk : AllKnown ops s) :
    Agree (Alike a b L L') (runSession ops s) (runSession (ops.map (moveOp a b)) s') :=
  (Spec.MovedBy.session ops w hk).mono fun _ _ h => h.alike

/-- **C66.** … also if the client edits the text of one of the models. -/
theorem C66_edit {a b : Nat} {L L' : List Event} {s s' : MLState} (w : Alike a b L L' s s') (hash : Str → Nat) {m : Nat} (hm : m < s.nextModel)
    (old new : List Str) (line : Int) :
    Agree (fun x y => Alike a b L L' x.1 y.1 ∧ y.2.1 = x.2.1.map (· + a) ∧ y.2.2 = x.2.2.map (· + a))
      (s.edit hash m old new line) (s'.edit hash (m + b) old new line) :=
  (Spec.MovedBy.edit w hash hm old new line).mono fun _ _ h => ⟨h.1.alike, h.2⟩

theorem writtenFiles_move (a b : Nat) (t : List Event) : writtenFiles (t.map (moveEvent a b)) = writtenFiles t := by
  unfold writtenFiles
  rw [List.filterMap_map]
  congr 1
  funext e
  cases e <;> rfl

/-- **C66.** Lists that are alike give the same answers, and the files they have written since then have the same names and contents. -/
theorem C66_answers {a b : Nat} {L L' : List Event} {s s' : MLState} (w : Alike a b L L' s s') :
    SameAnswers s s' ∧ writtenFiles (s'.log.drop L'.length) = writtenFiles (s.log.drop L.length) := by
  have w : MovedBy (SameActions s.canSave) s.canSave a b L L' s s' := w
  refine ⟨⟨w.modelCount, w.differenceCount, ?_, ?_, ?_, w.hasUnsavedChanges, w.recreateDiff⟩, ?_⟩
  · unfold MLState.appliedCount
    have q := w.selected
    rw [w.selectedModel] at q ⊢
    cases e : s.selectedModel with
    | none => exact rfl
    | some m =>
      rw [e] at q
      refine q.bind fun i j ⟨e1, _, e3⟩ => ?_
      subst e1
      show _ = _
      rw [w.store i e3]
      rfl
  · refine w.list.bind fun l l' ⟨e, _, _⟩ => ?_
    subst e
    show _ = _
    rw [w.selectedModel, indexOfPtr_add]
  · unfold MLState.currentDifference
    have q := w.selected
    rw [w.selectedModel] at q ⊢
    cases e : s.selectedModel with
    | none => exact rfl
    | some m =>
      rw [e] at q
      refine q.bind fun i j ⟨e1, _, e3⟩ => ?_
      subst e1
      show _ = _
      rw [w.store i e3, w.selectedDifference]
      exact (indexOfPtr_add a _ _).symm
  · obtain ⟨t, e1, e2⟩ := w.log
    rw [e1, e2, List.drop_left, List.drop_left, writtenFiles_move]

theorem Spec.Agree.symm_trans {α : Type} {x y z : Res α} (h : Agree Eq x y) (k : Agree Eq x z) : Agree Eq y z := by
  cases x <;> cases y <;> cases z <;> first | exact False.elim h | exact False.elim k | exact (Eq.symm h).trans k | exact trivial

theorem Spec.SameAnswers.symm_trans {x y z : MLState} (h : SameAnswers x y) (k : SameAnswers x z) : SameAnswers y z :=
  ⟨k.modelCount.trans h.modelCount.symm, h.differenceCount.symm_trans k.differenceCount, h.appliedCount.symm_trans k.appliedCount,
    h.currentModel.symm_trans k.currentModel, h.currentDifference.symm_trans k.currentDifference,
    k.hasUnsavedChanges.trans h.hasUnsavedChanges.symm, fun e => (h.recreateDiff e).symm_trans (k.recreateDiff e)⟩

/-- **C66.** Two lists with different histories but the same operands and settings: after the same diff was opened in both, any calls, with
the corresponding objects as arguments, end in the same way, write the same files and are followed by the same answers. -/
theorem C66_histories {u v : MLState} (hu : Reachable u) (hv : Reachable v) (cell : Nat → Diff) (huv : asNew cell u = asNew cell v) (e : Env) (text : Str)
    {n : MLState} (hn : (asNew cell u).parseAndOpenDiff e text = Res.ok (n, true)) (ops : List MLOp) (hk : AllKnown ops n) :
    ∃ x y, u.parseAndOpenDiff e text = Res.ok (x, true) ∧ v.parseAndOpenDiff e text = Res.ok (y, true) ∧
      Agree (fun s s' => SameAnswers s s' ∧ writtenFiles (s'.log.drop v.clear.log.length) = writtenFiles (s.log.drop u.clear.log.length))
        (runSession (ops.map (moveOp u.heap.next u.nextModel)) x) (runSession (ops.map (moveOp v.heap.next v.nextModel)) y) := by
  have h1 := (C66_opens_like_new hu cell e).2.1 text
  have h2 := (C66_opens_like_new hv cell e).2.1 text
  rw [hn] at h1
  rw [← huv, hn] at h2
  cases ex : u.parseAndOpenDiff e text with
  | ub => rw [ex] at h1; exact False.elim h1
  | hang => rw [ex] at h1; exact False.elim h1
  | ok x =>
  cases ey : v.parseAndOpenDiff e text with
  | ub => rw [ey] at h2; exact False.elim h2
  | hang => rw [ey] at h2; exact False.elim h2
  | ok y =>
    obtain ⟨x, bx⟩ := x
    obtain ⟨y, by'⟩ := y
    rw [ex] at h1
    rw [ey] at h2
    have b1 : bx = true := h1.1
    have b2 : by' = true := h2.1
    subst b1 b2
    refine ⟨x, y, rfl, rfl, ?_⟩
    have s1 := C66_session (h1.2 rfl) ops hk
    have s2 := C66_session (h2.2 rfl) ops hk
    cases en : runSession ops n with
    | ub =>
      rw [en] at s1 s2
      cases e1 : runSession (ops.map (moveOp u.heap.next u.nextModel)) x <;> rw [e1] at s1 <;>
      cases e2 : runSession (ops.map (moveOp v.heap.next v.nextModel)) y <;> rw [e2] at s2 <;>
      first | exact False.elim s1 | exact False.elim s2 | exact trivial
    | hang =>
      rw [en] at s1 s2
      cases e1 : runSession (ops.map (moveOp u.heap.next u.nextModel)) x <;> rw [e1] at s1 <;>
      cases e2 : runSession (ops.map (moveOp v.heap.next v.nextModel)) y <;> rw [e2] at s2 <;>
      first | exact False.elim s1 | exact False.elim s2 | exact trivial
    | ok z =>
      rw [en] at s1 s2
      cases e1 : runSession (ops.map (moveOp u.heap.next u.nextModel)) x with
      | ub => rw [e1] at s1; exact False.elim s1
      | hang => rw [e1] at s1; exact False.elim s1
      | ok x1 =>
      cases e2 : runSession (ops.map (moveOp v.heap.next v.nextModel)) y with
      | ub => rw [e2] at s2; exact False.elim s2
      | hang => rw [e2] at s2; exact False.elim s2
      | ok y1 =>
        rw [e1] at s1
        rw [e2] at s2
        obtain ⟨p1, p2⟩ := C66_answers s1
        obtain ⟨q1, q2⟩ := C66_answers s2
        exact ⟨p1.symm_trans q1, by rw [p2, q2]⟩

/-- What the used list is compared with is a new list: for a list with no process running it is the result of the constructor and of `setInfo`,
and nothing is open in it. -/
theorem C66_new_is_new (cell : Nat → Diff) {u : MLState} (hp : u.process = none) (ht : u.diffTemp = false) (hd : u.diffURL = [])
    (hw : u.isReadWrite = u.canSave) :
    asNew cell u = (MLState.init u.settings u.canSave ⟨cell, 0⟩).setInfo u.info ∧ Reachable (asNew cell u) ∧ (asNew cell u).models = none ∧
      (asNew cell u).selectedModel = none ∧ (asNew cell u).log = [] := by
  have e : asNew cell u = (MLState.init u.settings u.canSave ⟨cell, 0⟩).setInfo u.info := by
    unfold asNew MLState.setInfo
    rw [hp, ht, hd, hw]
    rfl
  exact ⟨e, ⟨u.settings, u.canSave, ⟨cell, 0⟩, [.setInfo u.info], by rw [e]; rfl⟩, rfl, rfl, rfl⟩

/-- C66 is about calls that succeed: after a failed call a used list is not like a new one.  The new list has no selection; the used list keeps
the selection of its former contents. -/
theorem C66_failed_counterexample (cell : Nat → Diff) : ∃ u x y, Reachable u ∧ (asNew cell u).parseAndOpenDiff emptyEnv [] = Res.ok (x, false) ∧
    u.parseAndOpenDiff emptyEnv [] = Res.ok (y, false) ∧ x.selectedModel = none ∧ y.selectedModel ≠ none := by
  obtain ⟨s1, h⟩ := example_opens
  obtain ⟨_, _, ms, k, j, m, d, ho, ha⟩ := (h.inUse exampleStart_reachable).facts
  have hr := h.reachable exampleStart_reachable
  obtain ⟨s2, h2⟩ := empty_fails hr ho.info
  obtain ⟨_, q1, q2, _⟩ := C40_failed_open hr h2
  have h1 := (C66_opens_like_new hr cell emptyEnv).2.1 []
  rw [h2] at h1
  cases ex : (asNew cell s1).parseAndOpenDiff emptyEnv [] with
  | ub => rw [ex] at h1; exact False.elim h1
  | hang => rw [ex] at h1; exact False.elim h1
  | ok x =>
    obtain ⟨x, bx⟩ := x
    rw [ex] at h1
    have b1 : false = bx := h1.1
    subst b1
    have wn : WF (asNew cell s1) := ⟨fun _ q => (by cases q), fun _ q => (by cases q), fun _ q => absurd q (Nat.not_lt_zero _), fun _ q => (by cases q), fun _ q => absurd q (Nat.not_lt_zero _)⟩
    exact ⟨s1, x, s2, hr, ex, h2, (failed_open wn ex).2.2.1, by rw [q2, ha.selectedModel]; simp⟩

/-- The hypotheses of C66 are met: a diff was opened and worked with; then another one is opened in the same list, with success; the list is
then like a new one in which only the second was opened, and stays so when the user applies everything and goes on to the next difference. -/
example (cell : Nat → Diff) : ∃ u x n, Reachable u ∧ u.models ≠ none ∧ u.selectedModel ≠ none ∧
    u.parseAndOpenDiff emptyEnv exampleDiff.render.flatten = Res.ok (x, true) ∧
    (asNew cell u).parseAndOpenDiff emptyEnv exampleDiff.render.flatten = Res.ok (n, true) ∧
    Alike u.heap.next u.nextModel (asNew cell u).clear.log u.clear.log n x ∧ AllKnown [.user .applyAll, .user .nextDifference] n := by
  obtain ⟨s1, h⟩ := example_opens
  obtain ⟨_, _, ms, k, j, m, d, ho, ha⟩ := (h.inUse exampleStart_reachable).facts
  have hr := h.reachable exampleStart_reachable
  obtain ⟨s2, h2⟩ := opens_unified hr ho.info emptyEnv exampleDiff exampleDiff_ok (by decide) rfl
  have h2 : s1.parseAndOpenDiff emptyEnv exampleDiff.render.flatten = Res.ok (s2, true) := h2
  have h1 := (C66_opens_like_new hr cell emptyEnv).2.1 exampleDiff.render.flatten
  rw [h2] at h1
  cases ex : (asNew cell s1).parseAndOpenDiff emptyEnv exampleDiff.render.flatten with
  | ub => rw [ex] at h1; exact False.elim h1
  | hang => rw [ex] at h1; exact False.elim h1
  | ok x =>
    obtain ⟨x, bx⟩ := x
    rw [ex] at h1
    have b1 : true = bx := h1.1
    subst b1
    exact ⟨s1, s2, x, hr, by rw [ho.models]; simp, by rw [ha.selectedModel]; simp, h2, ex, h1.2 rfl, trivial, fun _ _ => ⟨trivial, fun _ _ => trivial⟩⟩

end KompareDiff2
