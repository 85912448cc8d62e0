import Verif.Proofs.MovedOps
import Verif.Proofs.Session
/-
Moving objects: whole sessions, and a used list compared to a new one.
-/
namespace KompareDiff2
open Spec

variable {A : Actions → Actions → Prop} {c : Bool} {a b : Nat} {L L' : List Event} {s s' : MLState}

theorem Spec.MovedBy.user (w : MovedBy (SameActions c) c a b L L' s s') (op : UserOp) (hk : KnownUser s op) :
    Agree (MovedBy (SameActions c) c a b L L') (op.run s) ((moveUser a b op).run s') := by
  cases op with
  | nextDifference => exact w.slotNextDifference
  | previousDifference => exact w.slotPreviousDifference
  | nextFile => exact w.slotNextModel
  | previousFile => exact w.slotPreviousModel
  | select m d => exact w.slotSelectionChanged (m := some m) (d := some d) (fun i e => by cases e; exact hk.1) (fun i e => by cases e; exact hk.2)
  | selectDiff d => exact w.slotDiffSelectionChanged (d := some d) (fun i e => by cases e; exact hk)
  | apply => exact w.actionApply
  | unapply => exact w.actionUnapply
  | applyAll => exact w.actionApplyAll
  | unapplyAll => exact w.actionUnapplyAll
  | applySlot x => exact w.slotApplyDifference x
  | applyAllSlot x => exact w.slotApplyAllDifferences x
  | setReadWrite x => exact w.setReadWrite x
  | save v => exact w.slotSaveDestination v
  | saveModel v m => exact (w.saveDestination v hk).bind fun _ _ h => h.1
  | saveAll v => exact (w.saveAll (v := v) (v' := fun m => v (m - b)) fun m => by rw [Nat.add_sub_cancel]).bind fun _ _ h => h.1

theorem Spec.MovedBy.step (w : MovedBy (SameActions c) c a b L L' s s') (op : MLOp) (hk : Known s op) :
    Agree (MovedBy (SameActions c) c a b L L') (op.run s) ((moveOp a b op).run s') := by
  cases op with
  | user op => exact w.user op hk
  | select m d => exact w.slotSelectionChanged hk.1 hk.2
  | selectDiff d => exact w.slotDiffSelectionChanged hk
  | openDiff e f => exact (w.openDiff e f).bind fun _ _ h => h.1
  | parseAndOpenDiff e t => exact (w.parseAndOpenDiff e t).bind fun _ _ h => h.1
  | openFileAndDiff e => exact (w.openAndDiff e).bind fun _ _ h => h.1
  | compare e => exact (w.compare e).bind fun _ _ h => h.1
  | refresh e => exact w.refresh e
  | swap e => exact w.swap e
  | diffFinished e r => exact w.finished e r
  | setInfo i => exact w.setInfo i
  | saveDiff e t u d st => exact (w.saveDiff e t u d st).bind fun _ _ h => h.1
  | diffWritten x r => exact w.slotWriteDiffOutput x r

theorem Spec.MovedBy.session (ops : List MLOp) {s s' : MLState} (w : MovedBy (SameActions c) c a b L L' s s') (hk : AllKnown ops s) :
    Agree (MovedBy (SameActions c) c a b L L') (runSession ops s) (runSession (ops.map (moveOp a b)) s') := by
  induction ops generalizing s s' with
  | nil => exact w
  | cons op ops ih => exact (w.step op hk.1).with_ok.bind fun x y ⟨w, e⟩ => ih w (hk.2 x e)

/-! ### A used list and a new one -/

theorem movedStart_asNew {u : MLState} (h : WF u) (cell : Nat → Diff) :
    MovedStart (fun _ _ => True) u.canSave u.heap.next u.nextModel [] u.log (asNew cell u) u := by
  refine ⟨⟨(Nat.zero_add _).symm, fun i hi => absurd hi (Nat.not_lt_zero _)⟩, ?_⟩
  exact {
    heap := ⟨(Nat.zero_add _).symm, fun i hi => absurd hi (Nat.not_lt_zero _)⟩
    nextModel := (Nat.zero_add _).symm
    store := fun i hi => absurd hi (Nat.not_lt_zero _)
    uses := fun i hi => absurd hi (Nat.not_lt_zero _)
    dead := by
      intro j
      refine ⟨fun hj => ?_, fun hj => (by cases hj)⟩
      rcases List.mem_append.1 hj with q | q
      · exact absurd (h.dead _ q) (by omega)
      · exact absurd (h.models _ q) (by omega)
    deadDiffs := by
      intro j
      refine ⟨fun hj => ?_, fun hj => (by cases hj)⟩
      rcases List.mem_append.1 hj with q | q
      · exact absurd (h.deadDiffs _ q) (by omega)
      · obtain ⟨m, hm, hd⟩ := List.mem_flatMap.1 q
        exact absurd (h.diffs m (h.models m hm) _ hd) (by omega)
    models := rfl
    listed := fun _ q => (by cases q)
    selectedModel := rfl
    selectedModelOk := fun _ q => (by cases q)
    selectedDifference := rfl
    selectedDifferenceOk := fun _ q => (by cases q)
    modelIndex := rfl
    info := rfl
    settings := rfl
    process := rfl
    diffTemp := rfl
    diffURL := rfl
    canSave := rfl
    canSave' := rfl
    isReadWrite := rfl
    actions := trivial
    log := ⟨[], rfl, (List.append_nil _).symm⟩ }

theorem Spec.MovedBy.restartLog (w : MovedBy A c a b L L' s s') : MovedBy A c a b s.log s'.log s s' :=
  { w with log := ⟨[], (List.append_nil _).symm, (List.append_nil _).symm⟩ }

theorem wf_clear {u : MLState} (h : WF u) : WF u.clear :=
  ⟨h.dead, by unfold MLState.clear; cases u.models <;> simp [MLState.emit], h.diffs, h.deadDiffs, h.hunks⟩

/-- Both lists were cleared. -/
theorem movedStart_clear {u : MLState} (h : WF u) (cell : Nat → Diff) :
    MovedStart (fun _ _ => True) u.canSave u.heap.next u.nextModel (asNew cell u).clear.log u.clear.log (asNew cell u).clear u.clear := by
  have q := (movedStart_asNew (wf_clear h) cell)
  have e : (asNew cell u).clear.emptied = { (asNew cell u.clear).emptied with log := (asNew cell u).clear.log } := rfl
  refine ⟨q.heap, ?_⟩
  rw [e]
  exact { q.rest with log := ⟨[], (List.append_nil _).symm, (List.append_nil _).symm⟩ }

end KompareDiff2
