import Verif.Spec.Session
import Verif.Proofs.ModelList
import Verif.Proofs.Structure
/-
Invariant of all reachable states of a model list, and what opening a diff establishes.
-/
namespace KompareDiff2
open Spec

/-! ### Bookkeeping of objects -/

/-- No pointer ever points beyond the allocated objects. -/
structure WF (s : MLState) : Prop where
  dead : ∀ m ∈ s.dead, m < s.nextModel
  models : ∀ m ∈ s.models.getD [], m < s.nextModel
  diffs : ∀ m, m < s.nextModel → ∀ d ∈ (s.store m).differences, d < s.heap.next
  deadDiffs : ∀ d ∈ s.deadDiffs, d < s.heap.next
  hunks : ∀ m, m < s.nextModel → ∀ i ∈ (s.store m).hunkIds, i < s.heap.next

/-- No object is created or deleted except new differences. -/
structure Keep (s s' : MLState) : Prop where
  dead : s'.dead = s.dead
  deadDiffs : s'.deadDiffs = s.deadDiffs
  nextModel : s'.nextModel = s.nextModel
  heap : s.heap.next ≤ s'.heap.next
  differences : ∀ m, (s'.store m).differences = (s.store m).differences
  models : (s'.models.getD []).Sublist (s.models.getD [])
  alloc : ∀ m, (∀ i ∈ (s.store m).hunkIds, i < s.heap.next) → ∀ i ∈ (s'.store m).hunkIds, i < s'.heap.next

theorem Keep.refl (s : MLState) : Keep s s := ⟨rfl, rfl, rfl, Nat.le_refl _, fun _ => rfl, .refl _, fun _ h => h⟩

theorem Keep.trans {a b c : MLState} (h : Keep a b) (h' : Keep b c) : Keep a c :=
  ⟨h'.dead.trans h.dead, h'.deadDiffs.trans h.deadDiffs, h'.nextModel.trans h.nextModel, Nat.le_trans h.heap h'.heap,
    fun m => (h'.differences m).trans (h.differences m), h'.models.trans h.models, fun m q => h'.alloc m (h.alloc m q)⟩

theorem WF.keep {s s' : MLState} (w : WF s) (k : Keep s s') : WF s' := by
  refine ⟨?_, ?_, ?_, ?_, by rw [k.nextModel]; exact fun m hm => k.alloc m (w.hunks m hm)⟩
  · rw [k.dead, k.nextModel]; exact w.dead
  · rw [k.nextModel]; exact fun m hm => w.models m (k.models.subset hm)
  · rw [k.nextModel]; intro m hm d hd; rw [k.differences] at hd; exact Nat.lt_of_lt_of_le (w.diffs m hm d hd) k.heap
  · rw [k.deadDiffs]; exact fun d hd => Nat.lt_of_lt_of_le (w.deadDiffs d hd) k.heap

theorem Frame.keep {s s' : MLState} (f : Frame s s') : Keep s s' :=
  ⟨f.dead, f.deadDiffs, f.nextModel, Nat.le_of_eq f.heapNext.symm, f.differences, by rw [f.models]; exact .refl _, fun m q => by
    unfold DModel.hunkIds at *; rw [f.hunks, f.heapNext]; exact q⟩

theorem wf_init (settings : Option Settings) (rw : Bool) (h : Heap) : WF (MLState.init settings rw h) :=
  ⟨by simp [MLState.init], by simp [MLState.init], by simp [MLState.init], by simp [MLState.init], by simp [MLState.init]⟩

/-! ### Keep for the building blocks -/

theorem keep_setModel (s : MLState) (i : Nat) (x : DModel) (h : x.differences = (s.store i).differences)
    (hh : x.hunks = (s.store i).hunks) : Keep s (s.setModel i x) := by
  refine ⟨rfl, rfl, rfl, Nat.le_refl _, ?_, .refl _, ?_⟩
  · intro m
    show (if m = i then x else s.store m).differences = _
    split
    · rename_i e; rw [e]; exact h
    · rfl
  · intro m q
    show ∀ j ∈ (if m = i then x else s.store m).hunkIds, _
    split
    · rename_i e; rw [e] at q; unfold DModel.hunkIds at *; rw [hh]; exact q
    · exact q

theorem keep_call {op : MOp} {s : MLState} {m : Nat} {r : DModel × Heap} (h : op.run (s.store m, s.heap) = Res.ok r) : Keep s (s.call m r) :=
  (frame_call h).keep

theorem keep_emit (s : MLState) (e : Event) : Keep s (s.emit e) := ⟨rfl, rfl, rfl, Nat.le_refl _, fun _ => rfl, .refl _, fun _ h => h⟩

theorem keep_updateActions {s s' : MLState} (h : s.updateActions = Res.ok s') : Keep s s' := by
  unfold MLState.updateActions at h
  split at h
  · simp only [Res.bind_eq_ok] at h
    obtain ⟨a, _, b, _, c, _, d, _, h⟩ := h
    cases h; exact ⟨rfl, rfl, rfl, Nat.le_refl _, fun _ => rfl, .refl _, fun _ h => h⟩
  · cases h; exact ⟨rfl, rfl, rfl, Nat.le_refl _, fun _ => rfl, .refl _, fun _ h => h⟩

theorem keep_emitStatusBar {s s' : MLState} (h : s.emitStatusBar = Res.ok s') : Keep s s' := by
  unfold MLState.emitStatusBar at h
  simp only [Res.bind_eq_ok] at h
  obtain ⟨a, _, b, _, c, _, h⟩ := h
  cases h; exact keep_emit _ _

theorem keep_finish {s s' : MLState} {e : Event} (h : ((s.emit e).emitStatusBar >>= fun s => s.updateActions) = Res.ok s') : Keep s s' := by
  obtain ⟨t, h1, h2⟩ := Res.bind_eq_ok.1 h
  exact ((keep_emit s e).trans (keep_emitStatusBar h1)).trans (keep_updateActions h2)

theorem keep_announce {s s' : MLState} (h : s.announce = Res.ok s') : Keep s s' := keep_finish h

theorem keep_selectWith {s s' : MLState} {i : Nat} {f : DModel → Res (DModel × Option Nat)}
    (hf : ∀ x r, f x = Res.ok r → r.1.differences = x.differences) (hg : ∀ x r, f x = Res.ok r → r.1.hunks = x.hunks) (h : s.selectWith i f = Res.ok s') : Keep s s' := by
  unfold MLState.selectWith at h
  obtain ⟨r, h1, h2⟩ := Res.bind_eq_ok.1 h
  cases h2
  have := keep_setModel s i r.1 (hf _ _ h1) (hg _ _ h1)
  exact ⟨this.dead, this.deadDiffs, this.nextModel, this.heap, this.differences, this.models, this.alloc⟩

theorem first_diffs (x : DModel) (r) (h : x.firstDifference = Res.ok r) : r.1.differences = x.differences :=
  (diffs_op (op := .first) (s := (x, ⟨fun _ => Diff.new 0 0 .Unchanged, 0⟩)) (s' := (r.1, _)) (by simp only [MOp.run]; rw [h]; rfl)).1
theorem last_diffs (x : DModel) (r) (h : x.lastDifference = Res.ok r) : r.1.differences = x.differences :=
  (diffs_op (op := .last) (s := (x, ⟨fun _ => Diff.new 0 0 .Unchanged, 0⟩)) (s' := (r.1, _)) (by simp only [MOp.run]; rw [h]; rfl)).1
theorem next_diffs (x : DModel) (r) (h : x.nextDifference = Res.ok r) : r.1.differences = x.differences :=
  (diffs_op (op := .next) (s := (x, ⟨fun _ => Diff.new 0 0 .Unchanged, 0⟩)) (s' := (r.1, _)) (by simp only [MOp.run]; rw [h]; rfl)).1
theorem prev_diffs (x : DModel) (r) (h : x.prevDifference = Res.ok r) : r.1.differences = x.differences :=
  (diffs_op (op := .prev) (s := (x, ⟨fun _ => Diff.new 0 0 .Unchanged, 0⟩)) (s' := (r.1, _)) (by simp only [MOp.run]; rw [h]; rfl)).1
theorem select_diffs (x : DModel) (p : Option Nat) : (x.setSelectedDifference p).1.differences = x.differences :=
  (diffs_op (op := .select p) (s := (x, ⟨fun _ => Diff.new 0 0 .Unchanged, 0⟩)) (s' := ((x.setSelectedDifference p).1, _)) rfl).1

theorem first_hunks (x : DModel) (r) (h : x.firstDifference = Res.ok r) : r.1.hunks = x.hunks :=
  hunks_op (op := .first) (s := (x, ⟨fun _ => Diff.new 0 0 .Unchanged, 0⟩)) (s' := (r.1, _)) (by simp only [MOp.run]; rw [h]; rfl)
theorem last_hunks (x : DModel) (r) (h : x.lastDifference = Res.ok r) : r.1.hunks = x.hunks :=
  hunks_op (op := .last) (s := (x, ⟨fun _ => Diff.new 0 0 .Unchanged, 0⟩)) (s' := (r.1, _)) (by simp only [MOp.run]; rw [h]; rfl)
theorem next_hunks (x : DModel) (r) (h : x.nextDifference = Res.ok r) : r.1.hunks = x.hunks :=
  hunks_op (op := .next) (s := (x, ⟨fun _ => Diff.new 0 0 .Unchanged, 0⟩)) (s' := (r.1, _)) (by simp only [MOp.run]; rw [h]; rfl)
theorem prev_hunks (x : DModel) (r) (h : x.prevDifference = Res.ok r) : r.1.hunks = x.hunks :=
  hunks_op (op := .prev) (s := (x, ⟨fun _ => Diff.new 0 0 .Unchanged, 0⟩)) (s' := (r.1, _)) (by simp only [MOp.run]; rw [h]; rfl)
theorem select_hunks (x : DModel) (p : Option Nat) : (x.setSelectedDifference p).1.hunks = x.hunks :=
  hunks_op (op := .select p) (s := (x, ⟨fun _ => Diff.new 0 0 .Unchanged, 0⟩)) (s' := ((x.setSelectedDifference p).1, _)) rfl

theorem keep_selectFirst {s s' : MLState} (h : s.selectFirst = Res.ok s') : Keep s s' := by
  obtain ⟨m, _, h⟩ := Res.bind_eq_ok.1 h; exact keep_selectWith first_diffs first_hunks h

theorem keep_selectLast {s s' : MLState} (h : s.selectLast = Res.ok s') : Keep s s' := by
  obtain ⟨m, _, h⟩ := Res.bind_eq_ok.1 h; exact keep_selectWith last_diffs last_hunks h

theorem keep_same {s s' : MLState} (a b : Option Nat) (i : Int) (h : s' = { s with modelIndex := i, selectedModel := a, selectedDifference := b }) :
    Keep s s' := by
  subst h; exact ⟨rfl, rfl, rfl, Nat.le_refl _, fun _ => rfl, .refl _, fun _ h => h⟩

theorem keep_firstModel {s s' : MLState} (h : s.firstModel = Res.ok s') : Keep s s' := by
  unfold MLState.firstModel at h
  simp only [Res.bind_eq_ok] at h
  obtain ⟨l, _, m, _, h⟩ := h
  cases h; exact keep_same _ _ _ rfl

theorem keep_lastModel {s s' : MLState} (h : s.lastModel = Res.ok s') : Keep s s' := by
  unfold MLState.lastModel at h
  simp only [Res.bind_eq_ok] at h
  obtain ⟨l, _, m, _, h⟩ := h
  cases h; exact keep_same _ _ _ rfl

theorem keep_nextModel {s s' : MLState} (h : s.nextModel_ = Res.ok s') : Keep s s' := by
  unfold MLState.nextModel_ at h
  obtain ⟨l, _, h⟩ := Res.bind_eq_ok.1 h
  split at h
  · obtain ⟨m, _, h⟩ := Res.bind_eq_ok.1 h
    cases h; exact keep_same _ _ _ rfl
  · cases h; exact keep_same _ _ _ rfl

theorem keep_prevModel {s s' : MLState} (h : s.prevModel = Res.ok s') : Keep s s' := by
  unfold MLState.prevModel at h
  split at h
  · obtain ⟨l, _, h⟩ := Res.bind_eq_ok.1 h
    split at h
    · obtain ⟨m, _, h⟩ := Res.bind_eq_ok.1 h
      cases h; exact keep_same _ _ _ rfl
    · cases h; exact keep_same _ _ _ rfl
  · cases h; exact keep_same _ _ _ rfl

/-! ### Keep for the slots, in any state -/

theorem keep_slotNextDifference {s s' : MLState} (h : s.slotNextDifference = Res.ok s') : Keep s s' := by
  unfold MLState.slotNextDifference at h
  obtain ⟨m, _, h⟩ := Res.bind_eq_ok.1 h
  obtain ⟨t, h1, h⟩ := Res.bind_eq_ok.1 h
  refine (keep_selectWith next_diffs next_hunks h1).trans ?_
  split at h
  · exact keep_finish h
  · obtain ⟨u, h2, h⟩ := Res.bind_eq_ok.1 h
    refine (keep_nextModel h2).trans ?_
    split at h
    · obtain ⟨v, h3, h⟩ := Res.bind_eq_ok.1 h
      exact (keep_selectFirst h3).trans (keep_announce h)
    · obtain ⟨v, h3, h⟩ := Res.bind_eq_ok.1 h
      obtain ⟨w, h4, h⟩ := Res.bind_eq_ok.1 h
      exact ((keep_lastModel h3).trans (keep_selectLast h4)).trans (keep_announce h)

theorem keep_slotPreviousDifference {s s' : MLState} (h : s.slotPreviousDifference = Res.ok s') : Keep s s' := by
  unfold MLState.slotPreviousDifference at h
  obtain ⟨m, _, h⟩ := Res.bind_eq_ok.1 h
  obtain ⟨t, h1, h⟩ := Res.bind_eq_ok.1 h
  refine (keep_selectWith prev_diffs prev_hunks h1).trans ?_
  split at h
  · exact keep_finish h
  · obtain ⟨u, h2, h⟩ := Res.bind_eq_ok.1 h
    refine (keep_prevModel h2).trans ?_
    split at h
    · obtain ⟨v, h3, h⟩ := Res.bind_eq_ok.1 h
      exact (keep_selectLast h3).trans (keep_announce h)
    · obtain ⟨v, h3, h⟩ := Res.bind_eq_ok.1 h
      obtain ⟨w, h4, h⟩ := Res.bind_eq_ok.1 h
      exact ((keep_firstModel h3).trans (keep_selectFirst h4)).trans (keep_announce h)

theorem keep_slotNextModel {s s' : MLState} (h : s.slotNextModel = Res.ok s') : Keep s s' := by
  unfold MLState.slotNextModel at h
  obtain ⟨t, h1, h⟩ := Res.bind_eq_ok.1 h
  refine (keep_nextModel h1).trans ?_
  split at h
  · obtain ⟨v, h3, h⟩ := Res.bind_eq_ok.1 h
    exact (keep_selectFirst h3).trans (keep_announce h)
  · obtain ⟨v, h3, h⟩ := Res.bind_eq_ok.1 h
    obtain ⟨w, h4, h⟩ := Res.bind_eq_ok.1 h
    exact ((keep_lastModel h3).trans (keep_selectFirst h4)).trans (keep_announce h)

theorem keep_slotPreviousModel {s s' : MLState} (h : s.slotPreviousModel = Res.ok s') : Keep s s' := by
  unfold MLState.slotPreviousModel at h
  obtain ⟨t, h1, h⟩ := Res.bind_eq_ok.1 h
  refine (keep_prevModel h1).trans ?_
  split at h
  · obtain ⟨v, h3, h⟩ := Res.bind_eq_ok.1 h
    exact (keep_selectFirst h3).trans (keep_announce h)
  · obtain ⟨v, h3, h⟩ := Res.bind_eq_ok.1 h
    obtain ⟨w, h4, h⟩ := Res.bind_eq_ok.1 h
    exact ((keep_firstModel h3).trans (keep_selectFirst h4)).trans (keep_announce h)

theorem keep_setSelectedModel {s : MLState} {p : Option Nat} {s' : MLState} (h : s.setSelectedModel p = Res.ok (some s')) : Keep s s' := by
  unfold MLState.setSelectedModel at h
  split at h
  · obtain ⟨l, _, h⟩ := Res.bind_eq_ok.1 h
    split at h
    · cases h
    · obtain ⟨t, h1, h⟩ := Res.bind_eq_ok.1 h
      cases h
      exact (keep_same p s.selectedDifference (MLState.indexOfPtr l p) rfl).trans (keep_updateActions h1)
  · obtain ⟨t, h1, h⟩ := Res.bind_eq_ok.1 h
    cases h; exact keep_updateActions h1

theorem keep_slotSelectionChanged {s s' : MLState} {p q : Option Nat} (h : s.slotSelectionChanged p q = Res.ok s') : Keep s s' := by
  unfold MLState.slotSelectionChanged at h
  obtain ⟨l, _, h⟩ := Res.bind_eq_ok.1 h
  obtain ⟨m, _, h⟩ := Res.bind_eq_ok.1 h
  obtain ⟨r, hr, h⟩ := Res.bind_eq_ok.1 h
  refine ((keep_same p q (MLState.indexOfPtr l p) rfl).trans (keep_setModel _ m _ (select_diffs _ q) (select_hunks _ q))).trans ?_
  cases r with
  | none =>
    dsimp only at h
    obtain ⟨v, h3, h⟩ := Res.bind_eq_ok.1 h
    obtain ⟨w, h4, h⟩ := Res.bind_eq_ok.1 h
    exact ((keep_firstModel h3).trans (keep_selectFirst h4)).trans (keep_finish h)
  | some t =>
    refine (keep_setSelectedModel hr).trans ?_
    dsimp only at h
    obtain ⟨n, _, h⟩ := Res.bind_eq_ok.1 h
    refine (keep_setModel t n _ (select_diffs _ t.selectedDifference) (select_hunks _ t.selectedDifference)).trans ?_
    split at h
    · obtain ⟨w, h4, h⟩ := Res.bind_eq_ok.1 h
      exact (keep_selectFirst h4).trans (keep_finish h)
    · exact keep_finish h

theorem keep_slotDiffSelectionChanged {s s' : MLState} {q : Option Nat} (h : s.slotDiffSelectionChanged q = Res.ok s') : Keep s s' := by
  unfold MLState.slotDiffSelectionChanged at h
  obtain ⟨m, _, h⟩ := Res.bind_eq_ok.1 h
  refine ((keep_same s.selectedModel q s.modelIndex rfl).trans (keep_setModel _ m _ (select_diffs _ q) (select_hunks _ q))).trans ?_
  dsimp only at h
  split at h
  · obtain ⟨w, h4, h⟩ := Res.bind_eq_ok.1 h
    exact (keep_selectFirst h4).trans (keep_finish h)
  · exact keep_finish h

theorem keep_slotApplyDifference {s s' : MLState} {b : Bool} (h : s.slotApplyDifference b = Res.ok s') : Keep s s' := by
  unfold MLState.slotApplyDifference at h
  obtain ⟨m, _, h⟩ := Res.bind_eq_ok.1 h
  obtain ⟨d, _, h⟩ := Res.bind_eq_ok.1 h
  obtain ⟨r, hr, h⟩ := Res.bind_eq_ok.1 h
  cases h
  exact (keep_call (op := .apply b) hr).trans (keep_emit _ _)

theorem keep_slotApplyAll {s s' : MLState} {b : Bool} (h : s.slotApplyAllDifferences b = Res.ok s') : Keep s s' := by
  unfold MLState.slotApplyAllDifferences at h
  obtain ⟨m, _, h⟩ := Res.bind_eq_ok.1 h
  cases h
  exact (keep_call (op := .applyAll b) (s := s) (m := m) rfl).trans (keep_emit _ _)

theorem keep_actionApply {s s' : MLState} (h : s.actionApply = Res.ok s') : Keep s s' := by
  unfold MLState.actionApply at h
  obtain ⟨d, _, h⟩ := Res.bind_eq_ok.1 h
  split at h
  · obtain ⟨t, h1, h⟩ := Res.bind_eq_ok.1 h
    obtain ⟨u, h2, h⟩ := Res.bind_eq_ok.1 h
    exact ((keep_slotApplyDifference h1).trans (keep_slotNextDifference h2)).trans (keep_updateActions h)
  · rw [Res.bind_ok] at h
    obtain ⟨u, h2, h⟩ := Res.bind_eq_ok.1 h
    exact (keep_slotNextDifference h2).trans (keep_updateActions h)

theorem keep_actionUnapply {s s' : MLState} (h : s.actionUnapply = Res.ok s') : Keep s s' := by
  unfold MLState.actionUnapply at h
  obtain ⟨d, _, h⟩ := Res.bind_eq_ok.1 h
  split at h
  · obtain ⟨t, h1, h⟩ := Res.bind_eq_ok.1 h
    obtain ⟨u, h2, h⟩ := Res.bind_eq_ok.1 h
    exact ((keep_slotApplyDifference h1).trans (keep_slotPreviousDifference h2)).trans (keep_updateActions h)
  · rw [Res.bind_ok] at h
    obtain ⟨u, h2, h⟩ := Res.bind_eq_ok.1 h
    exact (keep_slotPreviousDifference h2).trans (keep_updateActions h)

theorem keep_saveDestination {s : MLState} {v : MLState.SaveEnv} {m : Nat} {r : MLState × Bool} (h : s.saveDestination v m = Res.ok r) : Keep s r.1 := by
  unfold MLState.saveDestination at h
  obtain ⟨x, _, h⟩ := Res.bind_eq_ok.1 h
  split at h
  · cases h; exact .refl _
  · split at h
    · cases h; exact keep_emit _ _
    · split at h
      · cases h; exact keep_emit _ _
      · split at h
        · cases h; exact keep_emit _ _
        · split at h
          · cases h
          · split at h
            · cases h; exact keep_emit _ _
            · dsimp only at h
              split at h
              · cases h
                have hx : ∀ (f : Diff → Diff) (l : List Nat), (s.heap.modifyAll f l).next = s.heap.next := fun f l => Heap.modifyAll_next f l _
                refine ⟨rfl, rfl, rfl, Nat.le_of_eq (hx _ _).symm, fun _ => rfl, .refl _, fun n q i hi => ?_⟩
                show i < (s.heap.modifyAll _ _).next
                rw [hx]; exact q i hi
              · cases h; exact keep_emit _ _

theorem keep_saveLoop {v : Nat → MLState.SaveEnv} {l : List Nat} {s : MLState} {r : MLState × Bool} (h : MLState.saveLoop v l s = Res.ok r) : Keep s r.1 := by
  induction l generalizing s with
  | nil => simp only [MLState.saveLoop, Res.ok.injEq] at h; rw [← h]; exact .refl _
  | cons m l ih =>
    simp only [MLState.saveLoop] at h
    obtain ⟨t, h1, h⟩ := Res.bind_eq_ok.1 h
    refine (keep_saveDestination h1).trans ?_
    obtain ⟨t1, t2⟩ := t
    dsimp only at h
    split at h
    · cases h; exact .refl _
    · exact ih h

theorem keep_saveAll {v : Nat → MLState.SaveEnv} {s : MLState} {r : MLState × Bool} (h : s.saveAll v = Res.ok r) : Keep s r.1 := by
  unfold MLState.saveAll at h
  split at h
  · cases h; exact .refl _
  · cases h; exact .refl _
  · exact keep_saveLoop h

theorem keep_user {op : UserOp} {s s' : MLState} (h : op.run s = Res.ok s') : Keep s s' := by
  cases op with
  | nextDifference => exact keep_slotNextDifference h
  | previousDifference => exact keep_slotPreviousDifference h
  | nextFile => exact keep_slotNextModel h
  | previousFile => exact keep_slotPreviousModel h
  | select x y => exact keep_slotSelectionChanged h
  | selectDiff y => exact keep_slotDiffSelectionChanged h
  | apply => exact keep_actionApply h
  | unapply => exact keep_actionUnapply h
  | applyAll => obtain ⟨t, h1, h⟩ := Res.bind_eq_ok.1 h; exact (keep_slotApplyAll h1).trans (keep_updateActions h)
  | unapplyAll => obtain ⟨t, h1, h⟩ := Res.bind_eq_ok.1 h; exact (keep_slotApplyAll h1).trans (keep_updateActions h)
  | applySlot b => exact keep_slotApplyDifference h
  | applyAllSlot b => exact keep_slotApplyAll h
  | setReadWrite b =>
    simp only [UserOp.run, MLState.setReadWrite] at h
    split at h
    · cases h; exact .refl _
    · have := keep_updateActions h
      exact ⟨this.dead, this.deadDiffs, this.nextModel, this.heap, this.differences, this.models, this.alloc⟩
  | save v =>
    simp only [UserOp.run, MLState.slotSaveDestination] at h
    split at h
    · cases h; exact .refl _
    · obtain ⟨t, h1, h⟩ := Res.bind_eq_ok.1 h
      have k := keep_saveDestination h1
      cases h
      split <;> exact ⟨k.dead, k.deadDiffs, k.nextModel, k.heap, k.differences, k.models, k.alloc⟩
  | saveModel v x => obtain ⟨t, h1, h⟩ := Res.bind_eq_ok.1 h; cases h; exact keep_saveDestination h1
  | saveAll v => obtain ⟨t, h1, h⟩ := Res.bind_eq_ok.1 h; cases h; exact keep_saveAll h1
