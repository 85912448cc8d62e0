import Verif.Spec.OnDisk
import Verif.Proofs.Events
import Verif.Props.EndToEnd
import Verif.Props.Compare
/-
The file on the disk while its differences are being looked at.
-/
namespace KompareDiff2
open Spec

/-- Nothing is uploaded, and marks and unsaved flags change together. -/
def Still (s s' : MLState) : Prop :=
  (∃ new, s'.log = s.log ++ new ∧ ∀ u t, Event.upload u t ∉ new) ∧ ∀ j, Diff.Toggled (s.heap.cell j) (s'.heap.cell j)

theorem Still.refl (s : MLState) : Still s s := ⟨⟨[], by simp, by simp⟩, fun _ => .refl _⟩

theorem Still.trans {a b c : MLState} (h : Still a b) (h' : Still b c) : Still a c := by
  obtain ⟨⟨n1, e1, f1⟩, t1⟩ := h
  obtain ⟨⟨n2, e2, f2⟩, t2⟩ := h'
  refine ⟨⟨n1 ++ n2, by rw [e2, e1, List.append_assoc], fun u t h => ?_⟩, fun j => (t1 j).trans (t2 j)⟩
  rcases List.mem_append.1 h with h | h
  · exact f1 u t h
  · exact f2 u t h

theorem still_of {s s' : MLState} (h1 : s'.log = s.log) (h2 : s'.heap = s.heap) : Still s s' :=
  ⟨⟨[], by simp [h1], by simp⟩, fun j => by rw [h2]; exact .refl _⟩

theorem still_emit (s : MLState) (e : Event) (he : ∀ u t, e ≠ .upload u t) : Still s (s.emit e) :=
  ⟨⟨[e], rfl, fun u t h => he u t (List.mem_singleton.1 h).symm⟩, fun _ => .refl _⟩

theorem still_updateActions {s s' : MLState} (h : s.updateActions = Res.ok s') : Still s s' := by
  unfold MLState.updateActions at h
  split at h
  · obtain ⟨a, _, h⟩ := Res.bind_eq_ok.mp h
    obtain ⟨_, _, h⟩ := Res.bind_eq_ok.mp h
    obtain ⟨_, _, h⟩ := Res.bind_eq_ok.mp h
    obtain ⟨_, _, h⟩ := Res.bind_eq_ok.mp h
    rw [← Res.ok.inj h]
    exact still_of rfl rfl
  · rw [← Res.ok.inj h]
    exact still_of rfl rfl

theorem still_statusBar {s s' : MLState} (h : s.emitStatusBar = Res.ok s') : Still s s' := by
  unfold MLState.emitStatusBar at h
  obtain ⟨_, _, h⟩ := Res.bind_eq_ok.mp h
  obtain ⟨_, _, h⟩ := Res.bind_eq_ok.mp h
  obtain ⟨_, _, h⟩ := Res.bind_eq_ok.mp h
  rw [← Res.ok.inj h]
  exact still_emit s _ (by simp)

theorem still_selectWith {s s' : MLState} {i : Nat} {f : DModel → Res (DModel × Option Nat)} (h : s.selectWith i f = Res.ok s') : Still s s' := by
  unfold MLState.selectWith at h
  obtain ⟨_, _, h⟩ := Res.bind_eq_ok.mp h
  rw [← Res.ok.inj h]
  exact still_of rfl rfl

theorem still_selectFirst {s s' : MLState} (h : s.selectFirst = Res.ok s') : Still s s' := by
  unfold MLState.selectFirst at h
  obtain ⟨_, _, h⟩ := Res.bind_eq_ok.mp h
  exact still_selectWith h

theorem still_selectLast {s s' : MLState} (h : s.selectLast = Res.ok s') : Still s s' := by
  unfold MLState.selectLast at h
  obtain ⟨_, _, h⟩ := Res.bind_eq_ok.mp h
  exact still_selectWith h

theorem still_firstModel {s s' : MLState} (h : s.firstModel = Res.ok s') : Still s s' := by
  unfold MLState.firstModel at h
  obtain ⟨_, _, h⟩ := Res.bind_eq_ok.mp h
  obtain ⟨_, _, h⟩ := Res.bind_eq_ok.mp h
  rw [← Res.ok.inj h]
  exact still_of rfl rfl

theorem still_lastModel {s s' : MLState} (h : s.lastModel = Res.ok s') : Still s s' := by
  unfold MLState.lastModel at h
  obtain ⟨_, _, h⟩ := Res.bind_eq_ok.mp h
  obtain ⟨_, _, h⟩ := Res.bind_eq_ok.mp h
  rw [← Res.ok.inj h]
  exact still_of rfl rfl

theorem still_prevModel {s s' : MLState} (h : s.prevModel = Res.ok s') : Still s s' := by
  unfold MLState.prevModel at h
  split at h
  · obtain ⟨_, _, h⟩ := Res.bind_eq_ok.mp h
    split at h
    · obtain ⟨_, _, h⟩ := Res.bind_eq_ok.mp h
      rw [← Res.ok.inj h]
      exact still_of rfl rfl
    · rw [← Res.ok.inj h]
      exact still_of rfl rfl
  · rw [← Res.ok.inj h]
    exact still_of rfl rfl

theorem still_nextModel {s s' : MLState} (h : s.nextModel_ = Res.ok s') : Still s s' := by
  unfold MLState.nextModel_ at h
  obtain ⟨_, _, h⟩ := Res.bind_eq_ok.mp h
  split at h
  · obtain ⟨_, _, h⟩ := Res.bind_eq_ok.mp h
    rw [← Res.ok.inj h]
    exact still_of rfl rfl
  · rw [← Res.ok.inj h]
    exact still_of rfl rfl

theorem still_announce {s s' : MLState} (h : s.announce = Res.ok s') : Still s s' := by
  unfold MLState.announce at h
  obtain ⟨t, h1, h⟩ := Res.bind_eq_ok.mp h
  exact ((still_emit s _ (by simp)).trans (still_statusBar h1)).trans (still_updateActions h)

theorem still_slotPreviousModel {s s' : MLState} (h : s.slotPreviousModel = Res.ok s') : Still s s' := by
  unfold MLState.slotPreviousModel at h
  obtain ⟨t, h1, h⟩ := Res.bind_eq_ok.mp h
  refine (still_prevModel h1).trans ?_
  split at h
  · obtain ⟨u, h2, h⟩ := Res.bind_eq_ok.mp h
    exact (still_selectFirst h2).trans (still_announce h)
  · obtain ⟨u, h2, h⟩ := Res.bind_eq_ok.mp h
    obtain ⟨v, h3, h⟩ := Res.bind_eq_ok.mp h
    exact ((still_firstModel h2).trans (still_selectFirst h3)).trans (still_announce h)

theorem still_slotNextModel {s s' : MLState} (h : s.slotNextModel = Res.ok s') : Still s s' := by
  unfold MLState.slotNextModel at h
  obtain ⟨t, h1, h⟩ := Res.bind_eq_ok.mp h
  refine (still_nextModel h1).trans ?_
  split at h
  · obtain ⟨u, h2, h⟩ := Res.bind_eq_ok.mp h
    exact (still_selectFirst h2).trans (still_announce h)
  · obtain ⟨u, h2, h⟩ := Res.bind_eq_ok.mp h
    obtain ⟨v, h3, h⟩ := Res.bind_eq_ok.mp h
    exact ((still_lastModel h2).trans (still_selectFirst h3)).trans (still_announce h)

theorem still_slotPreviousDifference {s s' : MLState} (h : s.slotPreviousDifference = Res.ok s') : Still s s' := by
  unfold MLState.slotPreviousDifference at h
  obtain ⟨m, _, h⟩ := Res.bind_eq_ok.mp h
  obtain ⟨t, h1, h⟩ := Res.bind_eq_ok.mp h
  refine (still_selectWith h1).trans ?_
  split at h
  · obtain ⟨u, h2, h⟩ := Res.bind_eq_ok.mp h
    exact ((still_emit t _ (by simp)).trans (still_statusBar h2)).trans (still_updateActions h)
  · obtain ⟨u, h2, h⟩ := Res.bind_eq_ok.mp h
    refine (still_prevModel h2).trans ?_
    split at h
    · obtain ⟨v, h3, h⟩ := Res.bind_eq_ok.mp h
      exact (still_selectLast h3).trans (still_announce h)
    · obtain ⟨v, h3, h⟩ := Res.bind_eq_ok.mp h
      obtain ⟨w, h4, h⟩ := Res.bind_eq_ok.mp h
      exact ((still_firstModel h3).trans (still_selectFirst h4)).trans (still_announce h)

theorem still_slotNextDifference {s s' : MLState} (h : s.slotNextDifference = Res.ok s') : Still s s' := by
  unfold MLState.slotNextDifference at h
  obtain ⟨m, _, h⟩ := Res.bind_eq_ok.mp h
  obtain ⟨t, h1, h⟩ := Res.bind_eq_ok.mp h
  refine (still_selectWith h1).trans ?_
  split at h
  · obtain ⟨u, h2, h⟩ := Res.bind_eq_ok.mp h
    exact ((still_emit t _ (by simp)).trans (still_statusBar h2)).trans (still_updateActions h)
  · obtain ⟨u, h2, h⟩ := Res.bind_eq_ok.mp h
    refine (still_nextModel h2).trans ?_
    split at h
    · obtain ⟨v, h3, h⟩ := Res.bind_eq_ok.mp h
      exact (still_selectFirst h3).trans (still_announce h)
    · obtain ⟨v, h3, h⟩ := Res.bind_eq_ok.mp h
      obtain ⟨w, h4, h⟩ := Res.bind_eq_ok.mp h
      exact ((still_lastModel h3).trans (still_selectLast h4)).trans (still_announce h)

theorem still_setSelectedModel {s : MLState} {p : Option Nat} {o : Option MLState} (h : s.setSelectedModel p = Res.ok o) : ∀ t, o = some t → Still s t := by
  unfold MLState.setSelectedModel at h
  intro t ht
  split at h
  · obtain ⟨l, _, h⟩ := Res.bind_eq_ok.mp h
    split at h
    · rw [← Res.ok.inj h] at ht; cases ht
    · obtain ⟨u, h1, h⟩ := Res.bind_eq_ok.mp h
      rw [← Res.ok.inj h] at ht
      cases ht
      exact (still_of (s' := { s with modelIndex := MLState.indexOfPtr l p, selectedModel := p }) rfl rfl).trans (still_updateActions h1)
  · obtain ⟨u, h1, h⟩ := Res.bind_eq_ok.mp h
    rw [← Res.ok.inj h] at ht
    cases ht
    exact still_updateActions h1

theorem still_slotSelectionChanged {s s' : MLState} {m d : Option Nat} (h : s.slotSelectionChanged m d = Res.ok s') : Still s s' := by
  unfold MLState.slotSelectionChanged at h
  obtain ⟨l, _, h⟩ := Res.bind_eq_ok.mp h
  dsimp only at h
  obtain ⟨i, _, h⟩ := Res.bind_eq_ok.mp h
  obtain ⟨o, h1, h⟩ := Res.bind_eq_ok.mp h
  have c0 := still_setSelectedModel h1
  have fin : ∀ {a : MLState}, (∃ b, (a.emit (.selection m d)).emitStatusBar = Res.ok b ∧ b.updateActions = Res.ok s') → Still a s' := by
    intro a ⟨b, h1, h2⟩
    exact ((still_emit a _ (by simp)).trans (still_statusBar h1)).trans (still_updateActions h2)
  cases o with
  | none =>
    obtain ⟨t, h2, h⟩ := Res.bind_eq_ok.mp h
    obtain ⟨u, h3, h⟩ := Res.bind_eq_ok.mp h
    refine Still.trans (still_of rfl rfl) (((still_firstModel h2).trans (still_selectFirst h3)).trans (fin (Res.bind_eq_ok.mp h)))
  | some t =>
    refine Still.trans (b := t) (Still.trans (still_of rfl rfl) (c0 t rfl)) ?_
    dsimp only at h
    obtain ⟨k, _, h⟩ := Res.bind_eq_ok.mp h
    split at h
    · obtain ⟨u, h2, h⟩ := Res.bind_eq_ok.mp h
      exact Still.trans (still_of rfl rfl) ((still_selectFirst h2).trans (fin (Res.bind_eq_ok.mp h)))
    · obtain ⟨u, h2, h⟩ := Res.bind_eq_ok.mp h
      rw [← Res.ok.inj h2] at h
      have f := fin (Res.bind_eq_ok.mp h)
      exact Still.trans (still_of rfl rfl) f

theorem still_slotDiffSelectionChanged {s s' : MLState} {d : Option Nat} (h : s.slotDiffSelectionChanged d = Res.ok s') : Still s s' := by
  unfold MLState.slotDiffSelectionChanged at h
  dsimp only at h
  obtain ⟨i, _, h⟩ := Res.bind_eq_ok.mp h
  have fin : ∀ {a : MLState}, (∃ b, (a.emit (.diffSelection d)).emitStatusBar = Res.ok b ∧ b.updateActions = Res.ok s') → Still a s' := by
    intro a ⟨b, h1, h2⟩
    exact ((still_emit a _ (by simp)).trans (still_statusBar h1)).trans (still_updateActions h2)
  split at h
  · obtain ⟨u, h2, h⟩ := Res.bind_eq_ok.mp h
    exact Still.trans (still_of rfl rfl) ((still_selectFirst h2).trans (fin (Res.bind_eq_ok.mp h)))
  · obtain ⟨u, h2, h⟩ := Res.bind_eq_ok.mp h
    rw [← Res.ok.inj h2] at h
    have f := fin (Res.bind_eq_ok.mp h)
    exact Still.trans (still_of rfl rfl) f

theorem still_slotApply {s s' : MLState} {b : Bool} (h : s.slotApplyDifference b = Res.ok s') : Still s s' := by
  unfold MLState.slotApplyDifference at h
  obtain ⟨m, _, h⟩ := Res.bind_eq_ok.mp h
  obtain ⟨_, _, h⟩ := Res.bind_eq_ok.mp h
  obtain ⟨r, h1, h⟩ := Res.bind_eq_ok.mp h
  rw [← Res.ok.inj h]
  refine Still.trans (b := { (s.setModel m r.1) with heap := r.2 }) ⟨⟨[], by simp [MLState.setModel], by simp⟩, fun j => ?_⟩ (still_emit _ _ (by simp))
  exact toggled_op (op := .apply b) (by simp) (s := (s.store m, s.heap)) (s' := r) h1 j

theorem still_slotApplyAll {s s' : MLState} {b : Bool} (h : s.slotApplyAllDifferences b = Res.ok s') : Still s s' := by
  unfold MLState.slotApplyAllDifferences at h
  obtain ⟨m, _, h⟩ := Res.bind_eq_ok.mp h
  rw [← Res.ok.inj h]
  refine Still.trans (b := { (s.setModel m ((s.store m).applyAllDifferences s.heap b).1) with heap := ((s.store m).applyAllDifferences s.heap b).2 })
    ⟨⟨[], by simp [MLState.setModel], by simp⟩, fun j => ?_⟩ (still_emit _ _ (by simp))
  exact toggled_op (op := .applyAll b) (by simp) (s := (s.store m, s.heap)) rfl j

theorem still_actionApply {s s' : MLState} (h : s.actionApply = Res.ok s') : Still s s' := by
  unfold MLState.actionApply at h
  obtain ⟨d, _, h⟩ := Res.bind_eq_ok.mp h
  split at h
  · obtain ⟨t, h1, h⟩ := Res.bind_eq_ok.mp h
    obtain ⟨u, h2, h⟩ := Res.bind_eq_ok.mp h
    exact ((still_slotApply h1).trans (still_slotNextDifference h2)).trans (still_updateActions h)
  · obtain ⟨t, h1, h⟩ := Res.bind_eq_ok.mp h
    rw [← Res.ok.inj h1] at h
    obtain ⟨u, h2, h⟩ := Res.bind_eq_ok.mp h
    exact (still_slotNextDifference h2).trans (still_updateActions h)

theorem still_actionUnapply {s s' : MLState} (h : s.actionUnapply = Res.ok s') : Still s s' := by
  unfold MLState.actionUnapply at h
  obtain ⟨d, _, h⟩ := Res.bind_eq_ok.mp h
  split at h
  · obtain ⟨t, h1, h⟩ := Res.bind_eq_ok.mp h
    obtain ⟨u, h2, h⟩ := Res.bind_eq_ok.mp h
    exact ((still_slotApply h1).trans (still_slotPreviousDifference h2)).trans (still_updateActions h)
  · obtain ⟨t, h1, h⟩ := Res.bind_eq_ok.mp h
    rw [← Res.ok.inj h1] at h
    obtain ⟨u, h2, h⟩ := Res.bind_eq_ok.mp h
    exact (still_slotPreviousDifference h2).trans (still_updateActions h)

/-- Operations that do not save. -/
def UserOp.still : UserOp → Bool
  | .save _ | .saveModel _ _ | .saveAll _ => false
  | _ => true

theorem still_user {op : UserOp} (hop : op.still = true) {s s' : MLState} (h : op.run s = Res.ok s') : Still s s' := by
  cases op with
  | nextDifference => exact still_slotNextDifference h
  | previousDifference => exact still_slotPreviousDifference h
  | nextFile => exact still_slotNextModel h
  | previousFile => exact still_slotPreviousModel h
  | select m d => exact still_slotSelectionChanged h
  | selectDiff d => exact still_slotDiffSelectionChanged h
  | apply => exact still_actionApply h
  | unapply => exact still_actionUnapply h
  | applyAll =>
    obtain ⟨t, h1, h⟩ := Res.bind_eq_ok.mp h
    exact (still_slotApplyAll h1).trans (still_updateActions h)
  | unapplyAll =>
    obtain ⟨t, h1, h⟩ := Res.bind_eq_ok.mp h
    exact (still_slotApplyAll h1).trans (still_updateActions h)
  | applySlot b => exact still_slotApply h
  | applyAllSlot b => exact still_slotApplyAll h
  | setReadWrite b =>
    have h : s.setReadWrite b = Res.ok s' := h
    unfold MLState.setReadWrite at h
    split at h
    · rw [← Res.ok.inj h]; exact .refl s
    · exact Still.trans (b := { s with isReadWrite := b }) (still_of rfl rfl) (still_updateActions h)
  | save v => cases hop
  | saveModel v m => cases hop
  | saveAll v => cases hop

/-! ### The text with the marks of the last save -/

/-- The text of a model with the marks of the last save. -/
def lastText (s : MLState) (m : Nat) : Str := (s.store m).savedText (lastMarks s.heap)

theorem fileAfter_append (url c : Str) (a b : List Event) : fileAfter url c (a ++ b) = fileAfter url (fileAfter url c a) b := by
  induction a generalizing c with
  | nil => rfl
  | cons e a ih =>
    cases e <;> exact ih _

theorem fileAfter_calm (url c : Str) {a : List Event} (h : ∀ u t, Event.upload u t ∉ a) : fileAfter url c a = c := by
  induction a generalizing c with
  | nil => rfl
  | cons e a ih =>
    have ha : ∀ u t, Event.upload u t ∉ a := fun u t q => h u t (List.mem_cons_of_mem _ q)
    cases e with
    | upload u t => exact absurd (List.mem_cons_self ..) (h u t)
    | _ => exact ih c ha

theorem savedText_congr {x x' : DModel} {h h' : Heap} (hk : x'.hunks = x.hunks)
    (hc : ∀ i ∈ x.hunkIds, (h'.cell i).savedLines = (h.cell i).savedLines) : x'.savedText h' = x.savedText h := by
  unfold DModel.savedText
  rw [hk]
  congr 1
  simp only [List.flatMap]
  congr 1
  exact List.map_congr_left hc

theorem lastLines_toggled {h h' : Heap} {i : Nat} (t : Diff.Toggled (h.cell i) (h'.cell i)) :
    ((lastMarks h').cell i).savedLines = ((lastMarks h).cell i).savedLines := by
  obtain ⟨q, e⟩ := t
  have e1 : ((h'.cell i).applied ^^ (h'.cell i).unsaved) = ((h.cell i).applied ^^ (h.cell i).unsaved) := by
    revert e
    cases (h'.cell i).applied <;> cases (h'.cell i).unsaved <;> cases (h.cell i).applied <;> cases (h.cell i).unsaved <;> simp
  have key : ∀ (d : Diff) (b : Bool), ({ d with applied := b } : Diff).savedLines = if b = false then d.dstText else d.srcText := fun _ _ => rfl
  show ({ h'.cell i with applied := _ } : Diff).savedLines = ({ h.cell i with applied := _ } : Diff).savedLines
  rw [key, key, e1]
  simp only [Diff.srcText, Diff.dstText]
  rw [q.source, q.dest]

/-- Between the two states the file `url` is what the marks of the last save say. -/
def Kept (s s' : MLState) (m : Nat) (url : Str) : Prop :=
  ∃ new, s'.log = s.log ++ new ∧ fileAfter url (lastText s m) new = lastText s' m

theorem Kept.refl (s : MLState) (m : Nat) (url : Str) : Kept s s m url := ⟨[], by simp, rfl⟩

theorem Kept.trans {a b c : MLState} {m : Nat} {url : Str} (h : Kept a b m url) (h' : Kept b c m url) : Kept a c m url := by
  obtain ⟨n1, e1, f1⟩ := h
  obtain ⟨n2, e2, f2⟩ := h'
  exact ⟨n1 ++ n2, by rw [e2, e1, List.append_assoc], by rw [fileAfter_append, f1, f2]⟩

theorem Still.kept {s s' : MLState} (c : Still s s') {m : Nat} (hk : (s'.store m).hunks = (s.store m).hunks) (url : Str) : Kept s s' m url := by
  obtain ⟨⟨new, e, f⟩, t⟩ := c
  refine ⟨new, e, ?_⟩
  rw [fileAfter_calm url _ f]
  exact (savedText_congr hk (fun i _ => lastLines_toggled (t i))).symm

/-- The changed differences of a model are in its list, the others are the same on both sides. -/
structure Covers (h : Heap) (m : DModel) : Prop where
  same : ∀ i ∈ m.hunkIds, (h.cell i).type = .Unchanged → (h.cell i).srcText = (h.cell i).dstText
  cover : ∀ i ∈ m.hunkIds, (h.cell i).type ≠ .Unchanged → i ∈ m.differences

theorem Covers.frame {h h' : Heap} {x x' : DModel} (c : Covers h x) (h1 : x'.hunks = x.hunks) (h2 : x'.differences = x.differences)
    (h3 : ∀ j, Diff.Same (h.cell j) (h'.cell j)) : Covers h' x' := by
  have hid : x'.hunkIds = x.hunkIds := by unfold DModel.hunkIds; rw [h1]
  refine ⟨?_, ?_⟩ <;> rw [hid]
  · intro i hi ht
    have := c.same i hi ((h3 i).type.symm.trans ht)
    simp only [Diff.srcText, Diff.dstText] at this ⊢
    rw [(h3 i).source, (h3 i).dest]; exact this
  · intro i hi ht
    rw [h2]
    exact c.cover i hi (fun q => ht ((h3 i).type.trans q))

theorem savedLines_same {d : Diff} (h : d.srcText = d.dstText) : d.savedLines = d.srcText := by
  unfold Diff.savedLines
  rw [h]; simp

/-- Two heaps that agree on the list of differences of a model agree on its text. -/
theorem Covers.text {h h' : Heap} {x : DModel} (c : Covers h x) (hs : ∀ j, Diff.Same (h.cell j) (h'.cell j))
    (hd : ∀ d ∈ x.differences, (h'.cell d).savedLines = (h.cell d).savedLines) : x.savedText h' = x.savedText h := by
  refine savedText_congr rfl (fun i hi => ?_)
  by_cases ht : (h.cell i).type = .Unchanged
  · have e := c.same i hi ht
    have e' : (h'.cell i).srcText = (h'.cell i).dstText := by
      simp only [Diff.srcText, Diff.dstText] at e ⊢
      rw [(hs i).source, (hs i).dest]; exact e
    rw [savedLines_same e, savedLines_same e']
    simp only [Diff.srcText]
    rw [(hs i).source]
  · exact hd i (c.cover i hi ht)

theorem lastMarks_same (h : Heap) (j : Nat) : Diff.Same (h.cell j) ((lastMarks h).cell j) := ⟨rfl, rfl, rfl, rfl, rfl, rfl⟩

theorem Diff.Same.symm {d e : Diff} (h : Diff.Same d e) : Diff.Same e d :=
  ⟨h.type.symm, h.sourceLineNo.symm, h.destLineNo.symm, h.source.symm, h.dest.symm, h.conflicts.symm⟩

/-- If nothing is unsaved, the marks of the last save are the marks now. -/
theorem lastText_saved {s : MLState} {m : Nat} (c : Covers s.heap (s.store m)) (hu : ∀ d ∈ (s.store m).differences, (s.heap.cell d).unsaved = false) :
    lastText s m = (s.store m).savedText s.heap := by
  refine c.text (lastMarks_same s.heap) (fun d hd => ?_)
  unfold lastMarks Diff.savedLines
  simp [hu d hd, Diff.srcText, Diff.dstText]

/-- Saving any model. -/
theorem kept_save {v : MLState.SaveEnv} {s s' : MLState} {x m : Nat} {b : Bool} {i : Info} (hx : x ∉ s.dead) (hi : s.info = some i)
    (h : s.saveDestination v x = Res.ok (s', b)) (c : Covers s.heap (s.store m))
    (hd : x ≠ m → saveTarget i (s.store x) ≠ saveTarget i (s.store m) ∧ ∀ d ∈ (s.store x).differences, d ∉ (s.store m).differences) :
    Kept s s' m (saveTarget i (s.store m)) ∧ s'.store = s.store ∧ s'.info = s.info ∧ s'.dead = s.dead ∧ ∀ j, Diff.Same (s.heap.cell j) (s'.heap.cell j) := by
  obtain ⟨h1, h2⟩ := C36_save (v := v) hx hi
  have hem : ∀ err, Kept s (s.emit (.error err)) m (saveTarget i (s.store m)) := fun err => (still_emit s _ (by simp)).kept rfl _
  by_cases hu : ∃ d ∈ (s.store x).differences, (s.heap.cell d).unsaved = true
  · obtain ⟨h3, h4⟩ := h2 hu
    cases hf : v.failure i.mode with
    | some err =>
      have e := (h3 err hf).symm.trans h
      simp only [Res.ok.injEq, Prod.mk.injEq] at e
      rw [← e.1]
      exact ⟨hem err, rfl, rfl, rfl, fun _ => .refl _⟩
    | none =>
      obtain ⟨hp, k1, k2, k3⟩ := h4 hf
      have e := k1.symm.trans h
      simp only [Res.ok.injEq, Prod.mk.injEq] at e
      have hsame : ∀ j, Diff.Same (s.heap.cell j) (hp.cell j) := by
        intro j
        by_cases hj : j ∈ (s.store x).differences
        · rw [k2 j hj]; exact ⟨rfl, rfl, rfl, rfl, rfl, rfl⟩
        · rw [k3 j hj]; exact .refl _
      rw [← e.1]
      refine ⟨⟨_, rfl, ?_⟩, rfl, rfl, rfl, hsame⟩
      by_cases hxm : x = m
      · subst hxm
        have e1 : fileAfter (saveTarget i (s.store x)) (lastText s x) [.upload (saveTarget i (s.store x)) ((s.store x).savedText s.heap)] =
            (s.store x).savedText s.heap := by simp [fileAfter]
        rw [e1]
        have e2 := lastText_saved (s := { s with heap := hp, log := s.log ++ [.upload (saveTarget i (s.store x)) ((s.store x).savedText s.heap)] })
          (m := x) (c.frame rfl rfl hsame) (fun d hd => by show (hp.cell d).unsaved = false; rw [k2 d hd])
        rw [e2]
        refine (c.text hsame (fun d hd => ?_)).symm
        rw [k2 d hd]
        rfl
      · obtain ⟨d1, d2⟩ := hd hxm
        have e1 : fileAfter (saveTarget i (s.store m)) (lastText s m) [.upload (saveTarget i (s.store x)) ((s.store x).savedText s.heap)] =
            lastText s m := by simp [fileAfter, d1]
        rw [e1]
        refine (Covers.text (h := lastMarks s.heap) (h' := lastMarks hp) (x := s.store m) (c.frame rfl rfl (lastMarks_same s.heap)) (fun j => ?_)
          (fun d hd => ?_)).symm
        · exact (((lastMarks_same s.heap j).symm).trans (hsame j)).trans (lastMarks_same hp j)
        · have : d ∉ (s.store x).differences := fun q => d2 d q hd
          unfold lastMarks
          dsimp only
          rw [k3 d this]
  · have hu' : ∀ d ∈ (s.store x).differences, (s.heap.cell d).unsaved = false := by
      intro d hd
      cases q : (s.heap.cell d).unsaved with
      | false => rfl
      | true => exact absurd ⟨d, hd, q⟩ hu
    have e := (h1 hu').symm.trans h
    simp only [Res.ok.injEq, Prod.mk.injEq] at e
    rw [← e.1]
    exact ⟨.refl _ _ _, rfl, rfl, rfl, fun _ => .refl _⟩

/-- The models of the list do not share the target of `m` or its differences. -/
def Apart (s : MLState) (i : Info) (ms : List Nat) (m : Nat) : Prop :=
  ∀ x ∈ ms, x ≠ m → saveTarget i (s.store x) ≠ saveTarget i (s.store m) ∧ ∀ d ∈ (s.store x).differences, d ∉ (s.store m).differences

theorem kept_saveLoop (v : Nat → MLState.SaveEnv) {m : Nat} {i : Info} : ∀ (l : List Nat) {s s' : MLState} {b : Bool}, (∀ x ∈ l, x ∉ s.dead) → s.info = some i →
    MLState.saveLoop v l s = Res.ok (s', b) → Covers s.heap (s.store m) → Apart s i l m → Kept s s' m (saveTarget i (s.store m)) := by
  intro l
  induction l with
  | nil =>
    intro s s' b _ _ h _ _
    simp only [MLState.saveLoop, Res.ok.injEq, Prod.mk.injEq] at h
    rw [← h.1]
    exact .refl _ _ _
  | cons x l ih =>
    intro s s' b hd hi h c ha
    unfold MLState.saveLoop at h
    obtain ⟨⟨t, ok⟩, h1, h⟩ := Res.bind_eq_ok.mp h
    obtain ⟨k1, k2, k3, k4, k5⟩ := kept_save (hd x (by simp)) hi h1 c (ha x (by simp))
    dsimp only at h
    split at h
    · simp only [Res.ok.injEq, Prod.mk.injEq] at h
      rw [← h.1]
      exact k1
    · refine k1.trans ?_
      have := ih (s := t) (fun y hy => by rw [k4]; exact hd y (List.mem_cons_of_mem _ hy)) (k3.trans hi) h
        (c.frame (by rw [k2]) (by rw [k2]) k5) (by
          intro y hy hne
          rw [k2]
          exact ha y (List.mem_cons_of_mem _ hy) hne)
      rw [k2] at this
      exact this

theorem saveTarget_head {i : Info} {x y : DModel} (h : x.head = y.head) : saveTarget i x = saveTarget i y := by
  simp only [DModel.head, Prod.mk.injEq] at h
  obtain ⟨_, _, _, _, _, _, _, _, e1, e2⟩ := h
  unfold saveTarget MLState.saveDir
  rw [e1, e2]

/-- One operation of a user. -/
theorem kept_user {op : UserOp} {s s' : MLState} {ms : List Nat} (o : Opened s ms) {m : Nat} {i : Info} (hi : s.info = some i)
    (hop : op.Ok s) (h : op.run s = Res.ok s') (f : Frame s s') (sel : s.selectedModel.all (fun x => decide (x ∈ ms)) = true) (c : Covers s.heap (s.store m)) (ha : Apart s i ms m) :
    Kept s s' m (saveTarget i (s.store m)) := by
  by_cases hc : op.still = true
  · exact (still_user hc h).kept (f.hunks m) _
  · cases op with
    | save v =>
      have h : s.slotSaveDestination v = Res.ok s' := h
      unfold MLState.slotSaveDestination at h
      cases hx : s.selectedModel with
      | none => rw [hx] at h; rw [← Res.ok.inj h]; exact .refl _ _ _
      | some x =>
        rw [hx] at h sel
        have hxm : x ∈ ms := by simpa using sel
        obtain ⟨⟨t, b⟩, h1, h⟩ := Res.bind_eq_ok.mp h
        obtain ⟨k1, k2, k3, k4, k5⟩ := kept_save (o.live x hxm) hi h1 c (ha x hxm)
        refine k1.trans ?_
        rw [← Res.ok.inj h]
        split
        · exact (Still.trans (still_of rfl rfl) (still_emit _ _ (by simp))).kept (by rfl) _
        · exact (still_emit _ _ (by simp)).kept (by rfl) _
    | saveModel v x =>
      obtain ⟨⟨t, b⟩, h1, h⟩ := Res.bind_eq_ok.mp h
      have hxm : x ∈ ms := by
        have := hop
        unfold UserOp.Ok at this
        rw [o.models] at this
        exact this
      rw [← Res.ok.inj h]
      exact (kept_save (o.live x hxm) hi h1 c (ha x hxm)).1
    | saveAll v =>
      obtain ⟨⟨t, b⟩, h1, h⟩ := Res.bind_eq_ok.mp h
      rw [← Res.ok.inj h]
      unfold MLState.saveAll at h1
      rw [o.models] at h1
      cases hms : ms with
      | nil => exact absurd hms o.ne
      | cons y l =>
        rw [hms] at h1
        dsimp only at h1
        rw [← hms] at h1
        exact kept_saveLoop v ms o.live hi h1 c ha
    | _ => exact absurd rfl hc

/-- Any operations of a user. -/
theorem kept_run {m : Nat} {i : Info} {ms : List Nat} : ∀ (ops : List UserOp) {s : MLState}, Opened s ms → Selected s ms → s.info = some i →
    (∀ op ∈ ops, op.Ok s) → Covers s.heap (s.store m) → Apart s i ms m →
    ∃ s', runUser ops s = Res.ok s' ∧ Kept s s' m (saveTarget i (s.store m)) ∧ Frame s s' := by
  intro ops
  induction ops with
  | nil => intro s _ _ _ _ _ _; exact ⟨s, rfl, .refl _ _ _, .refl s⟩
  | cons op ops ih =>
    intro s o hsel hi hops c ha
    obtain ⟨k, j, m0, d, a⟩ := hsel
    obtain ⟨s1, k1, j1, m1, d1, g1, _⟩ := user_ok o a op (hops op (by simp))
    have f := g1.frame
    have e1 : Kept s s1 m (saveTarget i (s.store m)) := kept_user o hi (hops op (by simp)) g1.ok f
      (by rw [a.selectedModel]; simpa using List.mem_of_getElem? a.model) c ha
    have ht : ∀ x, saveTarget i (s1.store x) = saveTarget i (s.store x) := fun x => saveTarget_head (f.head x)
    obtain ⟨s2, r2, e2, f2⟩ := ih g1.opened ⟨_, _, _, _, g1.atIt⟩ (f.info.trans hi)
      (fun o' ho => (hops o' (List.mem_cons_of_mem _ ho)).frame f) (c.frame (f.hunks m) (f.differences m) f.cells) (by
        intro x hx hne
        rw [ht, ht, f.differences, f.differences]
        exact ha x hx hne)
    rw [ht] at e2
    refine ⟨s2, ?_, e1.trans e2, f.trans f2⟩
    simp only [runUser, g1.ok, Res.bind_ok]
    exact r2

/-- Only the targets of the models are written between the two states. -/
def Spares (i : Info) (ms : List Nat) (s s' : MLState) : Prop :=
  ∃ new, s'.log = s.log ++ new ∧ ∀ u t, Event.upload u t ∈ new → ∃ x ∈ ms, u = saveTarget i (s.store x)

theorem Spares.refl (i : Info) (ms : List Nat) (s : MLState) : Spares i ms s s := ⟨[], by simp, by simp⟩

theorem Spares.trans {i : Info} {ms : List Nat} {a b c : MLState} (h : Spares i ms a b) (ht : ∀ x, saveTarget i (b.store x) = saveTarget i (a.store x))
    (h' : Spares i ms b c) : Spares i ms a c := by
  obtain ⟨n1, e1, f1⟩ := h
  obtain ⟨n2, e2, f2⟩ := h'
  refine ⟨n1 ++ n2, by rw [e2, e1, List.append_assoc], fun u t q => ?_⟩
  rcases List.mem_append.1 q with q | q
  · exact f1 u t q
  · obtain ⟨x, hx, e⟩ := f2 u t q
    exact ⟨x, hx, e.trans (ht x)⟩

theorem Still.spares {s s' : MLState} (c : Still s s') (i : Info) (ms : List Nat) : Spares i ms s s' := by
  obtain ⟨⟨new, e, f⟩, _⟩ := c
  exact ⟨new, e, fun u t q => absurd q (f u t)⟩

theorem spares_save {v : MLState.SaveEnv} {s s' : MLState} {x : Nat} {b : Bool} {i : Info} {ms : List Nat} (hx : x ∉ s.dead) (hm : x ∈ ms) (hi : s.info = some i)
    (h : s.saveDestination v x = Res.ok (s', b)) : Spares i ms s s' ∧ s'.store = s.store ∧ s'.info = s.info ∧ s'.dead = s.dead := by
  obtain ⟨h1, h2⟩ := C36_save (v := v) hx hi
  by_cases hu : ∃ d ∈ (s.store x).differences, (s.heap.cell d).unsaved = true
  · obtain ⟨h3, h4⟩ := h2 hu
    cases hf : v.failure i.mode with
    | some err =>
      have e := (h3 err hf).symm.trans h
      simp only [Res.ok.injEq, Prod.mk.injEq] at e
      rw [← e.1]
      exact ⟨(still_emit s _ (by simp)).spares i ms, rfl, rfl, rfl⟩
    | none =>
      obtain ⟨hp, k1, _, _⟩ := h4 hf
      have e := k1.symm.trans h
      simp only [Res.ok.injEq, Prod.mk.injEq] at e
      rw [← e.1]
      refine ⟨⟨_, rfl, fun u t q => ?_⟩, rfl, rfl, rfl⟩
      simp only [List.mem_singleton, Event.upload.injEq] at q
      exact ⟨x, hm, q.1⟩
  · have hu' : ∀ d ∈ (s.store x).differences, (s.heap.cell d).unsaved = false := by
      intro d hd
      cases q : (s.heap.cell d).unsaved with
      | false => rfl
      | true => exact absurd ⟨d, hd, q⟩ hu
    have e := (h1 hu').symm.trans h
    simp only [Res.ok.injEq, Prod.mk.injEq] at e
    rw [← e.1]
    exact ⟨.refl _ _ _, rfl, rfl, rfl⟩

theorem spares_saveLoop (v : Nat → MLState.SaveEnv) {i : Info} {ms : List Nat} : ∀ (l : List Nat) {s s' : MLState} {b : Bool}, (∀ x ∈ l, x ∉ s.dead ∧ x ∈ ms) →
    s.info = some i → MLState.saveLoop v l s = Res.ok (s', b) → Spares i ms s s' := by
  intro l
  induction l with
  | nil =>
    intro s s' b _ _ h
    simp only [MLState.saveLoop, Res.ok.injEq, Prod.mk.injEq] at h
    rw [← h.1]
    exact .refl _ _ _
  | cons x l ih =>
    intro s s' b hd hi h
    unfold MLState.saveLoop at h
    obtain ⟨⟨t, ok⟩, h1, h⟩ := Res.bind_eq_ok.mp h
    obtain ⟨k1, k2, k3, k4⟩ := spares_save (hd x (by simp)).1 (hd x (by simp)).2 hi h1
    dsimp only at h
    split at h
    · simp only [Res.ok.injEq, Prod.mk.injEq] at h
      rw [← h.1]
      exact k1
    · exact k1.trans (fun y => by rw [k2]) (ih (s := t) (fun y hy => by rw [k4]; exact hd y (List.mem_cons_of_mem _ hy)) (k3.trans hi) h)

theorem spares_user {op : UserOp} {s s' : MLState} {ms : List Nat} (o : Opened s ms) {i : Info} (hi : s.info = some i)
    (hop : op.Ok s) (h : op.run s = Res.ok s') (sel : s.selectedModel.all (fun x => decide (x ∈ ms)) = true) : Spares i ms s s' := by
  by_cases hc : op.still = true
  · exact (still_user hc h).spares _ _
  · cases op with
    | save v =>
      have h : s.slotSaveDestination v = Res.ok s' := h
      unfold MLState.slotSaveDestination at h
      cases hx : s.selectedModel with
      | none => rw [hx] at h; rw [← Res.ok.inj h]; exact .refl _ _ _
      | some x =>
        rw [hx] at h sel
        have hxm : x ∈ ms := by simpa using sel
        obtain ⟨⟨t, b⟩, h1, h⟩ := Res.bind_eq_ok.mp h
        obtain ⟨k1, k2, _⟩ := spares_save (o.live x hxm) hxm hi h1
        refine k1.trans (fun y => by rw [k2]) ?_
        rw [← Res.ok.inj h]
        split
        · exact (Still.trans (still_of rfl rfl) (still_emit _ _ (by simp))).spares _ _
        · exact (still_emit _ _ (by simp)).spares _ _
    | saveModel v x =>
      obtain ⟨⟨t, b⟩, h1, h⟩ := Res.bind_eq_ok.mp h
      have hxm : x ∈ ms := by
        have := hop
        unfold UserOp.Ok at this
        rw [o.models] at this
        exact this
      rw [← Res.ok.inj h]
      exact (spares_save (o.live x hxm) hxm hi h1).1
    | saveAll v =>
      obtain ⟨⟨t, b⟩, h1, h⟩ := Res.bind_eq_ok.mp h
      rw [← Res.ok.inj h]
      unfold MLState.saveAll at h1
      rw [o.models] at h1
      cases hms : ms with
      | nil => exact absurd hms o.ne
      | cons y l =>
        rw [hms] at h1
        dsimp only at h1
        rw [← hms] at h1 ⊢
        exact spares_saveLoop v ms (fun x hx => ⟨o.live x hx, hx⟩) hi h1
    | _ => exact absurd rfl hc

theorem spares_run {i : Info} {ms : List Nat} : ∀ (ops : List UserOp) {s : MLState}, Opened s ms → Selected s ms → s.info = some i →
    (∀ op ∈ ops, op.Ok s) → ∃ s', runUser ops s = Res.ok s' ∧ Spares i ms s s' := by
  intro ops
  induction ops with
  | nil => intro s _ _ _ _; exact ⟨s, rfl, .refl _ _ _⟩
  | cons op ops ih =>
    intro s o hsel hi hops
    obtain ⟨k, j, m0, d, a⟩ := hsel
    obtain ⟨s1, k1, j1, m1, d1, g1, _⟩ := user_ok o a op (hops op (by simp))
    have f := g1.frame
    have e1 := spares_user o hi (hops op (by simp)) g1.ok (by rw [a.selectedModel]; simpa using List.mem_of_getElem? a.model)
    obtain ⟨s2, r2, e2⟩ := ih g1.opened ⟨_, _, _, _, g1.atIt⟩ (f.info.trans hi) (fun o' ho => (hops o' (List.mem_cons_of_mem _ ho)).frame f)
    refine ⟨s2, ?_, e1.trans (fun x => saveTarget_head (f.head x)) e2⟩
    simp only [runUser, g1.ok, Res.bind_ok]
    exact r2

theorem Ready.covers {h : Heap} {x : DModel} {S T : List Str} (r : Ready h x S T) : Covers h x := ⟨r.same, r.cover⟩

/-- A model that shows the whole file: the file on the disk. -/
theorem ready_keeps {s : MLState} {ms : List Nat} {m : Nat} {i : Info} {S : Str} {T : List Str} (o : Opened s ms) (hs : Selected s ms)
    (hi : s.info = some i) (ha : Apart s i ms m) (r : Ready s.heap (s.store m) (split S) T)
    (hf : ∀ d ∈ (s.store m).differences, (s.heap.cell d).applied = false ∧ (s.heap.cell d).unsaved = false) :
    KeepsFile s m (saveTarget i (s.store m)) S T := by
  intro ops hops
  obtain ⟨s', h1, ⟨new, h2, h3⟩, f⟩ := kept_run ops o hs hi hops r.covers ha
  have e0 : lastText s m = T.flatten := by
    rw [lastText_saved r.covers (fun d hd => (hf d hd).2)]
    have := r.all false (fun d hd => (hf d hd).1)
    simpa using this
  rw [e0] at h3
  have r' : Ready s'.heap (s'.store m) (split S) T := r.frame (f.hunks m) (f.differences m) f.cells (Nat.le_of_eq f.heapNext.symm)
  have r'' : Ready (lastMarks s'.heap) (s'.store m) (split S) T := r'.frame rfl rfl (lastMarks_same _) (Nat.le_refl _)
  refine ⟨s', new, h1, h2, ?_, fun hu => ?_⟩
  · obtain ⟨out, ho, hsv⟩ := r''.saved
    exact ⟨out, ho, h3.trans hsv⟩
  · rw [lastText_saved r'.covers hu] at h3
    refine ⟨?_, fun hb => ?_, fun hb => ?_⟩
    · obtain ⟨out, ho, hsv⟩ := r'.saved
      exact ⟨out, ho, h3.trans hsv⟩
    · rw [h3]; simpa using r'.all false hb
    · rw [h3]
      have := r'.all true hb
      rw [if_pos rfl, show (split S).flatten = S from splitAux_flatten [] S] at this
      exact this

end KompareDiff2
