import Verif.Proofs.MovedParse
/-
Moving objects: the calls on a model list.
-/
namespace KompareDiff2
open Spec

variable {A : Actions → Actions → Prop} {c : Bool} {a b : Nat} {L L' : List Event} {s s' : MLState}

/-! ### Building blocks -/

theorem Spec.MovedBy.emit (w : MovedBy A c a b L L' s s') (e : Event) : MovedBy A c a b L L' (s.emit e) (s'.emit (moveEvent a b e)) := by
  obtain ⟨t, h1, h2⟩ := w.log
  exact { w with
    log := ⟨t ++ [e], by show s.log ++ [e] = _; rw [h1, List.append_assoc],
      by show s'.log ++ [_] = _; rw [h2, List.map_append, List.append_assoc]; rfl⟩ }

theorem Spec.MovedBy.setModel (w : MovedBy A c a b L L' s s') {i : Nat} (hi : i < s.nextModel) {m : DModel} (u : Uses s.heap.next m) :
    MovedBy A c a b L L' (s.setModel i m) (s'.setModel (i + b) (moveModel a m)) := by
  refine { w with store := fun j hj => ?_, uses := fun j hj => ?_ }
  · show (if j + b = i + b then moveModel a m else s'.store (j + b)) = moveModel a (if j = i then m else s.store j)
    by_cases e : j = i
    · rw [if_pos e, if_pos (by rw [e])]
    · rw [if_neg e, if_neg (by omega)]; exact w.store j hj
  · show Uses s.heap.next (if j = i then m else s.store j)
    split
    · exact u
    · exact w.uses j hj

theorem Spec.MovedBy.withHeap (w : MovedBy A c a b L L' s s') {h h' : Heap} (hm : HeapMoved a h h') (hn : s.heap.next ≤ h.next) :
    MovedBy A c a b L L' { s with heap := h } { s' with heap := h' } :=
  { w with
    heap := hm, uses := fun j hj => (w.uses j hj).mono hn
    selectedDifferenceOk := fun d hd => Nat.lt_of_lt_of_le (w.selectedDifferenceOk d hd) hn }

theorem Spec.MovedBy.setBoth (w : MovedBy A c a b L L' s s') {i : Nat} (hi : i < s.nextModel) {m : DModel} {h h' : Heap} (hm : HeapMoved a h h')
    (hn : s.heap.next ≤ h.next) (u : Uses h.next m) :
    MovedBy A c a b L L' { (s.setModel i m) with heap := h } { (s'.setModel (i + b) (moveModel a m)) with heap := h' } :=
  (w.withHeap hm hn).setModel (i := i) hi u

theorem Spec.MovedBy.choose (w : MovedBy A c a b L L' s s') {d : Option Nat} (hd : ∀ i, d = some i → i < s.heap.next) :
    MovedBy A c a b L L' { s with selectedDifference := d } { s' with selectedDifference := d.map (· + a) } :=
  { w with selectedDifference := rfl, selectedDifferenceOk := hd }

theorem Spec.MovedBy.chooseModel (w : MovedBy A c a b L L' s s') {m : Option Nat} (hm : ∀ i, m = some i → i < s.nextModel) (k : Int) :
    MovedBy A c a b L L' { s with modelIndex := k, selectedModel := m } { s' with modelIndex := k, selectedModel := m.map (· + b) } :=
  { w with selectedModel := rfl, selectedModelOk := hm, modelIndex := rfl }

theorem Spec.MovedBy.list (w : MovedBy A c a b L L' s s') :
    Agree (fun l l' => l' = l.map (· + b) ∧ (∀ m ∈ l, m < s.nextModel) ∧ s.models = some l) s.list s'.list := by
  unfold MLState.list
  rw [w.models]
  cases e : s.models with
  | none => exact trivial
  | some l => exact ⟨rfl, fun m hm => w.listed m (by rw [e]; exact hm), rfl⟩

theorem Spec.MovedBy.model (w : MovedBy A c a b L L' s s') (p : Option Nat) :
    Agree (fun i j => j = i + b ∧ p = some i) (s.model p) (s'.model (p.map (· + b))) := by
  cases p with
  | none => exact trivial
  | some i =>
    unfold MLState.model
    dsimp only [Option.map_some]
    by_cases e : i ∈ s.dead
    · rw [if_pos e, if_pos ((w.dead i).2 e)]; exact trivial
    · rw [if_neg e, if_neg (fun q => e ((w.dead i).1 q))]; exact ⟨rfl, rfl⟩

theorem Spec.MovedBy.diff (w : MovedBy A c a b L L' s s') (p : Option Nat) :
    Agree (fun i j => j = i + a ∧ p = some i) (s.diff p) (s'.diff (p.map (· + a))) := by
  cases p with
  | none => exact trivial
  | some i =>
    unfold MLState.diff
    dsimp only [Option.map_some]
    by_cases e : i ∈ s.deadDiffs
    · rw [if_pos e, if_pos ((w.deadDiffs i).2 e)]; exact trivial
    · rw [if_neg e, if_neg (fun q => e ((w.deadDiffs i).1 q))]; exact ⟨rfl, rfl⟩

theorem Spec.MovedBy.selected (w : MovedBy A c a b L L' s s') :
    Agree (fun i j => j = i + b ∧ s.selectedModel = some i ∧ i < s.nextModel) (s.model s.selectedModel) (s'.model s'.selectedModel) := by
  rw [w.selectedModel]
  exact (w.model _).mono fun i j ⟨e, h⟩ => ⟨e, h, w.selectedModelOk i h⟩

theorem indexOfPtr_add (b : Nat) (l : List Nat) (p : Option Nat) : MLState.indexOfPtr (l.map (· + b)) (p.map (· + b)) = MLState.indexOfPtr l p := by
  cases p with
  | none => rfl
  | some i => exact indexOfI_add b l i

theorem Spec.MovedBy.modelCount (w : MovedBy A c a b L L' s s') : s'.modelCount = s.modelCount := by
  unfold MLState.modelCount
  rw [w.models]
  cases s.models with
  | none => rfl
  | some l => show ((l.map _).length : Int) = _; rw [List.length_map]

theorem Spec.MovedBy.differenceCount (w : MovedBy A c a b L L' s s') : Agree Eq s.differenceCount s'.differenceCount := by
  unfold MLState.differenceCount
  have q := w.selected
  rw [w.selectedModel] at q ⊢
  cases e : s.selectedModel with
  | none => exact rfl
  | some m =>
    rw [e] at q
    refine q.bind fun i j ⟨e1, _, e3⟩ => ?_
    subst e1
    show _ = _
    rw [w.store i e3]
    show _ = (((s.store i).differences.map _).length : Int)
    rw [List.length_map]

theorem Spec.MovedBy.hasNextModel (w : MovedBy A c a b L L' s s') : Agree Eq s.hasNextModel s'.hasNextModel := by
  refine w.list.bind fun l l' ⟨e, _, _⟩ => ?_
  subst e
  show _ = _
  rw [List.length_map, w.modelIndex]

theorem Spec.MovedBy.hasPrevModel (w : MovedBy A c a b L L' s s') : s'.hasPrevModel = s.hasPrevModel := by
  unfold MLState.hasPrevModel; rw [w.modelIndex]

theorem Spec.MovedBy.hasPrevDiff (w : MovedBy A c a b L L' s s') : Agree Eq s.hasPrevDiff s'.hasPrevDiff := by
  refine w.selected.bind fun i j ⟨e1, _, e3⟩ => ?_
  subst e1
  rw [w.store i e3, w.hasPrevModel]
  exact .eq

theorem Spec.MovedBy.hasNextDiff (w : MovedBy A c a b L L' s s') : Agree Eq s.hasNextDiff s'.hasNextDiff := by
  refine w.selected.bind fun i j ⟨e1, _, e3⟩ => ?_
  subst e1
  rw [w.store i e3]
  have e : (moveModel a (s.store i)).differences.length = (s.store i).differences.length := List.length_map ..
  rw [e]
  show Agree Eq (if (s.store i).diffIndex < _ then _ else _) (if (s.store i).diffIndex < _ then _ else _)
  split
  · rfl
  · exact w.hasNextModel

/-- The five flags for writing are the same. -/
structure SameWriting (x y : Actions) : Prop where
  apply : y.apply = x.apply
  unapply : y.unapply = x.unapply
  applyAll : y.applyAll = x.applyAll
  unapplyAll : y.unapplyAll = x.unapplyAll
  save : y.save = x.save

theorem Spec.MovedBy.updateWriting (w : MovedBy A c a b L L' s s') :
    Agree (fun x y => c = true → SameWriting x y) s.updateWriting s'.updateWriting := by
  unfold MLState.updateWriting
  rw [w.canSave, w.canSave', w.isReadWrite]
  split
  · refine w.selected.bind fun i j ⟨e1, _, e3⟩ => ?_
    subst e1
    have q := w.diff s.selectedDifference
    rw [w.selectedDifference]
    refine q.bind fun d d' ⟨e4, e5⟩ => ?_
    subst e4
    intro _
    rw [w.store i e3, w.heap.cell d (w.selectedDifferenceOk d e5), move_unsaved w.heap (w.uses i e3)]
    have e : (moveModel a (s.store i)).differences.length = (s.store i).differences.length := List.length_map ..
    rw [e]
    exact ⟨rfl, rfl, rfl, rfl, rfl⟩
  · split
    · exact fun _ => ⟨rfl, rfl, rfl, rfl, rfl⟩
    · rename_i q; exact fun e => absurd e q

theorem SameWriting.actions {x y : Actions} (q : c = true → SameWriting x y) (p1 p2 p3 p4 : Bool) :
    SameActions c { x with previousFile := p1, nextFile := p2, previousDifference := p3, nextDifference := p4 }
      { y with previousFile := p1, nextFile := p2, previousDifference := p3, nextDifference := p4 } := by
  refine ⟨rfl, rfl, rfl, rfl, fun e => ?_⟩
  obtain ⟨q1, q2, q3, q4, q5⟩ := q e
  cases x; cases y
  dsimp only at *
  rw [q1, q2, q3, q4, q5]

theorem Spec.MovedBy.withActions (w : MovedBy A c a b L L' s s') {B : Actions → Actions → Prop} {x y : Actions} (h : B x y) :
    MovedBy B c a b L L' { s with actions := x } { s' with actions := y } := { w with actions := h }

theorem Spec.MovedBy.updateActions (w : MovedBy A c a b L L' s s') :
    Agree (MovedBy (SameActions c) c a b L L') s.updateActions s'.updateActions := by
  unfold MLState.updateActions
  have hq : (s'.models ≠ none ∧ s'.selectedModel ≠ none ∧ s'.selectedDifference ≠ none) ↔
      (s.models ≠ none ∧ s.selectedModel ≠ none ∧ s.selectedDifference ≠ none) := by
    rw [w.models, w.selectedModel, w.selectedDifference]
    simp
  by_cases q : s.models ≠ none ∧ s.selectedModel ≠ none ∧ s.selectedDifference ≠ none
  · rw [if_pos q, if_pos (hq.2 q)]
    refine w.updateWriting.bind fun x y h => w.hasNextModel.bind fun _ nm e => w.hasPrevDiff.bind fun _ pd e' => w.hasNextDiff.bind fun _ nd e'' => ?_
    subst e e' e''
    rw [w.hasPrevModel]
    exact w.withActions (SameWriting.actions h _ _ _ _)
  · rw [if_neg q, if_neg (fun p => q (hq.1 p))]
    refine w.withActions (SameWriting.actions (fun e => ?_) _ _ _ _)
    rw [w.canSave, w.canSave', if_pos e, if_pos e]
    exact ⟨rfl, rfl, rfl, rfl, rfl⟩

theorem Spec.MovedBy.emitStatusBar (w : MovedBy A c a b L L' s s') : Agree (MovedBy A c a b L L') s.emitStatusBar s'.emitStatusBar := by
  refine w.list.bind fun l l' ⟨e, _, _⟩ => w.selected.bind fun i j ⟨e1, _, e3⟩ => w.differenceCount.bind fun dc _ e4 => ?_
  subst e e1 e4
  rw [w.store i e3, w.selectedModel, w.selectedDifference, indexOfPtr_add, w.modelCount]
  have : MLState.indexOfPtr (moveModel a (s.store i)).differences (s.selectedDifference.map (· + a)) =
      MLState.indexOfPtr (s.store i).differences s.selectedDifference := indexOfPtr_add a _ _
  rw [this]
  exact w.emit _

/-! ### Selecting -/

theorem Spec.MovedBy.firstModel (w : MovedBy A c a b L L' s s') : Agree (MovedBy A c a b L L') s.firstModel s'.firstModel := by
  refine w.list.bind fun l l' ⟨e, h, _⟩ => ?_
  subst e
  refine (atR_map (· + b) l 0).bind fun m m' ⟨e, hm⟩ => ?_
  subst e
  exact w.chooseModel (m := some m) (fun i e => by cases e; exact h m hm) 0

theorem Spec.MovedBy.lastModel (w : MovedBy A c a b L L' s s') : Agree (MovedBy A c a b L L') s.lastModel s'.lastModel := by
  refine w.list.bind fun l l' ⟨e, h, _⟩ => ?_
  subst e
  rw [List.length_map]
  refine (atR_map (· + b) l _).bind fun m m' ⟨e, hm⟩ => ?_
  subst e
  exact w.chooseModel (m := some m) (fun i e => by cases e; exact h m hm) _

theorem Spec.MovedBy.prevModel (w : MovedBy A c a b L L' s s') : Agree (MovedBy A c a b L L') s.prevModel s'.prevModel := by
  unfold MLState.prevModel
  rw [w.modelIndex]
  split
  · refine w.list.bind fun l l' ⟨e, h, _⟩ => ?_
    subst e
    rw [List.length_map]
    split
    · refine (atR_map (· + b) l _).bind fun m m' ⟨e, hm⟩ => ?_
      subst e
      exact w.chooseModel (m := some m) (fun i e => by cases e; exact h m hm) _
    · exact w.chooseModel (m := none) (fun i e => by cases e) 0
  · exact w.chooseModel (m := none) (fun i e => by cases e) 0

theorem Spec.MovedBy.nextModel_ (w : MovedBy A c a b L L' s s') : Agree (MovedBy A c a b L L') s.nextModel_ s'.nextModel_ := by
  unfold MLState.nextModel_
  rw [w.modelIndex]
  refine w.list.bind fun l l' ⟨e, h, _⟩ => ?_
  subst e
  rw [List.length_map]
  split
  · refine (atR_map (· + b) l _).bind fun m m' ⟨e, hm⟩ => ?_
    subst e
    exact w.chooseModel (m := some m) (fun i e => by cases e; exact h m hm) _
  · exact w.chooseModel (m := none) (fun i e => by cases e) 0

/-- Related optional states. -/
def MovedOpt (R : MLState → MLState → Prop) : Option MLState → Option MLState → Prop
  | none, none => True
  | some x, some y => R x y
  | _, _ => False

theorem Spec.MovedBy.setSelectedModel (w : MovedBy A c a b L L' s s') {p : Option Nat} (hp : ∀ i, p = some i → i < s.nextModel) :
    Agree (MovedOpt (MovedBy (SameActions c) c a b L L')) (s.setSelectedModel p) (s'.setSelectedModel (p.map (· + b))) := by
  unfold MLState.setSelectedModel
  rw [w.selectedModel]
  by_cases e : p = s.selectedModel
  · rw [if_neg (by rw [e]; simp), if_neg (by rw [e]; simp)]
    exact w.updateActions.bind fun _ _ q => q
  · rw [if_pos (fun q => e (map_add_eq.1 q)), if_pos e]
    refine w.list.bind fun l l' ⟨e, h, _⟩ => ?_
    subst e
    rw [indexOfPtr_add]
    split
    · exact trivial
    · exact (w.chooseModel hp _).updateActions.bind fun _ _ q => q

theorem Spec.MovedBy.announce (w : MovedBy A c a b L L' s s') : Agree (MovedBy (SameActions c) c a b L L') s.announce s'.announce := by
  unfold MLState.announce
  have q := w.emit (.selection s.selectedModel s.selectedDifference)
  have e : moveEvent a b (.selection s.selectedModel s.selectedDifference) = .selection s'.selectedModel s'.selectedDifference := by
    rw [w.selectedModel, w.selectedDifference]; rfl
  rw [e] at q
  exact q.emitStatusBar.bind fun _ _ q => q.updateActions

theorem Spec.MovedBy.selectWith (w : MovedBy A c a b L L' s s') {i : Nat} (hi : i < s.nextModel) {f : DModel → Res (DModel × Option Nat)}
    (hf : ∀ n m, Uses n m → Agree (MovedSel a n) (f m) (f (moveModel a m))) :
    Agree (MovedBy A c a b L L') (s.selectWith i f) (s'.selectWith (i + b) f) := by
  unfold MLState.selectWith
  rw [w.store i hi]
  refine (hf _ _ (w.uses i hi)).bind fun x y ⟨e1, e2, e3, e4⟩ => ?_
  rw [e1, e2]
  exact (w.setModel hi e3).choose e4

theorem Spec.MovedBy.selectFirst (w : MovedBy A c a b L L' s s') : Agree (MovedBy A c a b L L') s.selectFirst s'.selectFirst := by
  refine w.selected.bind fun i j ⟨e, _, h⟩ => ?_
  subst e
  exact w.selectWith h fun _ _ => move_first

theorem Spec.MovedBy.selectLast (w : MovedBy A c a b L L' s s') : Agree (MovedBy A c a b L L') s.selectLast s'.selectLast := by
  refine w.selected.bind fun i j ⟨e, _, h⟩ => ?_
  subst e
  exact w.selectWith h fun _ _ => move_last

theorem none_iff (w : MovedBy A c a b L L' s s') : s'.selectedModel ≠ none ↔ s.selectedModel ≠ none := by
  rw [w.selectedModel]; simp

theorem noneDiff_iff (w : MovedBy A c a b L L' s s') : s'.selectedDifference ≠ none ↔ s.selectedDifference ≠ none := by
  rw [w.selectedDifference]; simp

theorem agree_ite {α β : Type} {R : α → β → Prop} {p q : Prop} [Decidable p] [Decidable q] (h : q ↔ p) {x y : Res α} {x' y' : Res β}
    (h1 : p → Agree R x x') (h2 : ¬ p → Agree R y y') : Agree R (if p then x else y) (if q then x' else y') := by
  by_cases e : p
  · rw [if_pos e, if_pos (h.2 e)]; exact h1 e
  · rw [if_neg e, if_neg (fun r => e (h.1 r))]; exact h2 e

theorem Spec.MovedBy.slotPreviousModel (w : MovedBy A c a b L L' s s') :
    Agree (MovedBy (SameActions c) c a b L L') s.slotPreviousModel s'.slotPreviousModel := by
  refine w.prevModel.bind fun t t' w => ?_
  exact agree_ite (none_iff w) (fun _ => w.selectFirst.bind fun _ _ w => w.announce)
    fun _ => w.firstModel.bind fun _ _ w => w.selectFirst.bind fun _ _ w => w.announce

theorem Spec.MovedBy.slotNextModel (w : MovedBy A c a b L L' s s') :
    Agree (MovedBy (SameActions c) c a b L L') s.slotNextModel s'.slotNextModel := by
  refine w.nextModel_.bind fun t t' w => ?_
  exact agree_ite (none_iff w) (fun _ => w.selectFirst.bind fun _ _ w => w.announce)
    fun _ => w.lastModel.bind fun _ _ w => w.selectFirst.bind fun _ _ w => w.announce

theorem Spec.MovedBy.tellDiff (w : MovedBy A c a b L L' s s') :
    Agree (MovedBy (SameActions c) c a b L L') ((s.emit (.diffSelection s.selectedDifference)).emitStatusBar >>= MLState.updateActions)
      ((s'.emit (.diffSelection s'.selectedDifference)).emitStatusBar >>= MLState.updateActions) := by
  have q := w.emit (.diffSelection s.selectedDifference)
  have e : moveEvent a b (.diffSelection s.selectedDifference) = .diffSelection s'.selectedDifference := by rw [w.selectedDifference]; rfl
  rw [e] at q
  exact q.emitStatusBar.bind fun _ _ q => q.updateActions

theorem Spec.MovedBy.slotPreviousDifference (w : MovedBy A c a b L L' s s') :
    Agree (MovedBy (SameActions c) c a b L L') s.slotPreviousDifference s'.slotPreviousDifference := by
  refine w.selected.bind fun i j ⟨e, _, h⟩ => ?_
  subst e
  refine (w.selectWith h fun _ _ => move_prev).bind fun t t' w => ?_
  refine agree_ite (noneDiff_iff w) (fun _ => w.tellDiff) fun _ => ?_
  refine w.prevModel.bind fun t t' w => ?_
  exact agree_ite (none_iff w) (fun _ => w.selectLast.bind fun _ _ w => w.announce)
    fun _ => w.firstModel.bind fun _ _ w => w.selectFirst.bind fun _ _ w => w.announce

theorem Spec.MovedBy.slotNextDifference (w : MovedBy A c a b L L' s s') :
    Agree (MovedBy (SameActions c) c a b L L') s.slotNextDifference s'.slotNextDifference := by
  refine w.selected.bind fun i j ⟨e, _, h⟩ => ?_
  subst e
  refine (w.selectWith h fun _ _ => move_next).bind fun t t' w => ?_
  refine agree_ite (noneDiff_iff w) (fun _ => w.tellDiff) fun _ => ?_
  refine w.nextModel_.bind fun t t' w => ?_
  exact agree_ite (none_iff w) (fun _ => w.selectFirst.bind fun _ _ w => w.announce)
    fun _ => w.lastModel.bind fun _ _ w => w.selectLast.bind fun _ _ w => w.announce

theorem Spec.MovedBy.setSelected (w : MovedBy A c a b L L' s s') {i : Nat} (hi : i < s.nextModel) :
    MovedBy A c a b L L' (s.setModel i ((s.store i).setSelectedDifference s.selectedDifference).1)
      (s'.setModel (i + b) ((s'.store (i + b)).setSelectedDifference s'.selectedDifference).1) ∧
    ((s'.store (i + b)).setSelectedDifference s'.selectedDifference).2 = ((s.store i).setSelectedDifference s.selectedDifference).2 := by
  rw [w.store i hi, w.selectedDifference]
  obtain ⟨e1, e2, u⟩ := move_setSelected (a := a) (w.uses i hi) s.selectedDifference
  rw [e1, e2]
  exact ⟨w.setModel hi u, rfl⟩

theorem Spec.MovedBy.slotSelectionChanged (w : MovedBy A c a b L L' s s') {m d : Option Nat} (hm : ∀ i, m = some i → i < s.nextModel)
    (hd : ∀ i, d = some i → i < s.heap.next) :
    Agree (MovedBy (SameActions c) c a b L L') (s.slotSelectionChanged m d) (s'.slotSelectionChanged (m.map (· + b)) (d.map (· + a))) := by
  refine w.list.bind fun l l' ⟨e, h, _⟩ => ?_
  subst e
  rw [indexOfPtr_add]
  have w1 : MovedBy A c a b L L' { s with selectedModel := m, modelIndex := MLState.indexOfPtr l m, selectedDifference := d }
      { s' with selectedModel := m.map (· + b), modelIndex := MLState.indexOfPtr l m, selectedDifference := d.map (· + a) } :=
    { w with selectedModel := rfl, selectedModelOk := hm, modelIndex := rfl, selectedDifference := rfl, selectedDifferenceOk := hd }
  refine w1.selected.bind fun i j ⟨e, _, hi⟩ => ?_
  subst e
  have w2 := (w1.setSelected hi).1
  refine Agree.bind (w2.setSelectedModel (p := m) hm) fun r r' hr => ?_
  have fin : ∀ (B : Actions → Actions → Prop) (x y : MLState), MovedBy B c a b L L' x y → Agree (MovedBy (SameActions c) c a b L L')
      ((x.emit (.selection m d)).emitStatusBar >>= fun s => s.updateActions)
      ((y.emit (.selection (m.map (· + b)) (d.map (· + a)))).emitStatusBar >>= fun s => s.updateActions) :=
    fun _ _ _ w => (w.emit (.selection m d)).emitStatusBar.bind fun _ _ q => q.updateActions
  cases r <;> cases r' <;> first | exact False.elim hr | skip
  · exact w2.firstModel.bind fun _ _ w => w.selectFirst.bind fun _ _ w => fin _ _ _ w
  · have w3 : MovedBy (SameActions c) c a b L L' _ _ := hr
    refine w3.selected.bind fun i j ⟨e, _, hi⟩ => ?_
    subst e
    obtain ⟨w4, e4⟩ := w3.setSelected hi
    exact agree_ite (by rw [e4]) (fun _ => w4.selectFirst.bind fun _ _ w => fin _ _ _ w) fun _ => fin _ _ _ w4

theorem Spec.MovedBy.slotDiffSelectionChanged (w : MovedBy A c a b L L' s s') {d : Option Nat} (hd : ∀ i, d = some i → i < s.heap.next) :
    Agree (MovedBy (SameActions c) c a b L L') (s.slotDiffSelectionChanged d) (s'.slotDiffSelectionChanged (d.map (· + a))) := by
  have w1 := w.choose hd
  refine w1.selected.bind fun i j ⟨e, _, hi⟩ => ?_
  subst e
  obtain ⟨w4, e4⟩ := w1.setSelected hi
  have fin : ∀ (B : Actions → Actions → Prop) (x y : MLState), MovedBy B c a b L L' x y → Agree (MovedBy (SameActions c) c a b L L')
      ((x.emit (.diffSelection d)).emitStatusBar >>= fun s => s.updateActions)
      ((y.emit (.diffSelection (d.map (· + a)))).emitStatusBar >>= fun s => s.updateActions) :=
    fun _ _ _ w => (w.emit (.diffSelection d)).emitStatusBar.bind fun _ _ q => q.updateActions
  exact agree_ite (by dsimp only at e4 ⊢; rw [e4]) (fun _ => w4.selectFirst.bind fun _ _ w => fin _ _ _ w) fun _ => fin _ _ _ w4

/-! ### Applying -/

theorem Spec.MovedBy.slotApplyDifference (w : MovedBy A c a b L L' s s') (x : Bool) :
    Agree (MovedBy A c a b L L') (s.slotApplyDifference x) (s'.slotApplyDifference x) := by
  refine w.selected.bind fun i j ⟨e, _, hi⟩ => ?_
  subst e
  rw [w.store i hi]
  refine (w.diff (s.store i).selected).bind fun _ _ _ => ?_
  refine (move_apply w.heap (w.uses i hi) x).bind fun u v ⟨e1, e2, e3, e4⟩ => ?_
  rw [e1]
  exact (w.setBoth hi e2 (Nat.le_of_eq e3.symm) e4).emit (.applyDifference x)

theorem Spec.MovedBy.slotApplyAllDifferences (w : MovedBy A c a b L L' s s') (x : Bool) :
    Agree (MovedBy A c a b L L') (s.slotApplyAllDifferences x) (s'.slotApplyAllDifferences x) := by
  refine w.selected.bind fun i j ⟨e, _, hi⟩ => ?_
  subst e
  rw [w.store i hi]
  obtain ⟨e1, e2, e3, e4⟩ := move_applyAll w.heap (w.uses i hi) x
  dsimp only
  rw [e1]
  exact (w.setBoth hi e2 (Nat.le_of_eq e3.symm) (by rw [e3]; exact e4)).emit (.applyAll x)

theorem Spec.MovedBy.actionApply (w : MovedBy A c a b L L' s s') : Agree (MovedBy (SameActions c) c a b L L') s.actionApply s'.actionApply := by
  unfold MLState.actionApply
  rw [w.selectedDifference]
  refine (w.diff s.selectedDifference).bind fun d _ ⟨e, hd⟩ => ?_
  subst e
  rw [w.heap.cell d (w.selectedDifferenceOk d hd)]
  exact agree_ite Iff.rfl (fun _ => (w.slotApplyDifference true).bind fun _ _ w => w.slotNextDifference.bind fun _ _ w => w.updateActions)
    fun _ => w.slotNextDifference.bind fun _ _ w => w.updateActions

theorem Spec.MovedBy.actionUnapply (w : MovedBy A c a b L L' s s') : Agree (MovedBy (SameActions c) c a b L L') s.actionUnapply s'.actionUnapply := by
  unfold MLState.actionUnapply
  rw [w.selectedDifference]
  refine (w.diff s.selectedDifference).bind fun d _ ⟨e, hd⟩ => ?_
  subst e
  rw [w.heap.cell d (w.selectedDifferenceOk d hd)]
  exact agree_ite Iff.rfl (fun _ => (w.slotApplyDifference false).bind fun _ _ w => w.slotPreviousDifference.bind fun _ _ w => w.updateActions)
    fun _ => w.slotPreviousDifference.bind fun _ _ w => w.updateActions

theorem Spec.MovedBy.actionApplyAll (w : MovedBy A c a b L L' s s') : Agree (MovedBy (SameActions c) c a b L L') s.actionApplyAll s'.actionApplyAll :=
  (w.slotApplyAllDifferences true).bind fun _ _ w => w.updateActions

theorem Spec.MovedBy.actionUnapplyAll (w : MovedBy A c a b L L' s s') :
    Agree (MovedBy (SameActions c) c a b L L') s.actionUnapplyAll s'.actionUnapplyAll :=
  (w.slotApplyAllDifferences false).bind fun _ _ w => w.updateActions

theorem Spec.MovedBy.setReadWrite (w : MovedBy (SameActions c) c a b L L' s s') (x : Bool) :
    Agree (MovedBy (SameActions c) c a b L L') (s.setReadWrite x) (s'.setReadWrite x) := by
  refine agree_ite (by rw [w.isReadWrite]) (fun _ => w) fun _ => ?_
  exact Spec.MovedBy.updateActions (A := SameActions c) { w with isReadWrite := rfl }

theorem Spec.MovedBy.hasUnsavedChanges (w : MovedBy A c a b L L' s s') : s'.hasUnsavedChanges = s.hasUnsavedChanges := by
  unfold MLState.hasUnsavedChanges
  rw [w.models]
  cases e : s.models with
  | none => rfl
  | some l =>
    have hl : ∀ m ∈ l, m < s.nextModel := fun m hm => w.listed m (by rw [e]; exact hm)
    show (l.map (· + b)).any _ = l.any _
    clear e
    induction l with
    | nil => rfl
    | cons m l ih =>
      rw [List.map_cons, List.any_cons, List.any_cons, ih (fun x hx => hl x (List.mem_cons_of_mem _ hx)), w.store m (hl m (by simp)),
        move_unsaved w.heap (w.uses m (hl m (by simp)))]

/-! ### Saving -/

/-- The result of a call that also returns a Boolean. -/
def MovedRes (R : MLState → MLState → Prop) (x y : MLState × Bool) : Prop := R x.1 y.1 ∧ y.2 = x.2

theorem Spec.MovedBy.saveDestination (w : MovedBy A c a b L L' s s') (v : MLState.SaveEnv) {m : Nat} (hm : m < s.nextModel) :
    Agree (MovedRes (MovedBy A c a b L L')) (s.saveDestination v m) (s'.saveDestination v (m + b)) := by
  refine (w.model (some m)).bind fun i j ⟨e, h⟩ => ?_
  cases h
  subst e
  rw [w.store m hm, move_unsaved w.heap (w.uses m hm), w.info]
  refine agree_ite Iff.rfl (fun _ => ⟨w, rfl⟩) fun _ => ?_
  refine agree_ite Iff.rfl (fun _ => ⟨w.emit (.error .tempFile), rfl⟩) fun _ => ?_
  refine agree_ite Iff.rfl (fun _ => ⟨w.emit (.error .tempFile), rfl⟩) fun _ => ?_
  refine agree_ite Iff.rfl (fun _ => ⟨w.emit (.error .tempFile), rfl⟩) fun _ => ?_
  cases s.info with
  | none => exact trivial
  | some i =>
    refine agree_ite Iff.rfl (fun _ => ⟨w.emit (.error .mkdir), rfl⟩) fun _ => ?_
    refine agree_ite Iff.rfl (fun _ => ?_) fun _ => ⟨w.emit (.error .upload), rfl⟩
    rw [move_savedText w.heap (w.uses m hm)]
    have w1 := w.emit (.upload (if i.mode = .ComparingDirs then MLState.saveDir i (s.store m) ++ (s.store m).destinationFile else i.destination)
      ((s.store m).savedText s.heap))
    have hd : (s'.store (m + b)).differences = (s.store m).differences.map (· + a) := by rw [w.store m hm]; rfl
    refine ⟨w1.withHeap ?_ (Nat.le_of_eq (modifyAll_next' _ _ _).symm), rfl⟩
    show HeapMoved a (s.heap.modifyAll _ (s.store m).differences) (s'.heap.modifyAll _ (s'.store (m + b)).differences)
    rw [hd]
    exact w.heap.modifyAll _ _ (w.uses m hm).differences

theorem saveDestination_nextModel {v : MLState.SaveEnv} {s : MLState} {m : Nat} {r : MLState × Bool} (h : s.saveDestination v m = Res.ok r) :
    r.1.nextModel = s.nextModel := by
  unfold MLState.saveDestination at h
  obtain ⟨i, _, h⟩ := Res.bind_eq_ok.1 h
  repeat' split at h
  all_goals first | (cases h; rfl) | cases h

theorem Spec.MovedBy.saveLoop {v v' : Nat → MLState.SaveEnv} (hv : ∀ m, v' (m + b) = v m) (l : List Nat) {s s' : MLState}
    (w : MovedBy A c a b L L' s s') (hl : ∀ m ∈ l, m < s.nextModel) :
    Agree (MovedRes (MovedBy A c a b L L')) (MLState.saveLoop v l s) (MLState.saveLoop v' (l.map (· + b)) s') := by
  induction l generalizing s s' with
  | nil => exact ⟨w, rfl⟩
  | cons m l ih =>
    rw [List.map_cons, MLState.saveLoop, MLState.saveLoop, hv]
    have q := w.saveDestination (v m) (hl m (by simp))
    cases e : s.saveDestination (v m) m with
    | ub => rw [e] at q; cases e' : s'.saveDestination (v m) (m + b) <;> rw [e'] at q <;> first | exact False.elim q | exact trivial
    | hang => rw [e] at q; cases e' : s'.saveDestination (v m) (m + b) <;> rw [e'] at q <;> first | exact False.elim q | exact trivial
    | ok r =>
      rw [e] at q
      cases e' : s'.saveDestination (v m) (m + b) with
      | ub => rw [e'] at q; exact False.elim q
      | hang => rw [e'] at q; exact False.elim q
      | ok r' =>
        rw [e'] at q
        obtain ⟨q1, q2⟩ := q
        have hn := saveDestination_nextModel e
        obtain ⟨t, x⟩ := r
        obtain ⟨t', x'⟩ := r'
        dsimp only at q1 q2 hn
        subst q2
        refine agree_ite Iff.rfl (fun _ => ⟨q1, rfl⟩) fun _ => ih q1 fun x hx => ?_
        rw [hn]; exact hl x (List.mem_cons_of_mem _ hx)

theorem Spec.MovedBy.saveAll (w : MovedBy A c a b L L' s s') {v v' : Nat → MLState.SaveEnv} (hv : ∀ m, v' (m + b) = v m) :
    Agree (MovedRes (MovedBy A c a b L L')) (s.saveAll v) (s'.saveAll v') := by
  unfold MLState.saveAll
  rw [w.models]
  cases e : s.models with
  | none => exact ⟨w, rfl⟩
  | some l =>
    cases l with
    | nil => exact ⟨w, rfl⟩
    | cons m l => exact Spec.MovedBy.saveLoop hv (m :: l) w fun x hx => w.listed x (by rw [e]; exact hx)

theorem Spec.MovedBy.slotSaveDestination (w : MovedBy (SameActions c) c a b L L' s s') (v : MLState.SaveEnv) :
    Agree (MovedBy (SameActions c) c a b L L') (s.slotSaveDestination v) (s'.slotSaveDestination v) := by
  unfold MLState.slotSaveDestination
  rw [w.selectedModel]
  cases e : s.selectedModel with
  | none => exact w
  | some m =>
    refine (w.saveDestination v (w.selectedModelOk m e)).bind fun x y ⟨q, _⟩ => ?_
    refine Spec.MovedBy.emit (s := if x.1.canSave = true then _ else _) (s' := if y.1.canSave = true then _ else _) ?_ .updateActions
    rw [q.canSave, q.canSave']
    split
    · rename_i hc
      exact q.withActions ⟨q.actions.previousFile, q.actions.nextFile, q.actions.previousDifference, q.actions.nextDifference,
        fun _ => by rw [q.actions.writing hc]⟩
    · exact q

/-! ### Processes -/

theorem Spec.MovedBy.setInfo (w : MovedBy A c a b L L' s s') (i : Option Info) : MovedBy A c a b L L' (s.setInfo i) (s'.setInfo i) :=
  { w with info := rfl }

theorem Spec.MovedBy.saveDiff (w : MovedBy A c a b L L' s s') (e : Env) (t : Bool) (url dir : Str) (st : Option Settings) :
    Agree (MovedRes (MovedBy A c a b L L')) (s.saveDiff e t url dir st) (s'.saveDiff e t url dir st) := by
  unfold MLState.saveDiff
  have w1 : MovedBy A c a b L L' { s with diffTemp := true, diffURL := url } { s' with diffTemp := true, diffURL := url } :=
    { w with diffTemp := rfl, diffURL := rfl }
  refine agree_ite Iff.rfl (fun _ => ?_) fun _ => ?_
  · exact ⟨{ w1.emit (.error .tempFile) with diffTemp := rfl }, rfl⟩
  · dsimp only
    rw [w.info]
    cases s.info with
    | none => exact trivial
    | some i =>
      refine (Agree.eq (x := processArgs _ _ _ _ _ _)).bind fun p _ ep => ?_
      subst ep
      refine ⟨Spec.MovedBy.emit ?_ (.status .RunningDiff), rfl⟩
      exact { w with diffTemp := rfl, diffURL := rfl, process := rfl, info := rfl }

theorem Spec.MovedBy.slotWriteDiffOutput (w : MovedBy A c a b L L' s s') (x : Bool) (r : ProcessResult) :
    Agree (MovedBy A c a b L L') (s.slotWriteDiffOutput x r) (s'.slotWriteDiffOutput x r) := by
  refine agree_ite (by rw [w.diffTemp]) (fun _ => trivial) fun _ => ?_
  have key : MovedBy A c a b L L' (if r.finishedNormally = true then
        (if x then s.emit (.upload s.diffURL r.stdout) else s).emit (.status .FinishedWritingDiff) else s)
      (if r.finishedNormally = true then
        (if x then s'.emit (.upload s'.diffURL r.stdout) else s').emit (.status .FinishedWritingDiff) else s') := by
    rw [w.diffURL]
    split
    · split
      · exact (w.emit (.upload s.diffURL r.stdout)).emit (.status .FinishedWritingDiff)
      · exact w.emit (.status .FinishedWritingDiff)
    · exact w
  exact { key with diffURL := rfl, diffTemp := rfl, process := rfl }

/-! ### Opening -/

theorem Spec.MovedBy.clear (w : MovedBy A c a b L L' s s') : MovedBy A c a b L L' s.clear s'.clear := by
  unfold MLState.clear
  have e : s'.models.map (fun _ => ([] : List Nat)) = (s.models.map (fun _ => ([] : List Nat))).map (List.map (· + b)) := by
    rw [w.models]; cases s.models <;> rfl
  have w1 : MovedBy A c a b L L' { s with models := s.models.map (fun _ => []) } { s' with models := s'.models.map (fun _ => []) } :=
    { w with models := e, listed := by cases s.models <;> simp }
  have q := w1.emit (.modelsChanged (s.models.map (fun _ => [])))
  have e2 : moveEvent a b (.modelsChanged (s.models.map (fun _ => []))) = .modelsChanged (s'.models.map (fun _ => [])) := by rw [e]; rfl
  rw [e2] at q
  exact q

theorem Spec.MovedBy.show_ (w : MovedBy A c a b L L' s s') : MovedBy A c a b L L' s.show_ s'.show_ := by
  have q := (w.emit (.modelsChanged s.models)).emit (.selection s.selectedModel s.selectedDifference)
  have e1 : moveEvent a b (.modelsChanged s.models) = .modelsChanged s'.models := by rw [w.models]; rfl
  have e2 : moveEvent a b (.selection s.selectedModel s.selectedDifference) = .selection s'.selectedModel s'.selectedDifference := by
    rw [w.selectedModel, w.selectedDifference]; rfl
  rw [e1, e2] at q
  exact q

end KompareDiff2
