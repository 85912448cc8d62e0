import Verif.Proofs.MovedList
import Verif.Proofs.Opening
/-
Moving objects: opening a diff.
-/
namespace KompareDiff2
open Spec

variable {A : Actions → Actions → Prop} {c : Bool} {a b : Nat} {L L' : List Event} {s s' : MLState}

namespace MLState

/-- Nothing is selected. -/
def forget (s : MLState) : MLState := { s with selectedModel := none, selectedDifference := none, modelIndex := 0 }

/-- The models of the list are destroyed and nothing is selected. -/
def emptied (s : MLState) : MLState :=
  { s with
    models := none, selectedModel := none, selectedDifference := none, modelIndex := 0, dead := s.dead ++ s.models.getD []
    deadDiffs := s.deadDiffs ++ (s.models.getD []).flatMap (fun m => (s.store m).differences) }

/-- The models of a parsed diff are put into the list. -/
def putModels (r : ParseResult) (s : MLState) : MLState :=
  match r.models with
  | none => { s with heap := r.heap, models := none }
  | some ms => { (({ s with heap := r.heap } : MLState).install ms).2 with models := some (List.range' s.nextModel ms.length) }

theorem forget_reset (s : MLState) (r : ParseResult) : (s.resetModels r).forget = (s.emptied.putModels r).forget := by
  unfold resetModels putModels
  cases r.models <;> rfl

/-- What `parseDiffOutput` does after the list was replaced. -/
def afterReset (g : Generator) (f : Format) (malformed : Bool) (s : MLState) : Res (MLState × Bool) :=
  match s.info with
  | none => Res.ub
  | some i => do
    let s := { s with info := some { i with generator := some g, format := f } }
    match s.models with
    | none => Res.ok (s, false)
    | some _ => do
      let s := if malformed then s.emit (.error .malformed) else s
      let s ← s.firstModel
      let s ← s.selectFirst
      let dc ← s.differenceCount
      Res.ok (s.emit (.statusBar 0 0 s.modelCount dc 0), true)

theorem parseDiffOutput_eq (e : Env) (s : MLState) (text : Str) : s.parseDiffOutput e text =
    (parse e.win e.cmp s.heap (split text) >>= fun r => cleanUpCrap (split text) >>= fun cl =>
      ((s.emit (.diffString text)).resetModels r).afterReset (determineGenerator (split text))
        (determineFormat (determineGenerator (split text)) cl) r.malformed) := rfl

theorem first_forget (t : MLState) : (t.firstModel >>= fun s => s.selectFirst) = (t.forget.firstModel >>= fun s => s.selectFirst) := by
  unfold firstModel
  have e : t.forget.list = t.list := rfl
  rw [e]
  cases t.list with
  | ub => rfl
  | hang => rfl
  | ok l =>
    show (atR l 0 >>= _) >>= _ = (atR l 0 >>= _) >>= _
    cases atR l 0 <;> rfl

end MLState

theorem Spec.MovedBy.emptied (w : MovedBy A c a b L L' s s') : MovedBy A c a b L L' s.emptied s'.emptied := by
  have hg : s'.models.getD [] = (s.models.getD []).map (· + b) := by rw [w.models]; cases s.models <;> rfl
  refine { w with
      models := rfl, listed := fun _ q => (by cases q), selectedModel := rfl, selectedModelOk := fun _ q => (by cases q)
      selectedDifference := rfl, selectedDifferenceOk := fun _ q => (by cases q), modelIndex := rfl, dead := fun j => ?_, deadDiffs := fun i => ?_ }
  · show j + b ∈ s'.dead ++ s'.models.getD [] ↔ j ∈ s.dead ++ s.models.getD []
    rw [List.mem_append, List.mem_append, w.dead, hg, mem_map_add]
  · show i + a ∈ s'.deadDiffs ++ (s'.models.getD []).flatMap (fun m => (s'.store m).differences) ↔
      i ∈ s.deadDiffs ++ (s.models.getD []).flatMap (fun m => (s.store m).differences)
    rw [List.mem_append, List.mem_append, w.deadDiffs, hg, List.mem_flatMap, List.mem_flatMap]
    refine or_congr Iff.rfl ⟨?_, ?_⟩
    · rintro ⟨m, hm, hi⟩
      obtain ⟨j, hj, rfl⟩ := List.mem_map.1 hm
      rw [w.store j (w.listed j hj)] at hi
      exact ⟨j, hj, mem_map_add.1 hi⟩
    · rintro ⟨j, hj, hi⟩
      refine ⟨j + b, List.mem_map.2 ⟨j, hj, rfl⟩, ?_⟩
      rw [w.store j (w.listed j hj)]
      exact mem_map_add.2 hi

theorem Spec.MovedBy.putModels (w : MovedBy A c a b L L' s s') {r r' : ParseResult} (hr : MovedR a r r') (hn : s.heap.next ≤ r.heap.next) :
    MovedBy A c a b L L' (s.putModels r) (s'.putModels r') := by
  unfold MLState.putModels
  have w1 := w.withHeap hr.heap hn
  rw [hr.models]
  cases e : r.models with
  | none => exact { w1 with models := rfl, listed := fun _ q => (by cases q) }
  | some ms =>
    have hu : ∀ m ∈ ms, Uses r.heap.next m := fun m hm => hr.uses m (by rw [e]; exact hm)
    dsimp only [Option.map_some]
    rw [List.length_map]
    refine { w1 with
      nextModel := ?_, store := fun j hj => ?_, uses := fun j hj => ?_, models := ?_, listed := ?_
      selectedModelOk := fun m hm => Nat.lt_of_lt_of_le (w.selectedModelOk m hm) (Nat.le_add_right _ _) }
    · show s'.nextModel + (ms.map _).length = s.nextModel + ms.length + b
      rw [w.nextModel, List.length_map]; omega
    · show (if s'.nextModel ≤ j + b then ((ms.map (moveModel a))[j + b - s'.nextModel]?).getD (s'.store (j + b)) else s'.store (j + b)) =
        moveModel a (if s.nextModel ≤ j then (ms[j - s.nextModel]?).getD (s.store j) else s.store j)
      have hj : j < s.nextModel + ms.length := hj
      rw [w.nextModel]
      by_cases q : s.nextModel ≤ j
      · rw [if_pos q, if_pos (by omega), show j + b - (s.nextModel + b) = j - s.nextModel by omega, List.getElem?_map,
          List.getElem?_eq_getElem (show j - s.nextModel < ms.length by omega)]
        rfl
      · rw [if_neg q, if_neg (by omega)]
        exact w.store j (by omega)
    · show Uses r.heap.next (if s.nextModel ≤ j then (ms[j - s.nextModel]?).getD (s.store j) else s.store j)
      have hj : j < s.nextModel + ms.length := hj
      by_cases q : s.nextModel ≤ j
      · rw [if_pos q, List.getElem?_eq_getElem (show j - s.nextModel < ms.length by omega)]
        exact hu _ (List.getElem_mem _)
      · rw [if_neg q]
        exact w1.uses j (by show j < s.nextModel; omega)
    · show some (List.range' s'.nextModel ms.length) = some ((List.range' s.nextModel ms.length).map (· + b))
      rw [w.nextModel, show (fun x => x + b) = (fun x => b + x) from funext fun x => Nat.add_comm x b, List.map_add_range', Nat.add_comm]
    · intro m hm
      have := List.mem_range'_1.1 (show m ∈ List.range' s.nextModel ms.length from hm)
      show m < s.nextModel + ms.length
      omega

/-- What is known after the diff was read: with success everything is moved; otherwise if it was before. -/
def MovedParsed (R : MLState → MLState → Prop) (P : Prop) (x y : MLState × Bool) : Prop :=
  y.2 = x.2 ∧ (x.2 = true → R x.1 y.1) ∧ (P → R x.1 y.1)

theorem move_afterReset (g : Generator) (f : Format) (mal : Bool) {t t' : MLState} (w : MovedBy A c a b L L' t.forget t'.forget) :
    Agree (MovedParsed (MovedBy A c a b L L') (MovedBy A c a b L L' t t')) (t.afterReset g f mal) (t'.afterReset g f mal) := by
  unfold MLState.afterReset
  have hi : t'.info = t.info := w.info
  rw [hi]
  cases t.info with
  | none => exact trivial
  | some i =>
    have hm : t'.models = t.models.map (List.map (· + b)) := w.models
    dsimp only
    have w1 : MovedBy A c a b L L' ({ t with info := some { i with generator := some g, format := f } } : MLState).forget
        ({ t' with info := some { i with generator := some g, format := f } } : MLState).forget := { w with info := rfl }
    cases e : t.models with
    | none =>
      rw [hm, e]
      refine ⟨rfl, fun q => (by cases q), fun w => ?_⟩
      exact { w with info := rfl, models := rfl, listed := fun _ q => (by cases q) }
    | some l =>
      rw [hm, e]
      dsimp only [Option.map_some]
      have key : ∀ (x x' : MLState), MovedBy A c a b L L' x.forget x'.forget →
          Agree (MovedParsed (MovedBy A c a b L L') (MovedBy A c a b L L' t t'))
            ((x.firstModel >>= fun s => s.selectFirst) >>= fun s => s.differenceCount >>= fun dc => Res.ok (s.emit (.statusBar 0 0 s.modelCount dc 0), true))
            ((x'.firstModel >>= fun s => s.selectFirst) >>= fun s => s.differenceCount >>= fun dc => Res.ok (s.emit (.statusBar 0 0 s.modelCount dc 0), true)) := by
        intro x x' w
        rw [MLState.first_forget x, MLState.first_forget x']
        refine (w.firstModel.bind fun _ _ w => w.selectFirst).bind fun y y' w => w.differenceCount.bind fun dc _ e => ?_
        subst e
        rw [w.modelCount]
        have q := w.emit (.statusBar 0 0 y.modelCount dc 0)
        exact ⟨rfl, fun _ => q, fun _ => q⟩
      have assoc : ∀ (x : MLState), (x.firstModel >>= fun s => s.selectFirst >>= fun s => s.differenceCount >>= fun dc =>
            Res.ok (s.emit (.statusBar 0 0 s.modelCount dc 0), true)) =
          ((x.firstModel >>= fun s => s.selectFirst) >>= fun s => s.differenceCount >>= fun dc =>
            Res.ok (s.emit (.statusBar 0 0 s.modelCount dc 0), true)) := by
        intro x; cases x.firstModel <;> rfl
      rw [assoc, assoc]
      have w2 : MovedBy A c a b L L' ({ t with info := some { i with generator := some g, format := f }, models := some l } : MLState).forget
        ({ t' with info := some { i with generator := some g, format := f }, models := some (l.map (· + b)) } : MLState).forget :=
        { w with info := rfl, models := rfl, listed := fun m hm => w.listed m (by show m ∈ t.models.getD []; rw [e]; exact hm) }
      cases mal
      · exact key _ _ w2
      · exact key _ _ (w2.emit (.error .malformed))

theorem move_parseDiffOutput (e : Env) (text : Str) (h : HeapMoved a s.heap s'.heap) (w : MovedBy A c a b L L' s.emptied s'.emptied) :
    Agree (MovedParsed (MovedBy A c a b L L') (MovedBy A c a b L L' s s')) (s.parseDiffOutput e text) (s'.parseDiffOutput e text) := by
  rw [MLState.parseDiffOutput_eq, MLState.parseDiffOutput_eq]
  have hp := move_parse e.win e.cmp (split text) h
  cases er : parse e.win e.cmp s.heap (split text) with
  | ub => rw [er] at hp; cases er' : parse e.win e.cmp s'.heap (split text) <;> rw [er'] at hp <;> first | exact False.elim hp | exact trivial
  | hang => rw [er] at hp; cases er' : parse e.win e.cmp s'.heap (split text) <;> rw [er'] at hp <;> first | exact False.elim hp | exact trivial
  | ok r =>
    rw [er] at hp
    cases er' : parse e.win e.cmp s'.heap (split text) with
    | ub => rw [er'] at hp; exact False.elim hp
    | hang => rw [er'] at hp; exact False.elim hp
    | ok r' =>
      rw [er'] at hp
      have hp : MovedR a r r' := hp
      have hx := (parse_models er).1
      refine (Agree.eq (x := cleanUpCrap (split text))).bind fun cl _ ec => ?_
      subst ec
      rw [hp.malformed]
      have hw : MovedBy A c a b L L' ((s.emit (.diffString text)).resetModels r).forget ((s'.emit (.diffString text)).resetModels r').forget := by
        rw [MLState.forget_reset, MLState.forget_reset]
        have q := (w.emit (.diffString text)).putModels hp hx.1
        exact { q with
          selectedModel := rfl, selectedModelOk := fun _ q => (by cases q), selectedDifference := rfl
          selectedDifferenceOk := fun _ q => (by cases q), modelIndex := rfl }
      refine (move_afterReset _ _ _ hw).mono fun x y q => ⟨q.1, q.2.1, fun w => q.2.2 ?_⟩
      have w1 := w.emit (.diffString text)
      have e1 : ∀ (z : MLState) (r : ParseResult), (z.resetModels r).selectedModel = z.selectedModel ∧
          (z.resetModels r).selectedDifference = z.selectedDifference ∧ (z.resetModels r).modelIndex = z.modelIndex := by
        intro z r; unfold MLState.resetModels; cases r.models <;> exact ⟨rfl, rfl, rfl⟩
      have e2 : ∀ (z : MLState) (r : ParseResult), z.nextModel ≤ (z.resetModels r).nextModel ∧ (z.resetModels r).heap = r.heap := by
        intro z r; unfold MLState.resetModels; cases r.models
        · exact ⟨Nat.le_refl _, rfl⟩
        · exact ⟨Nat.le_add_right _ _, rfl⟩
      obtain ⟨p1, p2, p3⟩ := e1 (s.emit (.diffString text)) r
      obtain ⟨p1', p2', p3'⟩ := e1 (s'.emit (.diffString text)) r'
      obtain ⟨n1, n2⟩ := e2 (s.emit (.diffString text)) r
      exact { hw with
        selectedModel := by rw [p1, p1']; exact w.selectedModel
        selectedModelOk := fun m hm => by
          rw [p1] at hm
          exact Nat.lt_of_lt_of_le (w.selectedModelOk m hm) n1
        selectedDifference := by rw [p2, p2']; exact w.selectedDifference
        selectedDifferenceOk := fun m hm => by
          rw [p2] at hm
          rw [n2]
          exact Nat.lt_of_lt_of_le (w.selectedDifferenceOk m hm) hx.1
        modelIndex := by rw [p3, p3']; exact w.modelIndex }

end KompareDiff2
