import Verif.Model.Edit
import Verif.Spec.Session
/-
Specification vocabulary for editing models of an open diff.
-/
namespace KompareDiff2

/-- A diff was opened in the state `s1`; after that the user navigated, applied, saved and selected, and the client edited models, in any order;
every edit was defined and left the edited model at least one difference. -/
inductive EditedFrom (s1 : MLState) : MLState → Prop where
  | opened : EditedFrom s1 s1
  | user {s s' : MLState} (op : UserOp) : EditedFrom s1 s → op.Ok s → op.run s = Res.ok s' → EditedFrom s1 s'
  | edit {s s' : MLState} (hash : Str → Nat) (m : Nat) (old new : List Str) (line : Int) (ins rem : List Nat) : EditedFrom s1 s →
      m ∈ s.models.getD [] → s.edit hash m old new line = Res.ok (s', ins, rem) → (s'.store m).differences ≠ [] → EditedFrom s1 s'

namespace Spec

/-- The text `t` consists of the lines of the file that `m` described when `h` was current: for each difference of its hunks, in their order,
either its old or its new lines. -/
def Mix (m : DModel) (h : Heap) (t : Str) : Prop :=
  ∃ old : Nat → Bool, t =
    ((m.hunks.flatMap (fun k => k.diffs)).flatMap (fun i => ((if old i = true then (h.cell i).source else (h.cell i).dest).map DStr.string))).flatten

/-- The text with, for each difference of the hunks, its old lines if it is marked as applied and its new lines otherwise. -/
def fileText (m : DModel) (h : Heap) : Str :=
  ((m.hunks.flatMap (fun k => k.diffs)).flatMap
    (fun i => ((if (h.cell i).applied = true then (h.cell i).source else (h.cell i).dest).map DStr.string))).flatten

/-- There is a selection: one of the models, and an existing difference that this model regards as the selected one. -/
def HasSelection (s : MLState) : Prop :=
  ∃ (ms : List Nat) (k m d : Nat), s.models = some ms ∧ ms[k]? = some m ∧ s.modelIndex = (k : Int) ∧ s.selectedModel = some m ∧ s.selectedDifference = some d ∧
    (s.store m).selected = some d ∧ d ∉ s.deadDiffs

end Spec
end KompareDiff2
