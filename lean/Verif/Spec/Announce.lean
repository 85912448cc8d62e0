import Verif.Spec.Session
/-
A listener: what a view knows that only hears the signals of a `ModelList`.
-/
namespace KompareDiff2
namespace Spec

/-- The contents of the status bar: number of the file, number of the difference, number of files, number of differences in the file,
number of applied ones. -/
structure Bar where
  model : Int
  diff : Int
  models : Int
  diffs : Int
  applied : Int
  deriving Repr, DecidableEq

/-- What the listener believes to be selected, and the status bar. -/
structure Listener where
  model : Option Nat := none
  diff : Option Nat := none
  bar : Option Bar := none
  deriving Repr, DecidableEq

/-- One signal: `setSelection(model, diff)`, `setSelection(diff)` (in the same file), `setStatusBarModelInfo`. -/
def Listener.hear (l : Listener) : Event → Listener
  | .selection m d => { l with model := m, diff := d }
  | .diffSelection d => { l with diff := d }
  | .statusBar m d ms ds a => { l with bar := some ⟨m, d, ms, ds, a⟩ }
  | _ => l

/-- All signals since the `ModelList` was created. -/
def heard (log : List Event) : Listener := log.foldl Listener.hear {}

/-- The listener knows what is selected, and the status bar shows what the getters return, except perhaps the number of applied
differences. -/
structure Announced (s : MLState) : Prop where
  model : (heard s.log).model = s.selectedModel
  diff : (heard s.log).diff = s.selectedDifference
  bar : ∃ b, (heard s.log).bar = some b ∧ s.currentModel = Res.ok b.model ∧ s.currentDifference = Res.ok b.diff ∧
    s.modelCount = b.models ∧ s.differenceCount = Res.ok b.diffs

/-- The status bar shows the number of applied differences of the selected file. -/
def CountShown (s : MLState) : Prop := ∃ b, (heard s.log).bar = some b ∧ s.appliedCount = Res.ok b.applied

end Spec

/-- The operation passes only what belongs together: a difference of the file, a file of the list. -/
def UserOp.Proper (s : MLState) : UserOp → Prop
  | .select m d => m ∈ s.models.getD [] ∧ d ∈ (s.store m).differences
  | .selectDiff d => ∃ m, s.selectedModel = some m ∧ d ∈ (s.store m).differences
  | .saveModel _ m => m ∈ s.models.getD []
  | _ => True

/-- Operations that move or set the selection. -/
def UserOp.selects : UserOp → Bool
  | .nextDifference | .previousDifference | .nextFile | .previousFile | .select _ _ | .selectDiff _ | .apply | .unapply => true
  | _ => false

/-- Operations that can change which differences are applied without moving the selection. -/
def UserOp.applies : UserOp → Bool
  | .applyAll | .unapplyAll | .applySlot _ | .applyAllSlot _ => true
  | _ => false

/-- A diff was opened in some reachable state and after that only proper operations of a user were performed. -/
inductive ProperUse : MLState → Prop
  | opened {s0 s1 : MLState} {op : MLOp} : Reachable s0 → OpensDiff op s0 s1 → ProperUse s1
  | step {s s' : MLState} {op : UserOp} : ProperUse s → op.Proper s → op.run s = Res.ok s' → ProperUse s'

end KompareDiff2
