import Verif.Model.Reentrant
import Verif.Spec.Announce
/-
What receivers of the signals may call, and when.
-/
namespace KompareDiff2

/-- The operation passes only what belongs together whatever is selected. -/
def UserOp.Whole (s : MLState) : UserOp → Prop
  | .selectDiff _ => False
  | .select m d => m ∈ s.models.getD [] ∧ d ∈ (s.store m).differences ∧ d ∉ s.deadDiffs
  | .saveModel _ m => m ∈ s.models.getD []
  | _ => True

/-- The signals of an opening that come while there is nothing to select. -/
def Event.early : Event → Bool
  | .modelsChanged none | .modelsChanged (some []) => true
  | .status .Parsing => true
  | .diffString _ => true
  | .error .malformed => true
  | .error .couldNotParse => true
  | _ => false

/-- The receivers wait until there is something to select: while one of the early signals is delivered they call nothing. -/
def Receivers.Waits (f : Receivers) : Prop := ∀ log e, e.early = true → f (log ++ [e]) = []

/-- The receivers call nothing any more once `k` signals were sent. -/
def Receivers.StopsAfter (f : Receivers) (k : Nat) : Prop := ∀ log, k ≤ log.length → f log = []

end KompareDiff2
