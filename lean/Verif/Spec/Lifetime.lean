import Verif.Spec.Process
/-
When objects are destroyed: `MLState.dead` and `MLState.deadDiffs` list the models and differences whose destructor was run, in that order
and as often as it was run.
-/
namespace KompareDiff2
namespace Spec

/-- The pointers `l` may be followed: none of these models is destroyed, nor any of their differences. -/
def Alive (s : MLState) (l : List Nat) : Prop := ∀ m ∈ l, m ∉ s.dead ∧ ∀ d ∈ (s.store m).differences, d ∉ s.deadDiffs

/-- The call takes the models out of the list (to show something else). -/
def TakesOut : MLOp → Prop
  | .openDiff _ file => file ≠ []
  | .parseAndOpenDiff _ _ => True
  | .openFileAndDiff _ => True
  | .compare _ => True
  | .refresh _ => True
  | _ => False

instance (op : MLOp) : Decidable (TakesOut op) := by
  unfold TakesOut; split <;> infer_instance

/-- The call, which ended in the state `s'`, read a diff from a file or string given by the client. -/
def ReadsDiff (s' : MLState) : MLOp → Prop
  | .openDiff _ _ => True
  | .parseAndOpenDiff _ _ => True
  | .openFileAndDiff _ => True
  | .compare _ => ∃ i, s'.info = some i ∧ i.mode ≠ .ComparingFiles ∧ i.mode ≠ .ComparingDirs
  | _ => False

/-- The calls in which the output of a comparison is read. -/
def Finishes : MLOp → Prop
  | .diffFinished _ _ => True
  | _ => False

/-- What a call destroys: only when the output of a comparison is read, and the diff program exited normally with a code other than 0, the
models that are in the list at that moment, with their differences. -/
def DestroyedBy (s s' : MLState) : MLOp → Prop
  | .diffFinished _ r =>
    if r.exitStatus = .NormalExit ∧ r.exitCode ≠ 0 then
      s'.dead = s.dead ++ s.models.getD [] ∧ s'.deadDiffs = s.deadDiffs ++ (s.models.getD []).flatMap (fun m => (s.store m).differences)
    else s'.dead = s.dead ∧ s'.deadDiffs = s.deadDiffs
  | _ => s'.dead = s.dead ∧ s'.deadDiffs = s.deadDiffs

/-- Histories in which no diff is read while a comparison is running. -/
inductive OneAtATime : List MLOp → MLState → Prop
  | new (settings : Option Settings) (readWrite : Bool) (heap : Heap) : OneAtATime [] (MLState.init settings readWrite heap)
  | call {ops : List MLOp} {s s' : MLState} {op : MLOp} : OneAtATime ops s → op.Scheduled s → op.run s = Res.ok s' →
      (ReadsDiff s' op → ∀ args input, s.process ≠ some (.compare args input)) → OneAtATime (ops ++ [op]) s'

end Spec
end KompareDiff2
