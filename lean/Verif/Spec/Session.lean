import Verif.Spec.ModelList
/-
Everything a client can do with a `ModelList` during its lifetime, in any order and in any state.
-/
namespace KompareDiff2

/-- One call on a `ModelList`.  Each carries the state of the outside world at that moment. -/
inductive MLOp where
  /-- the operations of a user, in any state (also with nothing open) -/
  | user (op : UserOp)
  /-- `slotSelectionChanged` with arbitrary pointers -/
  | select (m d : Option Nat)
  /-- `slotSelectionChanged` with an arbitrary pointer -/
  | selectDiff (d : Option Nat)
  | openDiff (e : Env) (file : Str)
  | parseAndOpenDiff (e : Env) (text : Str)
  | openFileAndDiff (e : Env)
  | compare (e : Env)
  | refresh (e : Env)
  | swap (e : Env)
  /-- the diff process has finished -/
  | diffFinished (e : Env) (r : ProcessResult)
  | setInfo (i : Option Info)
  | saveDiff (e : Env) (tempOpens : Bool) (url dir : Str) (settings : Option Settings)
  | diffWritten (copyOk : Bool) (r : ProcessResult)

/-- The call on the model list. -/
def MLOp.run : MLOp → MLState → Res MLState
  | .user op, s => op.run s
  | .select m d, s => s.slotSelectionChanged m d
  | .selectDiff d, s => s.slotDiffSelectionChanged d
  | .openDiff e f, s => do let r ← s.openDiff e f; Res.ok r.1
  | .parseAndOpenDiff e t, s => do let r ← s.parseAndOpenDiff e t; Res.ok r.1
  | .openFileAndDiff e, s => do let r ← s.openAndDiff e; Res.ok r.1
  | .compare e, s => do let r ← s.compare e; Res.ok r.1
  | .refresh e, s => s.refresh e
  | .swap e, s => s.swap e
  | .diffFinished e r, s => s.slotDiffProcessFinished e r
  | .setInfo i, s => Res.ok (s.setInfo i)
  | .saveDiff e t u d st, s => do let r ← s.saveDiff e t u d st; Res.ok r.1
  | .diffWritten c r, s => s.slotWriteDiffOutput c r

/-- A sequence of calls. -/
def runSession : List MLOp → MLState → Res MLState
  | [], s => Res.ok s
  | op :: ops, s => do
    let s ← op.run s
    runSession ops s

/-- The states a `ModelList` can be in: those reached from a new one by any calls without undefined behaviour. -/
def Reachable (s : MLState) : Prop :=
  ∃ settings rw heap ops, runSession ops (MLState.init settings rw heap) = Res.ok s

/-- The call opened a diff: it reported success and there are models.  (`compare()` also returns true when it only started the diff
program; its result counts here if the mode it chose is one that reads a diff file.) -/
def OpensDiff (op : MLOp) (s s' : MLState) : Prop :=
  match op with
  | .openDiff e f => s.openDiff e f = Res.ok (s', true)
  | .parseAndOpenDiff e t => s.parseAndOpenDiff e t = Res.ok (s', true)
  | .openFileAndDiff e => s.openAndDiff e = Res.ok (s', true)
  | .compare e => s.compare e = Res.ok (s', true) ∧ ∃ i, s'.info = some i ∧ (i.mode = .BlendingFile ∨ i.mode = .BlendingDir)
  | .diffFinished e r => s.slotDiffProcessFinished e r = Res.ok s' ∧ r.finishedNormally = true ∧ s'.models ≠ none
  | _ => False

/-- A diff was opened in some reachable state and after that only operations of a user (navigating, applying, saving, selecting)
with arguments that make sense were performed. -/
def InUse (s : MLState) : Prop :=
  ∃ s0 op s1 ops, Reachable s0 ∧ OpensDiff op s0 s1 ∧ (∀ o ∈ ops, UserOp.Ok s1 o) ∧ runUser ops s1 = Res.ok s

/-- The same call again and again. -/
def times (f : MLState → Res MLState) : Nat → MLState → Res MLState
  | 0, s => Res.ok s
  | n + 1, s => do
    let s ← f s
    times f n s

end KompareDiff2
