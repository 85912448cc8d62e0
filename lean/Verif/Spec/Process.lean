import Verif.Spec.Session
/-
Histories of calls in which the signals of the diff process arrive only from the process that is running, and file names as seen from a
working directory.
-/
namespace KompareDiff2

/-- A call that can happen in the state: the end of a process is only reported while one is running, to the slot that it was
connected to when it was started; everything else can be called at any time. -/
def MLOp.Scheduled (s : MLState) : MLOp → Prop
  | .diffFinished _ _ => ∃ args input, s.process = some (.compare args input)
  | .diffWritten _ _ => ∃ dir args input, s.process = some (.saveDiff dir args input)
  | _ => True

/-- The states reached from a new `ModelList` by a history of calls. -/
inductive History : List MLOp → MLState → Prop
  | new (settings : Option Settings) (readWrite : Bool) (heap : Heap) : History [] (MLState.init settings readWrite heap)
  | call {ops : List MLOp} {s s' : MLState} {op : MLOp} : History ops s → op.Scheduled s → op.run s = Res.ok s' → History (ops ++ [op]) s'

namespace Spec

/-- The last call of `saveDiff`: its target and whether the temporary file could be opened. -/
def lastSave : List MLOp → Option (Str × Bool)
  | [] => none
  | op :: ops =>
    match lastSave ops with
    | some x => some x
    | none =>
      match op with
      | .saveDiff _ ok url _ _ => some (url, ok)
      | _ => none

/-- Which process is running after a call. -/
def NextProcess (s s' : MLState) : MLOp → Prop
  | .compare _ => ∃ i i', s.info = some i ∧ s'.info = some i' ∧
      (if i'.mode = .ComparingFiles ∨ i'.mode = .ComparingDirs then
        ∃ args, processArgs id s.settings .Custom i'.mode i.localSource i.localDestination = Res.ok args ∧
          s'.process = some (.compare args.1 args.2)
       else s'.process = s.process)
  | .refresh _ => ∃ i args, s.info = some i ∧ processArgs id s.settings .Custom i.mode i.localSource i.localDestination = Res.ok args ∧
      s'.process = some (.compare args.1 args.2)
  | .swap _ => ∃ i, s.info = some i ∧
      (if i.mode = .ComparingFiles ∨ i.mode = .ComparingDirs then
        ∃ args, processArgs id s.settings .Custom i.mode i.localSource i.localDestination = Res.ok args ∧
          s'.process = some (.compare args.1 args.2)
       else s'.process = s.process)
  | .saveDiff e true _ dir settings => ∃ i args, s.info = some i ∧
      processArgs (e.relative dir) settings .Custom .UnknownMode i.localSource i.localDestination = Res.ok args ∧
      s'.process = some (.saveDiff dir args.1 args.2)
  | .diffFinished _ _ => s'.process = none
  | .diffWritten _ _ => s'.process = none
  | _ => s'.process = s.process

/-- The file a name stands for in a working directory: an absolute name stands for itself. -/
def resolve (dir name : Str) : Str :=
  if name.head? = some '/' then name
  else if dir.getLast? = some '/' then dir ++ name
  else dir ++ '/' :: name

/-- A string that `QUrl` takes as the path it is: no scheme, no authority, nothing that is special in a URL. -/
def PlainPath (url : Str → Url) (p : Str) : Prop := url p = { valid := true, scheme := [], authority := [], path := p }

instance (url : Str → Url) (p : Str) : Decidable (PlainPath url p) := inferInstanceAs (Decidable (_ = _))

end Spec
end KompareDiff2
