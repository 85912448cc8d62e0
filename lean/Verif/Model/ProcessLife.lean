import Verif.Spec.Process
/-
What becomes of a diff process that is replaced while its program is running.  `Model/ModelList.lean` takes it to vanish silently; here its
destruction is modelled.  `~QProcess` of a running process kills the program and waits for it (Qt documentation of `QProcess::~QProcess`), and the
waiting emits `finished`, which is still connected to `KompareProcess::slotFinished` (kompareprocess.cpp:63), although `~KompareProcess` has ended.
-/
namespace KompareDiff2

/-- What is known of the program of `d->diffProcess`: it was started, or it could not be (then `QProcess` never emits `finished`). -/
inductive ProgramLife where
  | started
  | failed
  deriving Repr, DecidableEq

/-- The model list together with the life of its process, if it has one. -/
structure LifeState where
  ml : MLState
  life : ProgramLife := .started

/-- What is up to the outside: can the program be started; does calling a slot of an object whose destructor has run go well, as if the object were still
whole (`false`: it is undefined, as the language says); how does the killed program end; can the written diff be copied. -/
structure LifeEnv where
  starts : Bool := true
  survives : Bool := false
  dies : ProcessResult := ⟨9, .CrashExit, [], []⟩
  copyOk : Bool := true

namespace LifeState

/-- The signal sent by the dying process `old`, received by `slotDiffProcessFinished` or `slotWriteDiffOutput` (modellist.cpp:168, 528): `d->diffProcess`
is already the new process (`std::unique_ptr::operator=` stores the new pointer before it deletes the old object), which has no output and the exit status
of a process that never ran, modellist.cpp:428, 439, 545. -/
def dying (w : LifeEnv) (e : Env) (s : MLState) (old : ProcessUse) : Res MLState :=
  if w.survives = false then Res.ub
  else
    let r : ProcessResult := ⟨if w.dies.finishedNormally = true then 1 else 0, .NormalExit, [], []⟩
    match old with
    | .compare _ _ => s.slotDiffProcessFinished e r
    | .saveDiff _ _ _ => s.slotWriteDiffOutput w.copyOk r

/-- `d->diffProcess = std::make_unique<KompareProcess>(…)`, modellist.cpp:165, 525. -/
def assign (w : LifeEnv) (e : Env) (s : LifeState) (p : ProcessUse) : Res MLState :=
  match s.ml.process with
  | none => Res.ok { s.ml with process := some p }
  | some old =>
    if s.life = .started then dying w e { s.ml with process := some p } old
    else Res.ok { s.ml with process := some p }

/-- Assigning, `d->diffProcess->setEncoding(…)`, `Q_EMIT status(RunningDiff)` and `d->diffProcess->start()`, modellist.cpp:165-171, 525-531. -/
def launch (w : LifeEnv) (e : Env) (s : LifeState) (p : ProcessUse) : Res LifeState := do
  let t ← s.assign w e p
  match t.process with
  | none => Res.ub
  | some _ => Res.ok ⟨t.emit (.status .RunningDiff), if w.starts = true then .started else .failed⟩

/-- `compare(mode)`, modellist.cpp:159-174. -/
def compareMode (w : LifeEnv) (e : Env) (s : LifeState) (mode : Mode) : Res LifeState :=
  let m := s.ml.clear
  match m.info with
  | none => Res.ub
  | some i => do
    let p ← processArgs (e.relative []) m.settings .Custom mode i.localSource i.localDestination
    launch w e ⟨m, s.life⟩ (.compare p.1 p.2)

/-- The branches of `compare()` that read a diff: no process is touched, modellist.cpp:125-136, 142-153. -/
def openAndDiff (e : Env) (s : LifeState) (i : Info) : Res LifeState := do
  let r ← { s.ml with info := some i }.openAndDiff e
  Res.ok ⟨r.1, s.life⟩

/-- `compare()`, modellist.cpp:100-157. -/
def compare (w : LifeEnv) (e : Env) (s : LifeState) : Res LifeState :=
  match s.ml.info with
  | none => Res.ub
  | some i =>
    let sd := e.isDir i.localSource
    let dd := e.isDir i.localDestination
    if sd = true ∧ dd = true then
      compareMode w e ⟨{ s.ml with info := some { i with mode := .ComparingDirs } }, s.life⟩ .ComparingDirs
    else if sd = false ∧ dd = false then
      if e.isPatch i.localSource = false ∧ e.isPatch i.localDestination = true then s.openAndDiff e { i with mode := .BlendingFile }
      else if e.isPatch i.localSource = true ∧ e.isPatch i.localDestination = false then s.openAndDiff e { i with mode := .BlendingFile }.swap
      else compareMode w e ⟨{ s.ml with info := some { i with mode := .ComparingFiles } }, s.life⟩ .ComparingFiles
    else if sd = true ∧ dd = false then s.openAndDiff e { i with mode := .BlendingDir }
    else s.openAndDiff e { i with mode := .BlendingDir }.swap

/-- `refresh`, modellist.cpp:948-954. -/
def refresh (w : LifeEnv) (e : Env) (s : LifeState) : Res LifeState :=
  match s.ml.info with
  | none => Res.ub
  | some i => s.compareMode w e i.mode

/-- `swap`, modellist.cpp:956-965. -/
def swap (w : LifeEnv) (e : Env) (s : LifeState) : Res LifeState :=
  match s.ml.info with
  | none => Res.ub
  | some i => if i.mode = .ComparingFiles ∨ i.mode = .ComparingDirs then s.compareMode w e i.mode else Res.ok s

/-- `saveDiff`, modellist.cpp:510-534. -/
def saveDiff (w : LifeEnv) (e : Env) (tempOpens : Bool) (url dir : Str) (settings : Option Settings) (s : LifeState) : Res LifeState :=
  let m := { s.ml with diffTemp := true, diffURL := url }
  if tempOpens = false then Res.ok ⟨{ m.emit (.error .tempFile) with diffTemp := false }, s.life⟩
  else
    match m.info with
    | none => Res.ub
    | some i => do
      let p ← processArgs (e.relative dir) settings .Custom .UnknownMode i.localSource i.localDestination
      launch w e ⟨m, s.life⟩ (.saveDiff dir p.1 p.2)

/-- Any call.  The calls that start no process are those of `Model/ModelList.lean`. -/
def run (w : LifeEnv) (s : LifeState) : MLOp → Res LifeState
  | .compare e => s.compare w e
  | .refresh e => s.refresh w e
  | .swap e => s.swap w e
  | .saveDiff e ok url dir settings => s.saveDiff w e ok url dir settings
  | op => do
    let m ← op.run s.ml
    Res.ok ⟨m, s.life⟩

/-- `ModelList::~ModelList`, modellist.cpp:98: `d->diffProcess` (modellist_p.h:71) is destroyed; the signal of a running process would reach slots of objects
that are being destroyed. -/
def close (s : LifeState) : Res Unit :=
  match s.ml.process with
  | none => Res.ok ()
  | some _ => if s.life = .started then Res.ub else Res.ok ()

end LifeState
end KompareDiff2
