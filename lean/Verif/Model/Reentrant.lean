import Verif.Spec.ModelList
/-
Receivers of the signals of the `ModelList` that call its slots (directly connected slots run inside the `Q_EMIT`).  The slots are those of
`Model/ModelList.lean`, cut at every `Q_EMIT`; `call` stands for what the connected receivers do.
-/
namespace KompareDiff2
namespace MLState

/-- `Q_EMIT setStatusBarModelInfo(…)` with receivers: the arguments are evaluated first, e.g. modellist.cpp:595-599. -/
def statusBarR (call : MLState → Res MLState) (s : MLState) : Res MLState := do
  let s ← s.emitStatusBar
  call s

/-- `Q_EMIT setSelection(…); Q_EMIT setStatusBarModelInfo(…); d->updateModelListActions();`, e.g. modellist.cpp:644-647. -/
def finishR (call : MLState → Res MLState) (r : MLState × Event) : Res MLState := do
  let s ← call (r.1.emit r.2)
  let s ← s.statusBarR call
  s.updateActions

/-- `setSelection(d->selectedModel, d->selectedDifference)` with the state it is emitted in. -/
def withSelection (s : MLState) : MLState × Event := (s, .selection s.selectedModel s.selectedDifference)

/-- `slotPreviousModel` up to its first signal, modellist.cpp:630-643. -/
def previousModelPre (s : MLState) : Res (MLState × Event) := do
  let s ← s.prevModel
  if s.selectedModel ≠ none then do
    let s ← s.selectFirst
    Res.ok s.withSelection
  else do
    let s ← s.firstModel
    let s ← s.selectFirst
    Res.ok s.withSelection

/-- `slotNextModel` up to its first signal, modellist.cpp:650-663. -/
def nextModelPre (s : MLState) : Res (MLState × Event) := do
  let s ← s.nextModel_
  if s.selectedModel ≠ none then do
    let s ← s.selectFirst
    Res.ok s.withSelection
  else do
    let s ← s.lastModel
    let s ← s.selectFirst
    Res.ok s.withSelection

/-- `slotPreviousDifference` up to its first signal, modellist.cpp:691-730. -/
def previousDifferencePre (s : MLState) : Res (MLState × Event) := do
  let m ← s.model s.selectedModel
  let s ← s.selectWith m DModel.prevDifference
  if s.selectedDifference ≠ none then Res.ok (s, .diffSelection s.selectedDifference)
  else do
    let s ← s.prevModel
    if s.selectedModel ≠ none then do
      let s ← s.selectLast
      Res.ok s.withSelection
    else do
      let s ← s.firstModel
      let s ← s.selectFirst
      Res.ok s.withSelection

/-- `slotNextDifference` up to its first signal, modellist.cpp:737-776. -/
def nextDifferencePre (s : MLState) : Res (MLState × Event) := do
  let m ← s.model s.selectedModel
  let s ← s.selectWith m DModel.nextDifference
  if s.selectedDifference ≠ none then Res.ok (s, .diffSelection s.selectedDifference)
  else do
    let s ← s.nextModel_
    if s.selectedModel ≠ none then do
      let s ← s.selectFirst
      Res.ok s.withSelection
    else do
      let s ← s.lastModel
      let s ← s.selectLast
      Res.ok s.withSelection

/-- `slotSelectionChanged(model, diff)` up to its first signal, modellist.cpp:566-593. -/
def selectionPre (s : MLState) (model diff : Option Nat) : Res (MLState × Event) := do
  let l ← s.list
  let s := { s with selectedModel := model, modelIndex := indexOfPtr l model, selectedDifference := diff }
  let m ← s.model s.selectedModel
  let s := s.setModel m ((s.store m).setSelectedDifference s.selectedDifference).1
  let r ← s.setSelectedModel s.selectedModel
  match r with
  | none => do
    let s ← s.firstModel
    let s ← s.selectFirst
    Res.ok (s, .selection model diff)
  | some s => do
    let m ← s.model s.selectedModel
    let r := (s.store m).setSelectedDifference s.selectedDifference
    let s := s.setModel m r.1
    if r.2 = false then do
      let s ← s.selectFirst
      Res.ok (s, .selection model diff)
    else Res.ok (s, .selection model diff)

/-- `slotSelectionChanged(diff)` up to its first signal, modellist.cpp:604-619. -/
def diffSelectionPre (s : MLState) (diff : Option Nat) : Res (MLState × Event) := do
  let s := { s with selectedDifference := diff }
  let m ← s.model s.selectedModel
  let r := (s.store m).setSelectedDifference s.selectedDifference
  let s := s.setModel m r.1
  if r.2 = false then do
    let s ← s.selectFirst
    Res.ok (s, .diffSelection diff)
  else Res.ok (s, .diffSelection diff)

/-- `slotApplyDifference` with receivers, modellist.cpp:783-789. -/
def applyR (call : MLState → Res MLState) (s : MLState) (b : Bool) : Res MLState := do
  let s ← s.slotApplyDifference b
  call s

/-- `slotApplyAllDifferences` with receivers, modellist.cpp:791-797. -/
def applyAllR (call : MLState → Res MLState) (s : MLState) (b : Bool) : Res MLState := do
  let s ← s.slotApplyAllDifferences b
  call s

/-- The conditional call of `slotApplyDifference` in the two actions, modellist.cpp:1012-1013, 1022-1023. -/
def applyIfR (call : MLState → Res MLState) (s : MLState) (b : Bool) : Res MLState := do
  let d ← s.diff s.selectedDifference
  if (s.heap.cell d).applied = !b then s.applyR call b else Res.ok s

/-- `slotActionApplyDifference` with receivers, modellist.cpp:1008-1016. -/
def actionApplyR (call : MLState → Res MLState) (s : MLState) : Res MLState := do
  let s ← s.applyIfR call true
  let p ← s.nextDifferencePre
  let s ← finishR call p
  s.updateActions

/-- `slotActionUnApplyDifference` with receivers, modellist.cpp:1018-1026. -/
def actionUnapplyR (call : MLState → Res MLState) (s : MLState) : Res MLState := do
  let s ← s.applyIfR call false
  let p ← s.previousDifferencePre
  let s ← finishR call p
  s.updateActions

/-- `Q_EMIT error(…); return b;`, e.g. modellist.cpp:256-258. -/
def errorR (call : MLState → Res MLState) (s : MLState) (e : ErrorKind) (b : Bool) : Res (MLState × Bool) := do
  let s ← call (s.emit (.error e))
  Res.ok (s, b)

/-- `saveDestination` with receivers, modellist.cpp:243-370: every failure is signalled, after it nothing of the state is used any more;
a successful save sends no signal.  (The event loops inside are the subject of C56.) -/
def saveDestinationR (call : MLState → Res MLState) (v : SaveEnv) (s : MLState) (m : Nat) : Res (MLState × Bool) := do
  let m ← s.model (some m)
  if (s.store m).hasUnsavedChanges s.heap = false then Res.ok (s, true)
  else if v.tempOpens = false then s.errorR call .tempFile false
  else if v.writeOk = false then s.errorR call .tempFile false
  else if v.closeOk = false then s.errorR call .tempFile false
  else
    match s.info with
    | none => Res.ub
    | some i =>
      if i.mode = .ComparingDirs ∧ v.statOk = false ∧ v.mkdirOk = false then s.errorR call .mkdir false
      else if v.copyOk = false then s.errorR call .upload true
      else s.saveDestination v m

/-- The loop of `saveAll` with receivers, modellist.cpp:379-382. -/
def saveLoopR (call : MLState → Res MLState) (v : Nat → SaveEnv) : List Nat → MLState → Res (MLState × Bool)
  | [], s => Res.ok (s, true)
  | m :: ms, s => do
    let r ← s.saveDestinationR call (v m) m
    if r.2 = false then Res.ok r else saveLoopR call v ms r.1

/-- `saveAll` with receivers, modellist.cpp:372-385. -/
def saveAllR (call : MLState → Res MLState) (v : Nat → SaveEnv) (s : MLState) : Res (MLState × Bool) :=
  match s.models with
  | none => Res.ok (s, false)
  | some [] => Res.ok (s, false)
  | some l => saveLoopR call v l s

/-- `slotSaveDestination` with receivers, modellist.cpp:230-241. -/
def slotSaveR (call : MLState → Res MLState) (v : SaveEnv) (s : MLState) : Res MLState :=
  match s.selectedModel with
  | none => Res.ok s
  | some m => do
    let r ← s.saveDestinationR call v m
    let s := if r.1.canSave = true then { r.1 with actions := { r.1.actions with save := false } } else r.1
    call (s.emit .updateActions)

end MLState

/-- The operation on the model list, with receivers. -/
def UserOp.runR (call : MLState → Res MLState) : UserOp → MLState → Res MLState
  | .nextDifference, s => s.nextDifferencePre >>= MLState.finishR call
  | .previousDifference, s => s.previousDifferencePre >>= MLState.finishR call
  | .nextFile, s => s.nextModelPre >>= MLState.finishR call
  | .previousFile, s => s.previousModelPre >>= MLState.finishR call
  | .select m d, s => s.selectionPre (some m) (some d) >>= MLState.finishR call
  | .selectDiff d, s => s.diffSelectionPre (some d) >>= MLState.finishR call
  | .apply, s => s.actionApplyR call
  | .unapply, s => s.actionUnapplyR call
  | .applyAll, s => do
    let s ← s.applyAllR call true
    s.updateActions
  | .unapplyAll, s => do
    let s ← s.applyAllR call false
    s.updateActions
  | .applySlot b, s => s.applyR call b
  | .applyAllSlot b, s => s.applyAllR call b
  | .setReadWrite b, s => s.setReadWrite b
  | .save v, s => s.slotSaveR call v
  | .saveModel v m, s => do
    let r ← s.saveDestinationR call v m
    Res.ok r.1
  | .saveAll v, s => do
    let r ← s.saveAllR call v
    Res.ok r.1

/-- The slots the receivers call while a signal is delivered, given everything that was signalled so far. -/
abbrev Receivers := List Event → List UserOp

/-- Calls one after the other. -/
def callsR (run : UserOp → MLState → Res MLState) : List UserOp → MLState → Res MLState
  | [], s => Res.ok s
  | op :: ops, s => do
    let s ← run op s
    callsR run ops s

/-- What the receivers do while a signal is delivered; the signals sent by the slots they call are delivered to them in turn.  If that
goes deeper than `n` it counts as endless. -/
def Receivers.react (f : Receivers) : Nat → MLState → Res MLState
  | 0, s => if f s.log = [] then Res.ok s else Res.hang
  | n + 1, s => callsR (UserOp.runR (f.react n)) (f s.log) s

/-- Operations of the user, with receivers. -/
def runUserR (f : Receivers) (n : Nat) (ops : List UserOp) (s : MLState) : Res MLState := callsR (UserOp.runR (f.react n)) ops s

namespace MLState

/-- `clear` with receivers, modellist.cpp:938-946. -/
def clearR (call : MLState → Res MLState) (s : MLState) : Res MLState := call s.clear

/-- The selection of the first difference and the status bar at the end of `parseDiffOutput`, modellist.cpp:823-826. -/
def openFirstR (call : MLState → Res MLState) (s : MLState) : Res (MLState × Bool) := do
  let s ← s.firstModel
  let s ← s.selectFirst
  let dc ← s.differenceCount
  let s ← call (s.emit (.statusBar 0 0 s.modelCount dc 0))
  Res.ok (s, true)

/-- `parseDiffOutput` with receivers, modellist.cpp:799-834. -/
def parseDiffOutputR (call : MLState → Res MLState) (e : Env) (s : MLState) (text : Str) : Res (MLState × Bool) := do
  let s ← call (s.emit (.diffString text))
  let r ← parse e.win e.cmp s.heap (split text)
  let cleaned ← cleanUpCrap (split text)
  let g := determineGenerator (split text)
  let s := s.resetModels r
  match s.info with
  | none => Res.ub
  | some i => do
    let s := { s with info := some { i with generator := some g, format := determineFormat g cleaned } }
    match s.models with
    | none => Res.ok (s, false)
    | some _ =>
      if r.malformed then do
        let s ← call (s.emit (.error .malformed))
        openFirstR call s
      else openFirstR call s

/-- `show` with receivers, modellist.cpp:880-887. -/
def showR (call : MLState → Res MLState) (s : MLState) : Res MLState := do
  let s ← call (s.emit (.modelsChanged s.models))
  call (s.emit (.selection s.selectedModel s.selectedDifference))

/-- `parseAndOpenDiff` with receivers, modellist.cpp:477-495. -/
def parseAndOpenDiffR (call : MLState → Res MLState) (e : Env) (s : MLState) (text : Str) : Res (MLState × Bool) := do
  let s ← s.clearR call
  let s ← call (s.emit (.status .Parsing))
  let r ← s.parseDiffOutputR call e text
  if r.2 = false then do
    let s ← call (r.1.emit (.error .couldNotParse))
    Res.ok (s, false)
  else do
    let s ← r.1.updateActions
    let s ← s.showR call
    let s ← call (s.emit (.status .FinishedParsing))
    Res.ok (s, true)

/-- `openDiff` with receivers, modellist.cpp:449-475. -/
def openDiffR (call : MLState → Res MLState) (e : Env) (s : MLState) (file : Str) : Res (MLState × Bool) :=
  if file = [] then Res.ok (s, false)
  else do
    let text := e.contents file
    let s ← s.clearR call
    let s ← call (s.emit (.status .Parsing))
    let r ← s.parseDiffOutputR call e text
    if r.2 = false then do
      let s ← call (r.1.emit (.error .couldNotParse))
      Res.ok (s, false)
    else do
      let s ← r.1.updateActions
      let s ← s.showR call
      let s ← call (s.emit (.status .FinishedParsing))
      Res.ok (s, true)

end MLState
end KompareDiff2
