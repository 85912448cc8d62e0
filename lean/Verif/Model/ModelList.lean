import Verif.Model.Blend
/-
Model of `ModelList` and `ModelListPrivate` (modellist.{h,cpp}, modellist_p.{h,cpp}) as a state machine.

Pointers to `DiffModel` objects are numbers (`store`), pointers to `Difference` objects are addresses of `heap`; null is `none`.
What the outside world contributes (files, success of transfers, the result of the diff process) is an argument of the operations.
Signals and uploads are recorded in `log`; receivers of signals are assumed not to call back during the emission.
The text codecs are in `Model/Encoding`; translations and debug output are not modelled (`qCDebug(… sender() …)` is only evaluated when debugging is on).
-/
namespace KompareDiff2

/-- The kinds of error messages. -/
inductive ErrorKind where
  | notADiff
  | blendProblem
  | couldNotParse
  | malformed
  | identical
  | stderr (s : Str)
  | tempFile
  | mkdir
  | upload
  deriving Repr, DecidableEq

/-- Observable events: the signals of `ModelList` (modellist.h:102-113) and files written by it. -/
inductive Event where
  | status (s : Status)
  | statusBar (model diff models diffs applied : Int)
  | error (e : ErrorKind)
  | modelsChanged (ms : Option (List Nat))
  | selection (m d : Option Nat)
  | diffSelection (d : Option Nat)
  | applyDifference (b : Bool)
  | applyAll (b : Bool)
  | diffString (s : Str)
  | updateActions
  | upload (target content : Str)
  deriving Repr, DecidableEq

/-- The enabled flags of the actions (modellist_p.h:75-84). -/
structure Actions where
  apply : Bool
  unapply : Bool
  applyAll : Bool
  unapplyAll : Bool
  previousFile : Bool
  nextFile : Bool
  previousDifference : Bool
  nextDifference : Bool
  save : Bool
  deriving Repr, DecidableEq

/-- A running diff process, with its arguments and standard input, and what it will be used for: `compare` or `saveDiff` (with the
working directory; empty: the one of the application).  It is known by the slot its signal is connected to, modellist.cpp:168, 528. -/
inductive ProcessUse where
  | compare (args : List Str) (input : Option Str)
  | saveDiff (dir : Str) (args : List Str) (input : Option Str)
  deriving Repr, DecidableEq

/-- `ModelListPrivate`, modellist_p.h:60-90.  `dead`, `deadDiffs`: deleted objects, which must not be dereferenced.
`canSave`: the actions for writing exist (`save != nullptr`).  `diffTemp`: there is a temporary file for the diff to be saved (lines 60-61;
its contents are not needed). -/
structure MLState where
  heap : Heap
  store : Nat → DModel
  nextModel : Nat
  dead : List Nat := []
  deadDiffs : List Nat := []
  models : Option (List Nat) := none
  selectedModel : Option Nat := none
  selectedDifference : Option Nat := none
  modelIndex : Int := 0
  info : Option Info := none
  settings : Option Settings := none
  process : Option ProcessUse := none
  diffTemp : Bool := false
  diffURL : Str := []
  canSave : Bool
  isReadWrite : Bool
  actions : Actions
  log : List Event := []

/-- What is fixed for a run: `Q_OS_WIN`, `QString::localeAwareCompare`, `QUrl` (and `constructRelativePath` for URLs with a scheme),
`QDir(dir).filePath(name)`, and the file system as seen through `QFileInfo`, `readFile` and the MIME database (contents are decoded texts; not readable: empty). -/
structure Env where
  win : Bool
  cmp : Str → Str → Int
  url : Str → Url
  relativeUp : Str → Str → Str
  filePath : Str → Str → Str
  isDir : Str → Bool
  isFile : Str → Bool
  exists_ : Str → Bool
  contents : Str → Str
  isPatch : Str → Bool

/-- `constructRelativePath`, kompareprocess.cpp:23-48. -/
def Env.relative (e : Env) (dir to : Str) : Str := constructRelativePath e.url e.relativeUp dir to

namespace MLState

/-- `Q_EMIT …` -/
def emit (s : MLState) (e : Event) : MLState := { s with log := s.log ++ [e] }

/-- `d->models->…`: null pointer is undefined. -/
def list (s : MLState) : Res (List Nat) :=
  match s.models with
  | some l => Res.ok l
  | none => Res.ub

/-- Dereference a `DiffModel *`. -/
def model (s : MLState) (p : Option Nat) : Res Nat :=
  match p with
  | none => Res.ub
  | some i => if i ∈ s.dead then Res.ub else Res.ok i

/-- Dereference a `Difference *`. -/
def diff (s : MLState) (p : Option Nat) : Res Nat :=
  match p with
  | none => Res.ub
  | some i => if i ∈ s.deadDiffs then Res.ub else Res.ok i

/-- Write a `DiffModel` object. -/
def setModel (s : MLState) (i : Nat) (m : DModel) : MLState :=
  { s with store := fun j => if j = i then m else s.store j }

/-- `QList::indexOf` of a pointer that may be null. -/
def indexOfPtr (l : List Nat) (p : Option Nat) : Int :=
  match p with
  | none => -1
  | some i => indexOfI l i

/-- `modelCount`, modellist.cpp:980-985. -/
def modelCount (s : MLState) : Int :=
  match s.models with
  | some l => l.length
  | none => 0

/-- `differenceCount`, modellist.cpp:987-992. -/
def differenceCount (s : MLState) : Res Int :=
  match s.selectedModel with
  | none => Res.ok (-1)
  | some _ => do
    let m ← s.model s.selectedModel
    Res.ok (s.store m).differences.length

/-- `appliedCount`, modellist.cpp:994-999. -/
def appliedCount (s : MLState) : Res Int :=
  match s.selectedModel with
  | none => Res.ok (-1)
  | some _ => do
    let m ← s.model s.selectedModel
    Res.ok (s.store m).appliedCount

/-- `currentModel`, modellist.cpp:910-915. -/
def currentModel (s : MLState) : Res Int := do
  let l ← s.list
  Res.ok (indexOfPtr l s.selectedModel)

/-- `currentDifference`, modellist.cpp:917-922. -/
def currentDifference (s : MLState) : Res Int :=
  match s.selectedModel with
  | none => Res.ok (-1)
  | some _ => do
    let m ← s.model s.selectedModel
    Res.ok (indexOfPtr (s.store m).differences s.selectedDifference)

/-- Run a selection function of `DiffModel` on the model `i` and store its result in `selectedDifference`:
`d->selectedDifference = d->selectedModel->f()`. -/
def selectWith (s : MLState) (i : Nat) (f : DModel → Res (DModel × Option Nat)) : Res MLState := do
  let r ← f (s.store i)
  Res.ok { (s.setModel i r.1) with selectedDifference := r.2 }

/-! ### Actions -/

/-- `hasPrevModel`, modellist_p.cpp:69-81. -/
def hasPrevModel (s : MLState) : Bool := decide (s.modelIndex > 0)

/-- `hasNextModel`, modellist_p.cpp:83-94. -/
def hasNextModel (s : MLState) : Res Bool := do
  let l ← s.list
  Res.ok (decide (s.modelIndex < (l.length : Int) - 1))

/-- `hasPrevDiff`, modellist_p.cpp:96-114. -/
def hasPrevDiff (s : MLState) : Res Bool := do
  let m ← s.model s.selectedModel
  if (s.store m).diffIndex > 0 then Res.ok true else Res.ok s.hasPrevModel

/-- `hasNextDiff`, modellist_p.cpp:116-134. -/
def hasNextDiff (s : MLState) : Res Bool := do
  let m ← s.model s.selectedModel
  if (s.store m).diffIndex < ((s.store m).differences.length : Int) - 1 then Res.ok true else s.hasNextModel

/-- The actions for writing in `updateModelListActions`, modellist_p.cpp:236-258. -/
def updateWriting (s : MLState) : Res Actions :=
  if s.isReadWrite = true ∧ s.canSave = true then do
    let m ← s.model s.selectedModel
    let d ← s.diff s.selectedDifference
    Res.ok { s.actions with
      applyAll := decide ((s.store m).appliedCount ≠ (s.store m).differences.length)
      unapplyAll := decide ((s.store m).appliedCount ≠ 0)
      apply := !(s.heap.cell d).applied
      unapply := (s.heap.cell d).applied
      save := (s.store m).hasUnsavedChanges s.heap }
  else if s.canSave = true then
    Res.ok { s.actions with apply := false, unapply := false, applyAll := false, unapplyAll := false, save := false }
  else Res.ok s.actions

/-- `updateModelListActions`, modellist_p.cpp:233-276. -/
def updateActions (s : MLState) : Res MLState :=
  if s.models ≠ none ∧ s.selectedModel ≠ none ∧ s.selectedDifference ≠ none then do
    let a ← s.updateWriting
    let nm ← s.hasNextModel
    let pd ← s.hasPrevDiff
    let nd ← s.hasNextDiff
    Res.ok { s with actions := { a with previousFile := s.hasPrevModel, nextFile := nm, previousDifference := pd, nextDifference := nd } }
  else
    let a := if s.canSave = true then
        { s.actions with apply := false, unapply := false, applyAll := false, unapplyAll := false, save := false }
      else s.actions
    Res.ok { s with actions := { a with previousFile := false, nextFile := false, previousDifference := false, nextDifference := false } }

/-- The emission of `setStatusBarModelInfo` in the slots, e.g. modellist.cpp:595-599. -/
def emitStatusBar (s : MLState) : Res MLState := do
  let l ← s.list
  let m ← s.model s.selectedModel
  let dc ← s.differenceCount
  Res.ok (s.emit (.statusBar (indexOfPtr l s.selectedModel) (indexOfPtr (s.store m).differences s.selectedDifference)
    s.modelCount dc (s.store m).appliedCount))

/-! ### Selecting models -/

/-- `firstModel`, modellist_p.cpp:163-172, including the assignment of the result to `selectedModel`. -/
def firstModel (s : MLState) : Res MLState := do
  let l ← s.list
  let m ← atR l 0
  Res.ok { s with modelIndex := 0, selectedModel := some m }

/-- `lastModel`, modellist_p.cpp:174-183. -/
def lastModel (s : MLState) : Res MLState := do
  let l ← s.list
  let m ← atR l ((l.length : Int) - 1)
  Res.ok { s with modelIndex := (l.length : Int) - 1, selectedModel := some m }

/-- `prevModel`, modellist_p.cpp:185-198. -/
def prevModel (s : MLState) : Res MLState :=
  if s.modelIndex > 0 then do
    let l ← s.list
    if s.modelIndex - 1 < l.length then do
      let m ← atR l (s.modelIndex - 1)
      Res.ok { s with modelIndex := s.modelIndex - 1, selectedModel := some m }
    else Res.ok { s with modelIndex := 0, selectedModel := none }
  else Res.ok { s with modelIndex := 0, selectedModel := none }

/-- `nextModel`, modellist_p.cpp:200-213. -/
def nextModel_ (s : MLState) : Res MLState := do
  let l ← s.list
  if s.modelIndex + 1 < l.length then do
    let m ← atR l (s.modelIndex + 1)
    Res.ok { s with modelIndex := s.modelIndex + 1, selectedModel := some m }
  else Res.ok { s with modelIndex := 0, selectedModel := none }

/-- `setSelectedModel`, modellist_p.cpp:215-231; `none` for `return false`. -/
def setSelectedModel (s : MLState) (p : Option Nat) : Res (Option MLState) :=
  if p ≠ s.selectedModel then do
    let l ← s.list
    if indexOfPtr l p = -1 then Res.ok none
    else do
      let s ← { s with modelIndex := indexOfPtr l p, selectedModel := p }.updateActions
      Res.ok (some s)
  else do
    let s ← s.updateActions
    Res.ok (some s)

/-! ### Slots for navigation -/

/-- `Q_EMIT setSelection(d->selectedModel, d->selectedDifference); Q_EMIT setStatusBarModelInfo(…); d->updateModelListActions();` -/
def announce (s : MLState) : Res MLState := do
  let s ← (s.emit (.selection s.selectedModel s.selectedDifference)).emitStatusBar
  s.updateActions

/-- `d->selectedDifference = d->selectedModel->firstDifference();` -/
def selectFirst (s : MLState) : Res MLState := do
  let m ← s.model s.selectedModel
  s.selectWith m DModel.firstDifference

/-- `d->selectedDifference = d->selectedModel->lastDifference();` -/
def selectLast (s : MLState) : Res MLState := do
  let m ← s.model s.selectedModel
  s.selectWith m DModel.lastDifference

/-- `slotPreviousModel`, modellist.cpp:630-648. -/
def slotPreviousModel (s : MLState) : Res MLState := do
  let s ← s.prevModel
  let s ← if s.selectedModel ≠ none then s.selectFirst else do
    let s ← s.firstModel
    s.selectFirst
  s.announce

/-- `slotNextModel`, modellist.cpp:650-668. -/
def slotNextModel (s : MLState) : Res MLState := do
  let s ← s.nextModel_
  let s ← if s.selectedModel ≠ none then s.selectFirst else do
    let s ← s.lastModel
    s.selectFirst
  s.announce

/-- `slotPreviousDifference`, modellist.cpp:691-735. -/
def slotPreviousDifference (s : MLState) : Res MLState := do
  let m ← s.model s.selectedModel
  let s ← s.selectWith m DModel.prevDifference
  if s.selectedDifference ≠ none then do
    let s ← (s.emit (.diffSelection s.selectedDifference)).emitStatusBar
    s.updateActions
  else do
    let s ← s.prevModel
    if s.selectedModel ≠ none then do
      let s ← s.selectLast
      s.announce
    else do
      let s ← s.firstModel
      let s ← s.selectFirst
      s.announce

/-- `slotNextDifference`, modellist.cpp:737-781. -/
def slotNextDifference (s : MLState) : Res MLState := do
  let m ← s.model s.selectedModel
  let s ← s.selectWith m DModel.nextDifference
  if s.selectedDifference ≠ none then do
    let s ← (s.emit (.diffSelection s.selectedDifference)).emitStatusBar
    s.updateActions
  else do
    let s ← s.nextModel_
    if s.selectedModel ≠ none then do
      let s ← s.selectFirst
      s.announce
    else do
      let s ← s.lastModel
      let s ← s.selectLast
      s.announce

/-- `slotSelectionChanged(model, diff)`, modellist.cpp:566-602. -/
def slotSelectionChanged (s : MLState) (model diff : Option Nat) : Res MLState := do
  let l ← s.list
  let s := { s with selectedModel := model, modelIndex := indexOfPtr l model, selectedDifference := diff }
  let m ← s.model s.selectedModel
  let s := s.setModel m ((s.store m).setSelectedDifference s.selectedDifference).1
  let r ← s.setSelectedModel s.selectedModel
  let s ← match r with
    | none => do
      let s ← s.firstModel
      s.selectFirst
    | some s => do
      let m ← s.model s.selectedModel
      let r := (s.store m).setSelectedDifference s.selectedDifference
      let s := s.setModel m r.1
      if r.2 = false then s.selectFirst else Res.ok s
  let s ← (s.emit (.selection model diff)).emitStatusBar
  s.updateActions

/-- `slotSelectionChanged(diff)`, modellist.cpp:604-628. -/
def slotDiffSelectionChanged (s : MLState) (diff : Option Nat) : Res MLState := do
  let s := { s with selectedDifference := diff }
  let m ← s.model s.selectedModel
  let r := (s.store m).setSelectedDifference s.selectedDifference
  let s := s.setModel m r.1
  let s ← if r.2 = false then s.selectFirst else Res.ok s
  let s ← (s.emit (.diffSelection diff)).emitStatusBar
  s.updateActions

/-! ### Applying -/

/-- `slotApplyDifference`, modellist.cpp:783-789.  (The selected difference of the model is dereferenced.) -/
def slotApplyDifference (s : MLState) (b : Bool) : Res MLState := do
  let m ← s.model s.selectedModel
  let _ ← s.diff (s.store m).selected
  let r ← (s.store m).applyDifference s.heap b
  Res.ok ({ (s.setModel m r.1) with heap := r.2 }.emit (.applyDifference b))

/-- `slotApplyAllDifferences`, modellist.cpp:791-797. -/
def slotApplyAllDifferences (s : MLState) (b : Bool) : Res MLState := do
  let m ← s.model s.selectedModel
  let r := (s.store m).applyAllDifferences s.heap b
  Res.ok ({ (s.setModel m r.1) with heap := r.2 }.emit (.applyAll b))

/-- `slotActionApplyDifference`, modellist.cpp:1008-1016. -/
def actionApply (s : MLState) : Res MLState := do
  let d ← s.diff s.selectedDifference
  let s ← if (s.heap.cell d).applied = false then s.slotApplyDifference true else Res.ok s
  let s ← s.slotNextDifference
  s.updateActions

/-- `slotActionUnApplyDifference`, modellist.cpp:1018-1026. -/
def actionUnapply (s : MLState) : Res MLState := do
  let d ← s.diff s.selectedDifference
  let s ← if (s.heap.cell d).applied = true then s.slotApplyDifference false else Res.ok s
  let s ← s.slotPreviousDifference
  s.updateActions

/-- `slotActionApplyAllDifferences`, modellist.cpp:1028-1034. -/
def actionApplyAll (s : MLState) : Res MLState := do
  let s ← s.slotApplyAllDifferences true
  s.updateActions

/-- `slotActionUnapplyAllDifferences`, modellist.cpp:1036-1042. -/
def actionUnapplyAll (s : MLState) : Res MLState := do
  let s ← s.slotApplyAllDifferences false
  s.updateActions

/-- `setReadWrite`, modellist.cpp:404-413. -/
def setReadWrite (s : MLState) (b : Bool) : Res MLState :=
  if s.isReadWrite = b then Res.ok s else { s with isReadWrite := b }.updateActions

/-- `slotKompareInfo`, modellist.cpp:1001-1006. -/
def setInfo (s : MLState) (i : Option Info) : MLState := { s with info := i }

/-- `hasUnsavedChanges`, modellist.cpp:967-978. -/
def hasUnsavedChanges (s : MLState) : Bool :=
  match s.models with
  | none => false
  | some l => l.any (fun m => (s.store m).hasUnsavedChanges s.heap)

/-! ### Opening -/

/-- `clear`, modellist.cpp:938-946: the list is emptied, the models themselves are neither deleted nor deselected. -/
def clear (s : MLState) : MLState :=
  let s := { s with models := s.models.map (fun _ => []) }
  s.emit (.modelsChanged s.models)

/-- `show`, modellist.cpp:880-887.  (`d->models->count()` is only evaluated for debug output.) -/
def show_ (s : MLState) : MLState :=
  (s.emit (.modelsChanged s.models)).emit (.selection s.selectedModel s.selectedDifference)

/-- Objects for the models returned by the parser. -/
def install (s : MLState) (ms : List DModel) : List Nat × MLState :=
  let ids := List.range' s.nextModel ms.length
  (ids, { s with
    store := fun j => if s.nextModel ≤ j then (ms[j - s.nextModel]?).getD (s.store j) else s.store j
    nextModel := s.nextModel + ms.length })

/-- `d->models.reset(…)`: the old list and the models still in it are deleted, with their differences
(diffmodellist.h:35-38, diffmodel_p.h:67-73). -/
def resetModels (s : MLState) (r : ParseResult) : MLState :=
  let old := s.models.getD []
  let s := { s with dead := s.dead ++ old, deadDiffs := s.deadDiffs ++ old.flatMap (fun m => (s.store m).differences), heap := r.heap }
  match r.models with
  | none => { s with models := none }
  | some ms =>
    let i := s.install ms
    { i.2 with models := some i.1 }

/-- A client assigns one model of the list to another, `*list.modelAt(i) = *list.modelAt(j)`: `DiffModel::operator=`, diffmodel.cpp:39-49,
diffmodel_p.h:75-95 (an assignment to itself changes nothing). -/
def assignModel (s : MLState) (i j : Nat) : MLState :=
  if i = j then s else s.setModel i ((s.store i).assign (s.store j))

/-- A client copies the list returned by `models()` and destroys the copy: the copy constructor, diffmodellist.h:31-34, copies the
pointers, the destructor, diffmodellist.h:35-38, deletes the models. -/
def dropCopy (s : MLState) : MLState :=
  { s with
    dead := s.dead ++ s.models.getD []
    deadDiffs := s.deadDiffs ++ (s.models.getD []).flatMap (fun m => (s.store m).differences) }

/-- `parseDiffOutput`, modellist.cpp:799-834; the Boolean is `result == 0`.  `info` must be set. -/
def parseDiffOutput (e : Env) (s : MLState) (text : Str) : Res (MLState × Bool) := do
  let s := s.emit (.diffString text)
  let r ← parse e.win e.cmp s.heap (split text)
  let cleaned ← cleanUpCrap (split text)
  let g := determineGenerator (split text)
  let s := s.resetModels r
  match s.info with
  | none => Res.ub
  | some i => do
    let s := { s with info := some { i with generator := some g, format := determineFormat g cleaned } }
    match s.models with
    | none => Res.ok (s, false)
    | some _ => do
      let s := if r.malformed then s.emit (.error .malformed) else s
      let s ← s.firstModel
      let s ← s.selectFirst
      let dc ← s.differenceCount
      Res.ok (s.emit (.statusBar 0 0 s.modelCount dc 0), true)

/-- `openDiff`, modellist.cpp:449-475. -/
def openDiff (e : Env) (s : MLState) (file : Str) : Res (MLState × Bool) :=
  if file = [] then Res.ok (s, false)
  else do
    let text := e.contents file
    let s := s.clear.emit (.status .Parsing)
    let (s, ok) ← s.parseDiffOutput e text
    if ok = false then Res.ok (s.emit (.error .couldNotParse), false)
    else do
      let s ← s.updateActions
      Res.ok (s.show_.emit (.status .FinishedParsing), true)

/-- `parseAndOpenDiff`, modellist.cpp:477-495. -/
def parseAndOpenDiff (e : Env) (s : MLState) (text : Str) : Res (MLState × Bool) := do
  let s := s.clear.emit (.status .Parsing)
  let (s, ok) ← s.parseDiffOutput e text
  if ok = false then Res.ok (s.emit (.error .couldNotParse), false)
  else do
    let s ← s.updateActions
    Res.ok (s.show_.emit (.status .FinishedParsing), true)

/-- `setDepthAndApplied` for one model, modellist_p.cpp:157-159. -/
def depthAndApplied (i : Info) (s : MLState) (m : Nat) : MLState :=
  let dm := (s.store m).setSourceFile (lstripSeparators (s.store m).source i.depth)
  let dm := dm.setDestinationFile (lstripSeparators dm.destination i.depth)
  let r := dm.applyAllDifferences s.heap i.applied
  { (s.setModel m r.1) with heap := r.2 }

/-- `setDepthAndApplied`, modellist_p.cpp:152-161. -/
def setDepthAndApplied (s : MLState) : Res MLState := do
  let l ← s.list
  match s.info with
  | none => if l = [] then Res.ok s else Res.ub
  | some i => Res.ok (l.foldl (depthAndApplied i) s)

/-- `blendFile`, modellist_p.cpp:278-500, with the selection at its end (lines 495-497). -/
def blendFile (s : MLState) (m : Nat) (contents : Str) : Res MLState := do
  let i ← s.model (some m)
  let r := (s.store i).blend s.heap contents
  let s := { (s.setModel i r.1) with heap := r.2 }
  let s ← s.firstModel
  s.selectFirst

/-- The loop over the models when blending a directory, modellist.cpp:850-867. -/
def blendDirLoop (e : Env) (dir : Str) : List Nat → MLState → Bool → Res (MLState × Bool)
  | [], s, result => Res.ok (s, result)
  | m :: ms, s, _ => do
    let i ← s.model (some m)
    let src := (s.store i).source
    let name := if dir.isPrefixOf src then src else e.filePath dir src
    let s ← s.blendFile i (if e.exists_ name then e.contents name else [])
    blendDirLoop e dir ms s true

/-- `blendOriginalIntoModelList`, modellist.cpp:836-878. -/
def blendOriginal (e : Env) (s : MLState) (url : Str) : Res (MLState × Bool) :=
  if e.isDir url then do
    let l ← s.list
    blendDirLoop e url l s false
  else if e.isFile url then do
    let l ← s.list
    let m ← atR l 0
    let s ← s.blendFile m (e.contents url)
    Res.ok (s, true)
  else Res.ok (s, false)

/-- `openFileAndDiff` and `openDirAndDiff`, modellist.cpp:176-200, 202-228 (the same code). -/
def openAndDiff (e : Env) (s : MLState) : Res (MLState × Bool) :=
  match s.info with
  | none => Res.ub
  | some i => do
    let s := s.clear
    let (s, ok) ← s.parseDiffOutput e (e.contents i.localDestination)
    if ok = false then Res.ok (s.emit (.error .notADiff), false)
    else do
      let s ← s.setDepthAndApplied
      let (s, ok) ← s.blendOriginal e i.localSource
      if ok = false then Res.ok (s.emit (.error .blendProblem), false)
      else do
        let s ← s.updateActions
        Res.ok (s.show_, true)

/-- `compare(mode)`, modellist.cpp:159-174. -/
def compareMode (e : Env) (s : MLState) (mode : Mode) : Res (MLState × Bool) := do
  let s := s.clear
  match s.info with
  | none => Res.ub
  | some i => do
    let p ← processArgs (e.relative []) s.settings .Custom mode i.localSource i.localDestination
    Res.ok ({ s with process := some (.compare p.1 p.2) }.emit (.status .RunningDiff), true)

/-- `compare()`, modellist.cpp:100-157. -/
def compare (e : Env) (s : MLState) : Res (MLState × Bool) :=
  match s.info with
  | none => Res.ub
  | some i =>
    let sd := e.isDir i.localSource
    let dd := e.isDir i.localDestination
    if sd = true ∧ dd = true then
      { s with info := some { i with mode := .ComparingDirs } }.compareMode e .ComparingDirs
    else if sd = false ∧ dd = false then
      if e.isPatch i.localSource = false ∧ e.isPatch i.localDestination = true then
        { s with info := some { i with mode := .BlendingFile } }.openAndDiff e
      else if e.isPatch i.localSource = true ∧ e.isPatch i.localDestination = false then
        { s with info := some { i with mode := .BlendingFile }.swap }.openAndDiff e
      else { s with info := some { i with mode := .ComparingFiles } }.compareMode e .ComparingFiles
    else if sd = true ∧ dd = false then
      { s with info := some { i with mode := .BlendingDir } }.openAndDiff e
    else { s with info := some { i with mode := .BlendingDir }.swap }.openAndDiff e

/-- `refresh`, modellist.cpp:948-954. -/
def refresh (e : Env) (s : MLState) : Res MLState :=
  match s.info with
  | none => Res.ub
  | some i => do
    let r ← s.compareMode e i.mode
    Res.ok r.1

/-- `swap`, modellist.cpp:956-965. -/
def swap (e : Env) (s : MLState) : Res MLState :=
  match s.info with
  | none => Res.ub
  | some i =>
    if i.mode = .ComparingFiles ∨ i.mode = .ComparingDirs then do
      let r ← s.compareMode e i.mode
      Res.ok r.1
    else Res.ok s

/-- `slotDiffProcessFinished`, modellist.cpp:422-447, for the process result `r` (`success` is `r.finishedNormally`). -/
def slotDiffProcessFinished (e : Env) (s : MLState) (r : ProcessResult) : Res MLState := do
  let s ← if r.finishedNormally = true then do
      let s := s.emit (.status .Parsing)
      let (s, ok) ← s.parseDiffOutput e r.stdout
      let s ← if ok = false then Res.ok (s.emit (.error .couldNotParse))
        else
          match s.info with
          | none => Res.ub
          | some i => do
            let s ← if i.mode ≠ .ShowingDiff then do
                let b ← s.blendOriginal e i.localSource
                Res.ok b.1
              else Res.ok s
            let s ← s.updateActions
            Res.ok s.show_
      Res.ok (s.emit (.status .FinishedParsing))
    else if r.exitStatus = .NormalExit then Res.ok (s.emit (.error .identical))
    else Res.ok (s.emit (.error (.stderr r.stderr)))
  Res.ok { s with process := none }

/-- `recreateDiff`, modellist.cpp:497-508. -/
def recreateDiff (e : Env) (s : MLState) : Res Str := do
  let l ← s.list
  Res.ok (l.flatMap (fun m => (s.store m).recreateDiff e.win s.heap))

/-! ### Saving -/

/-- Success of the steps of a save that are up to the outside world: the temporary file can be opened, written, closed; the
destination directory exists; it can be created; the file can be copied. -/
structure SaveEnv where
  tempOpens : Bool := true
  writeOk : Bool := true
  closeOk : Bool := true
  statOk : Bool := true
  mkdirOk : Bool := true
  copyOk : Bool := true
  deriving Repr, DecidableEq

/-- The directory used when comparing directories, modellist.cpp:313-322: the local destination is cut off the path of the model and
the rest is appended to the destination URL. -/
def saveDir (i : Info) (m : DModel) : Str :=
  i.destination ++ (if i.localDestination.isPrefixOf m.destinationPath then m.destinationPath.drop i.localDestination.length
    else m.destinationPath)

/-- `saveDestination`, modellist.cpp:243-370; the Boolean is the result. -/
def saveDestination (v : SaveEnv) (s : MLState) (m : Nat) : Res (MLState × Bool) := do
  let m ← s.model (some m)
  if (s.store m).hasUnsavedChanges s.heap = false then Res.ok (s, true)
  else if v.tempOpens = false then Res.ok (s.emit (.error .tempFile), false)
  else if v.writeOk = false then Res.ok (s.emit (.error .tempFile), false)
  else if v.closeOk = false then Res.ok (s.emit (.error .tempFile), false)
  else
    match s.info with
    | none => Res.ub
    | some i =>
      if i.mode = .ComparingDirs ∧ v.statOk = false ∧ v.mkdirOk = false then Res.ok (s.emit (.error .mkdir), false)
      else
        let target := if i.mode = .ComparingDirs then saveDir i (s.store m) ++ (s.store m).destinationFile else i.destination
        if v.copyOk then
          let s := s.emit (.upload target ((s.store m).savedText s.heap))
          Res.ok ({ s with heap := s.heap.modifyAll (fun d => d.setUnsaved false) (s.store m).differences }, true)
        else Res.ok (s.emit (.error .upload), true)

/-- The loop of `saveAll`, modellist.cpp:379-382. -/
def saveLoop (v : Nat → SaveEnv) : List Nat → MLState → Res (MLState × Bool)
  | [], s => Res.ok (s, true)
  | m :: ms, s => do
    let (s, ok) ← s.saveDestination (v m) m
    if ok = false then Res.ok (s, false) else saveLoop v ms s

/-- `saveAll`, modellist.cpp:372-385. -/
def saveAll (v : Nat → SaveEnv) (s : MLState) : Res (MLState × Bool) :=
  match s.models with
  | none => Res.ok (s, false)
  | some [] => Res.ok (s, false)
  | some l => saveLoop v l s

/-- `slotSaveDestination`, modellist.cpp:230-241. -/
def slotSaveDestination (v : SaveEnv) (s : MLState) : Res MLState :=
  match s.selectedModel with
  | none => Res.ok s
  | some m => do
    let r ← s.saveDestination v m
    let s := if r.1.canSave = true then { r.1 with actions := { r.1.actions with save := false } } else r.1
    Res.ok (s.emit .updateActions)

/-- `saveDiff`, modellist.cpp:510-534; `settings` are the ones given as argument.  A process that is still running is destroyed when
`diffProcess` is assigned; it is assumed that it does not send its signal any more. -/
def saveDiff (e : Env) (tempOpens : Bool) (url dir : Str) (settings : Option Settings) (s : MLState) : Res (MLState × Bool) :=
  let s := { s with diffTemp := true, diffURL := url }
  if tempOpens = false then Res.ok ({ s.emit (.error .tempFile) with diffTemp := false }, false)
  else
    match s.info with
    | none => Res.ub
    | some i => do
      let p ← processArgs (e.relative dir) settings .Custom .UnknownMode i.localSource i.localDestination
      Res.ok ({ s with process := some (.saveDiff dir p.1 p.2) }.emit (.status .RunningDiff), true)

/-- `slotWriteDiffOutput`, modellist.cpp:536-564: the result of the copy is ignored.  Without a temporary file it is undefined: the file is
used in both cases (lines 547, 558). -/
def slotWriteDiffOutput (copyOk : Bool) (s : MLState) (r : ProcessResult) : Res MLState :=
  if s.diffTemp = false then Res.ub
  else
    let s := if r.finishedNormally = true then
        (if copyOk then s.emit (.upload s.diffURL r.stdout) else s).emit (.status .FinishedWritingDiff)
      else s
    Res.ok { s with diffURL := [], diffTemp := false, process := none }

/-- The running process finishes: its signal is connected to one of the two slots. -/
def processFinished (e : Env) (copyOk : Bool) (s : MLState) (r : ProcessResult) : Res MLState :=
  match s.process with
  | none => Res.ok s
  | some (.compare _ _) => s.slotDiffProcessFinished e r
  | some (.saveDiff _ _ _) => s.slotWriteDiffOutput copyOk r

end MLState

/-- The constructor, modellist.cpp:37-96: nothing is selected and all actions are disabled. -/
def MLState.init (settings : Option Settings) (readWrite : Bool) (h : Heap) : MLState :=
  { heap := h, store := fun _ => {}, nextModel := 0, settings := settings, canSave := readWrite, isReadWrite := readWrite
    actions := ⟨false, false, false, false, false, false, false, false, false⟩ }

end KompareDiff2
