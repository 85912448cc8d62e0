import Verif.Model.ModelList
/-
Saving while the diff process is running.  The jobs of `saveDestination` (stat, mkdir, copy) are executed with `KJob::exec()`, which runs a
nested event loop: before each of them ends, the signal that the process has finished may be delivered, and its slot runs in the middle of
the save.  (User input is excluded from the nested loop; other calls of the list in the middle of a save are not modelled.)
-/
namespace KompareDiff2

/-- The process finishes: the environment at that moment, whether the copy of `slotWriteDiffOutput` goes well, the result of the process. -/
structure Finish where
  env : Env
  copyOk : Bool
  result : ProcessResult

/-- What is delivered in the nested event loops of one call of `saveDestination`: in `statJob->exec()` (modellist.cpp:325, 344), in
`mkdirJob->exec()` (line 328), in `copyJob->exec()` (lines 335, 349). -/
structure SaveEvents where
  stat : List Finish := []
  mkdir : List Finish := []
  copy : List Finish := []

namespace MLState

/-- A nested event loop delivers signals of the process, one after the other. -/
def deliver : List Finish → MLState → Res MLState
  | [], s => Res.ok s
  | f :: fs, s => do
    let s ← s.processFinished f.env f.copyOk f.result
    deliver fs s

/-- The end of `saveDestination`, modellist.cpp:334-335 or 348-349 and 353-369: the temporary file, which holds `text`, is copied to `target`; only
after the nested loop the differences of the model are marked as saved, through the pointer `m`. -/
def saveCopied (v : SaveEnv) (events : List Finish) (target text : Str) (s : MLState) (m : Nat) : Res (MLState × Bool) := do
  let s ← s.deliver events
  if v.copyOk then do
    let s := s.emit (.upload target text)
    let m ← s.model (some m)
    Res.ok ({ s with heap := s.heap.modifyAll (fun d => d.setUnsaved false) (s.store m).differences }, true)
  else
    match s.info with
    | none => Res.ub
    | some _ => Res.ok (s.emit (.error .upload), true)

/-- `saveDestination`, modellist.cpp:243-370, with the nested event loops.  The text is written to the temporary file before the first of
them (lines 262-302); the directory is computed before it (lines 313-322), the file name after it, through the pointer `m` (line 333); the
destination of the other modes is read again after it (line 348). -/
def saveDestinationNested (v : SaveEnv) (ev : SaveEvents) (s : MLState) (m : Nat) : Res (MLState × Bool) := do
  let m ← s.model (some m)
  if (s.store m).hasUnsavedChanges s.heap = false then Res.ok (s, true)
  else if v.tempOpens = false then Res.ok (s.emit (.error .tempFile), false)
  else if v.writeOk = false then Res.ok (s.emit (.error .tempFile), false)
  else if v.closeOk = false then Res.ok (s.emit (.error .tempFile), false)
  else
    let text := (s.store m).savedText s.heap
    match s.info with
    | none => Res.ub
    | some i =>
      if i.mode = .ComparingDirs then do
        let dir := saveDir i (s.store m)
        let s ← s.deliver ev.stat
        if v.statOk = false then do
          let s ← s.deliver ev.mkdir
          if v.mkdirOk = false then Res.ok (s.emit (.error .mkdir), false)
          else do
            let m ← s.model (some m)
            s.saveCopied v ev.copy (dir ++ (s.store m).destinationFile) text m
        else do
          let m ← s.model (some m)
          s.saveCopied v ev.copy (dir ++ (s.store m).destinationFile) text m
      else do
        let s ← s.deliver ev.stat
        match s.info with
        | none => Res.ub
        | some i => s.saveCopied v ev.copy i.destination text m

/-- `slotSaveDestination`, modellist.cpp:230-241, with the nested event loops. -/
def slotSaveDestinationNested (v : SaveEnv) (ev : SaveEvents) (s : MLState) : Res MLState :=
  match s.selectedModel with
  | none => Res.ok s
  | some m => do
    let r ← s.saveDestinationNested v ev m
    let s := if r.1.canSave = true then { r.1 with actions := { r.1.actions with save := false } } else r.1
    Res.ok (s.emit .updateActions)

/-- The loop of `saveAll`, modellist.cpp:379-382, over the list `all` that was current when it began: once that list was replaced (and with it
deleted, diffmodellist.h:35-38), going on with the loop is undefined. -/
def saveLoopNested (v : Nat → SaveEnv) (ev : Nat → SaveEvents) (all : List Nat) : List Nat → MLState → Res (MLState × Bool)
  | [], s => if s.models = some all then Res.ok (s, true) else Res.ub
  | m :: ms, s =>
    if s.models = some all then do
      let (s, ok) ← s.saveDestinationNested (v m) (ev m) m
      if ok = false then Res.ok (s, false) else saveLoopNested v ev all ms s
    else Res.ub

/-- `saveAll`, modellist.cpp:372-385, with the nested event loops. -/
def saveAllNested (v : Nat → SaveEnv) (ev : Nat → SaveEvents) (s : MLState) : Res (MLState × Bool) :=
  match s.models with
  | none => Res.ok (s, false)
  | some [] => Res.ok (s, false)
  | some l => saveLoopNested v ev l l s

end MLState
end KompareDiff2
