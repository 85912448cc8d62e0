import Verif.Model.ModelList
/-
What saving does to the disk, step by step, so that the state after a crash between any two steps can be described.  The steps are the changes of
the disk only; reading (stat) is not a step.
-/
namespace KompareDiff2

/-- The disk: contents of files and existence of directories by URL, contents of temporary files by number. -/
structure Disk where
  file : Str → Option Str
  dir : Str → Bool
  temp : Nat → Option Str

/-- One change of the disk. -/
inductive DiskStep where
  /-- the temporary file with this number now has these contents, or none: it was removed -/
  | temp (t : Nat) (contents : Option Str)
  /-- a directory was created -/
  | mkdir (url : Str)
  /-- the file now has these contents, or was removed -/
  | file (url : Str) (contents : Option Str)

/-- The disk after a step. -/
def Disk.step (d : Disk) : DiskStep → Disk
  | .temp t c => { d with temp := fun t' => if t' = t then c else d.temp t' }
  | .mkdir u => { d with dir := fun u' => if u' = u then true else d.dir u' }
  | .file u c => { d with file := fun u' => if u' = u then c else d.file u' }

/-- The disk after some steps. -/
def Disk.run (d : Disk) (steps : List DiskStep) : Disk := steps.foldl Disk.step d

namespace MLState

/-- How the steps of a save go: in addition to their success, how much of the text has reached the temporary file after each time a
buffer was written (`QTextStream` writes in pieces), and the states of the destination while it is being copied to: `some n` for the first `n`
characters, `none` for no file.  KIO may copy at once (no such state) or in place. -/
structure SaveRun extends SaveEnv where
  flushed : List Nat := []
  copied : List (Option Nat) := []

/-- Steps of `saveDestination`, modellist.cpp:243-370, with the temporary file `t`: it is opened (line 255) and the text is written (lines 286-302);
if that fails it is removed.  Then the directory is created if needed (lines 324-332; if that fails, the temporary file is removed by its destructor), the file is
copied (lines 334-335, 348-349), and the temporary file is removed, unless the copy failed (lines 353-366). -/
def saveSteps (v : SaveRun) (t : Nat) (s : MLState) (m : Nat) : Res (List DiskStep) := do
  let m ← s.model (some m)
  if (s.store m).hasUnsavedChanges s.heap = false then Res.ok []
  else if v.tempOpens = false then Res.ok []
  else
    let text := (s.store m).savedText s.heap
    let opened := DiskStep.temp t (some []) :: v.flushed.map (fun n => DiskStep.temp t (some (text.take n)))
    if v.writeOk = false ∨ v.closeOk = false then Res.ok (opened ++ [.temp t none])
    else
      let written := opened ++ [.temp t (some text)]
      match s.info with
      | none => Res.ub
      | some i =>
        if i.mode = .ComparingDirs ∧ v.statOk = false ∧ v.mkdirOk = false then Res.ok (written ++ [.temp t none])
        else
          let target := if i.mode = .ComparingDirs then saveDir i (s.store m) ++ (s.store m).destinationFile else i.destination
          let made := if i.mode = .ComparingDirs ∧ v.statOk = false then [DiskStep.mkdir (saveDir i (s.store m))] else []
          let copying := v.copied.map (fun n => DiskStep.file target (n.map (fun n => text.take n)))
          if v.copyOk then Res.ok (written ++ (made ++ copying) ++ [.file target (some text), .temp t none])
          else Res.ok (written ++ (made ++ copying))

/-- Steps of the loop of `saveAll`, modellist.cpp:379-382, with a temporary file for each model. -/
def saveLoopSteps (v : Nat → SaveRun) (t : Nat → Nat) : List Nat → MLState → Res (List DiskStep)
  | [], _ => Res.ok []
  | m :: ms, s => do
    let steps ← s.saveSteps (v m) (t m) m
    let r ← s.saveDestination (v m).toSaveEnv m
    if r.2 = false then Res.ok steps
    else do
      let rest ← saveLoopSteps v t ms r.1
      Res.ok (steps ++ rest)

/-- Steps of `saveAll`, modellist.cpp:372-385. -/
def saveAllSteps (v : Nat → SaveRun) (t : Nat → Nat) (s : MLState) : Res (List DiskStep) :=
  match s.models with
  | none => Res.ok []
  | some [] => Res.ok []
  | some l => saveLoopSteps v t l s

/-- How writing the output of the diff program goes: how much of it has reached the temporary file at the end (errors are not looked at,
modellist.cpp:549), the states of the destination while it is being copied to, whether the copy is successful. -/
structure WriteRun where
  written : Nat
  copied : List (Option Nat) := []
  copyOk : Bool := true

/-- Steps of `slotWriteDiffOutput`, modellist.cpp:536-564: the output is written to the temporary file `t` opened by `saveDiff` (line 517), which is copied, and
removed in any case. -/
def writeDiffSteps (w : WriteRun) (t : Nat) (s : MLState) (r : ProcessResult) : Res (List DiskStep) :=
  if s.diffTemp = false then Res.ub
  else if r.finishedNormally = true then
    let text := r.stdout.take w.written
    let copying := w.copied.map (fun n => DiskStep.file s.diffURL (n.map (fun n => text.take n)))
    Res.ok ([.temp t (some text)] ++ copying ++ (if w.copyOk then [.file s.diffURL (some text)] else []) ++ [.temp t none])
  else Res.ok [.temp t none]

end MLState
end KompareDiff2
