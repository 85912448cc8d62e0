import Verif.Model.ModelList
/-
Saving on a file system: the KIO jobs of `saveDestination` with the directories, files and permissions they see and change.
-/
namespace KompareDiff2

/-- Directories (their URLs without a final slash) and files, with text and access permissions. -/
structure Tree where
  dir : Str → Bool
  file : Str → Option (Str × Int)

/-- What the file system permits: creating a directory, writing a file; and the permissions of a file copied with permissions -1 (which
is up to KIO and the file system), given those it had. -/
structure Remote where
  mayCreate : Str → Bool
  mayWrite : Str → Bool
  mode : Str → Option Int → Int

/-- A URL without its final slash. -/
def noSlash (p : Str) : Str := if p.getLast? = some '/' then p.dropLast else p

/-- The URL of the directory something is in, without a final slash. -/
def parentDir (p : Str) : Str := (((noSlash p).reverse.dropWhile (fun c => decide (c ≠ '/'))).drop 1).reverse

/-- `KIO::stat`, as used in modellist.cpp:324-325: is there a directory, or (without a final slash) a file? -/
def Tree.stat (t : Tree) (p : Str) : Bool := t.dir (noSlash p) || (p.getLast? != some '/' && (t.file p).isSome)

/-- `KIO::mkdir`, as used in modellist.cpp:327-328: creates one directory.  It fails if there is something already, or if the directory it
is to be created in does not exist (only `KIO::mkpath` creates that too). -/
def Tree.mkdir (r : Remote) (t : Tree) (p : Str) : Option Tree :=
  if r.mayCreate (noSlash p) = true ∧ t.dir (parentDir p) = true ∧ t.dir (noSlash p) = false ∧ t.file (noSlash p) = none then
    some { t with dir := fun q => if q = noSlash p then true else t.dir q }
  else none

/-- `KIO::file_copy` of a file with the text `text`, as used in modellist.cpp:334-335, 348-349: with `KIO::Overwrite`, and with permissions, or -1
(`none`). -/
def Tree.copy (r : Remote) (t : Tree) (text p : Str) (permissions : Option Int) : Option Tree :=
  if r.mayWrite p = true ∧ t.dir (parentDir p) = true ∧ t.dir (noSlash p) = false then
    some { t with file := fun q => if q = p then some (text, permissions.getD (r.mode p ((t.file p).map Prod.snd))) else t.file q }
  else none

namespace MLState

/-- The jobs of `saveDestination`, modellist.cpp:306-351, when the temporary file has been written: what succeeds, and the file system
afterwards. -/
def saveJobs (r : Remote) (t : Tree) (i : Info) (m : DModel) (text : Str) : SaveEnv × Tree :=
  if i.mode = .ComparingDirs then
    let dir := saveDir i m
    let target := dir ++ m.destinationFile
    if t.stat dir then
      match t.copy r text target none with
      | some t => ({ statOk := true, copyOk := true }, t)
      | none => ({ statOk := true, copyOk := false }, t)
    else
      match t.mkdir r dir with
      | none => ({ statOk := false, mkdirOk := false }, t)
      | some t =>
        match t.copy r text target none with
        | some t => ({ statOk := false, mkdirOk := true, copyOk := true }, t)
        | none => ({ statOk := false, mkdirOk := true, copyOk := false }, t)
  else
    let permissions := (t.file i.destination).map Prod.snd
    match t.copy r text i.destination permissions with
    | some t => ({ copyOk := true }, t)
    | none => ({ copyOk := false }, t)

/-- `saveDestination`, modellist.cpp:243-370, on a file system; the temporary file can be written. -/
def saveOn (r : Remote) (t : Tree) (s : MLState) (m : Nat) : Res (Tree × MLState × Bool) := do
  let m ← s.model (some m)
  if (s.store m).hasUnsavedChanges s.heap = false then Res.ok (t, s, true)
  else
    match s.info with
    | none => Res.ub
    | some i =>
      let j := saveJobs r t i (s.store m) ((s.store m).savedText s.heap)
      let x ← s.saveDestination j.1 m
      Res.ok (j.2, x.1, x.2)

/-- The loop of `saveAll`, modellist.cpp:379-382, on a file system. -/
def saveLoopOn (r : Remote) : List Nat → Tree → MLState → Res (Tree × MLState × Bool)
  | [], t, s => Res.ok (t, s, true)
  | m :: ms, t, s => do
    let (t, s, ok) ← saveOn r t s m
    if ok = false then Res.ok (t, s, false) else saveLoopOn r ms t s

/-- `saveAll`, modellist.cpp:372-385, on a file system. -/
def saveAllOn (r : Remote) (t : Tree) (s : MLState) : Res (Tree × MLState × Bool) :=
  match s.models with
  | none => Res.ok (t, s, false)
  | some [] => Res.ok (t, s, false)
  | some l => saveLoopOn r l t s

end MLState
end KompareDiff2
