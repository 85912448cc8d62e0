import Verif.Model.Nested
import Verif.Spec.Lifetime
/-
A save during which the diff process finishes.
-/
namespace KompareDiff2
namespace Spec

/-- The signals that are delivered during a save: none if there is nothing to save or the temporary file cannot be written; then those of
the stat job; those of the mkdir job only if the directory is not there; those of the copy job only if the copy is begun. -/
def delivered (v : MLState.SaveEnv) (ev : SaveEvents) (s : MLState) (m : Nat) : List Finish :=
  if (s.store m).hasUnsavedChanges s.heap = true ∧ v.tempOpens = true ∧ v.writeOk = true ∧ v.closeOk = true then
    if s.info.map Info.mode = some .ComparingDirs ∧ v.statOk = false then
      if v.mkdirOk = true then ev.stat ++ ev.mkdir ++ ev.copy else ev.stat ++ ev.mkdir
    else ev.stat ++ ev.copy
  else []

/-- All models one after the other, where the process finishes only between the saves. -/
def saveLoopBetween (v : Nat → MLState.SaveEnv) (ev : Nat → SaveEvents) : List Nat → MLState → Res (MLState × Bool)
  | [], s => Res.ok (s, true)
  | m :: ms, s => do
    let s ← s.deliver (delivered (v m) (ev m) s m)
    let r ← s.saveDestination (v m) m
    if r.2 = false then Res.ok (r.1, false) else saveLoopBetween v ev ms r.1

end Spec
end KompareDiff2
