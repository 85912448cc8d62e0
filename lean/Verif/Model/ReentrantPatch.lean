import Verif.Model.Reentrant
/-
Receivers that call the slots of the `ModelList` while a patch is opened for a file or a directory.
-/
namespace KompareDiff2
namespace MLState

/-- `openFileAndDiff` and `openDirAndDiff` with receivers, modellist.cpp:176-200, 202-228 (the same code), cut at every `Q_EMIT`; `d->info` is read again
after each. -/
def openAndDiffR (call : MLState → Res MLState) (e : Env) (s : MLState) : Res (MLState × Bool) := do
  let s ← s.clearR call
  match s.info with
  | none => Res.ub
  | some i => do
    let p ← s.parseDiffOutputR call e (e.contents i.localDestination)
    if p.2 = false then do
      let s ← call (p.1.emit (.error .notADiff))
      Res.ok (s, false)
    else do
      let s ← p.1.setDepthAndApplied
      match s.info with
      | none => Res.ub
      | some i => do
        let b ← s.blendOriginal e i.localSource
        if b.2 = false then do
          let s ← call (b.1.emit (.error .blendProblem))
          Res.ok (s, false)
        else do
          let s ← b.1.updateActions
          let s ← s.showR call
          Res.ok (s, true)

end MLState
end KompareDiff2
