import Verif.Model.Reentrant
/-
Receivers that call the slots of the `ModelList` while the end of a comparison is handled.  As in `Model/Reentrant.lean` the functions are cut at every
`Q_EMIT`, and `call` stands for what the connected receivers do.
-/
namespace KompareDiff2
namespace MLState

/-- `slotDiffProcessFinished` with receivers, modellist.cpp:422-447.  Simplification: the output of the process is taken to be `r.stdout`, so receivers
that start another process while `status(Parsing)` is delivered are not covered (`d->diffProcess` is read again in line 428).  At the end whatever
process the list then holds is released and deleted (line 446). -/
def slotDiffProcessFinishedR (call : MLState → Res MLState) (e : Env) (s : MLState) (r : ProcessResult) : Res MLState := do
  let s ← if r.finishedNormally = true then do
      let s ← call (s.emit (.status .Parsing))
      let p ← s.parseDiffOutputR call e r.stdout
      let s ← if p.2 = false then call (p.1.emit (.error .couldNotParse))
        else
          match p.1.info with
          | none => Res.ub
          | some i => do
            let s ← if i.mode ≠ .ShowingDiff then do
                let b ← p.1.blendOriginal e i.localSource
                Res.ok b.1
              else Res.ok p.1
            let s ← s.updateActions
            s.showR call
      call (s.emit (.status .FinishedParsing))
    else if r.exitStatus = .NormalExit then call (s.emit (.error .identical))
    else call (s.emit (.error (.stderr r.stderr)))
  Res.ok { s with process := none }

/-- `compare(mode)` with receivers, modellist.cpp:159-174. -/
def compareModeR (call : MLState → Res MLState) (e : Env) (s : MLState) (mode : Mode) : Res (MLState × Bool) := do
  let s ← s.clearR call
  match s.info with
  | none => Res.ub
  | some i => do
    let p ← processArgs (e.relative []) s.settings .Custom mode i.localSource i.localDestination
    let s ← call ({ s with process := some (.compare p.1 p.2) }.emit (.status .RunningDiff))
    Res.ok (s, true)

/-- `refresh` with receivers, modellist.cpp:948-954. -/
def refreshR (call : MLState → Res MLState) (e : Env) (s : MLState) : Res MLState :=
  match s.info with
  | none => Res.ub
  | some i => do
    let r ← s.compareModeR call e i.mode
    Res.ok r.1

end MLState
end KompareDiff2
