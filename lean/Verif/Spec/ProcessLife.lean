import Verif.Model.ProcessLife
/-
When a diff program is running, which calls start one, and histories of calls in which the life of the process is taken into account.
-/
namespace KompareDiff2
namespace Spec

/-- A diff program is running: it was started and its end was not reported. -/
def Running (s : LifeState) : Prop := s.ml.process ≠ none ∧ s.life = .started

/-- The calls that start a diff program: `refresh()`; `swap()` after a comparison; `compare()` of two directories or of two files that are both patches or both
not; `saveDiff()` if the temporary file can be opened. -/
def Starts (s : MLState) : MLOp → Prop
  | .refresh _ => True
  | .swap _ => ∃ i, s.info = some i ∧ (i.mode = .ComparingFiles ∨ i.mode = .ComparingDirs)
  | .compare e => ∃ i, s.info = some i ∧ e.isDir i.localSource = e.isDir i.localDestination ∧
      (e.isDir i.localSource = true ∨ e.isPatch i.localSource = e.isPatch i.localDestination)
  | .saveDiff _ ok _ _ _ => ok = true
  | _ => False

/-- A call that can happen: the end of a process is reported only if its program was started, and to the slot it was connected to. -/
def CanHappen (s : LifeState) (op : MLOp) : Prop :=
  op.Scheduled s.ml ∧ ∀ e c r, (op = .diffFinished e r ∨ op = .diffWritten c r) → s.life = .started

/-- The states reached from a new `ModelList` by a history of calls, each with its outside circumstances. -/
inductive LifeHistory : List (LifeEnv × MLOp) → LifeState → Prop
  | new (settings : Option Settings) (readWrite : Bool) (heap : Heap) : LifeHistory [] ⟨MLState.init settings readWrite heap, .started⟩
  | call {ops : List (LifeEnv × MLOp)} {s s' : LifeState} {w : LifeEnv} {op : MLOp} : LifeHistory ops s → CanHappen s op → s.run w op = Res.ok s' →
      LifeHistory (ops ++ [(w, op)]) s'

/-- The history goes on from a state. -/
inductive Continues (s : LifeState) : List (LifeEnv × MLOp) → LifeState → Prop
  | refl : Continues s [] s
  | step {ops : List (LifeEnv × MLOp)} {t t' : LifeState} {w : LifeEnv} {op : MLOp} : Continues s ops t → CanHappen t op → t.run w op = Res.ok t' →
      Continues s (ops ++ [(w, op)]) t'

end Spec
end KompareDiff2
