import Verif.Model.ReentrantCompare
import Verif.Spec.Reentrant
/-
Receivers while a comparison ends.
-/
namespace KompareDiff2
namespace Spec

/-- The receivers call nothing while an error is signalled. -/
def SilentOnErrors (f : Receivers) : Prop := ∀ log k, f (log ++ [.error k]) = []

/-- A receiver that answers the end of parsing by going to the next file. -/
def nextAtEnd : Receivers := fun log => match log.getLast? with
  | some (.status .FinishedParsing) => [.nextFile]
  | _ => []

/-- The receivers call nothing while the start of the diff program is signalled. -/
def SilentAtStart (f : Receivers) : Prop := ∀ log, f (log ++ [.status .RunningDiff]) = []

/-- A receiver that answers the start of the diff program by going to the next file. -/
def nextAtStart : Receivers := fun log => match log.getLast? with
  | some (.status .RunningDiff) => [.nextFile]
  | _ => []

/-- A receiver that goes to the next file when it is told that the files are identical. -/
def nextIfIdentical : Receivers := fun log => match log.getLast? with
  | some (.error .identical) => [.nextFile]
  | _ => []

/-- A receiver that compares again (once, as `refresh()` ends with another signal) when the end of parsing is signalled: it calls `refresh()`; the
signals of that call are ignored by it. -/
def refreshAtEnd (e : Env) (s : MLState) : Res MLState :=
  match s.log.getLast? with
  | some (.status .FinishedParsing) => s.refreshR Res.ok e
  | _ => Res.ok s

/-- A receiver that marks all differences of the shown file and saves it when it is told the number of files and differences. -/
def saveAtStatusBar : Receivers := fun log => match log.getLast? with
  | some (.statusBar _ _ _ _ _) => [.applyAllSlot true, .save {}]
  | _ => []

end Spec
end KompareDiff2
