import Verif.Model.ReentrantPatch
import Verif.Spec.ReentrantCompare
/-
Receivers while a patch is opened.
-/
namespace KompareDiff2
namespace Spec

/-- The receivers only answer the number of files and differences. -/
def OnlyAtStatusBar (f : Receivers) : Prop := ∀ log e, (∀ a b c d x, e ≠ .statusBar a b c d x) → f (log ++ [e]) = []

/-- A receiver that goes to the next file when it is told that the file is no diff. -/
def nextIfNoDiff : Receivers := fun log => match log.getLast? with
  | some (.error .notADiff) => [.nextFile]
  | _ => []

end Spec
end KompareDiff2
