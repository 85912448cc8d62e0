import Verif.Spec.Parsed
import Verif.Spec.Session
/-
Where the files of compared directories are.
-/
namespace KompareDiff2
namespace Spec

/-- The file `name` is in the directory `dir`, and `rest` is its name from there: `dir` ends with a slash, or one follows somewhere. -/
def Under (dir name rest : Str) : Prop := name = dir ++ rest ∧ (dir = [] ∨ dir.getLast? = some '/' ∨ '/' ∈ rest)

/-- The operations that take the names in the diff as they are; when a patch is opened for a file or directory, leading directories are stripped. -/
def TakesNames : MLOp → Prop
  | .openDiff _ _ => True
  | .parseAndOpenDiff _ _ => True
  | .diffFinished _ _ => True
  | _ => False

end Spec
end KompareDiff2
