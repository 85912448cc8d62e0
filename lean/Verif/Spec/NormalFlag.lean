import Verif.Spec.Reading
import Verif.Spec.ShownNormal
/-
Where the commands of a normal diff end.
-/
namespace KompareDiff2
namespace Spec

/-- How files begin in a normal diff: always with one line. -/
def normalOpening : Generator → Opening
  | .Perforce => { first := PerforceHeaderLine, second := none }
  | .CVSDiff => { first := fun l => ∃ name, IndexLine l name, second := none }
  | .Diff => { first := DiffHeaderLine, second := none }

/-- What is left after the commands at the beginning of the lines; reading them is never undefined. -/
def AfterCommands (ls : List Str) (r : Option (List Str)) : Prop := ∃ hs rest, r = some rest ∧ NormalShown ls hs rest

end Spec
end KompareDiff2
