import Verif.Spec.Parsed
import Verif.Spec.Reading
/-
The numbers a diff contains, and the lines they are read from.
-/
namespace KompareDiff2
namespace Spec

/-- The largest `int`. -/
def maxInt : Int := 2147483647

/-- The number `s` may be read from the line `l` as a line number: `@@ -s…`, `@@ -… +s…`, `*** s,…` or `--- s,…`. -/
def LineNumber (l s : Str) : Prop :=
  Digits s ∧ (str "@@ -" ++ s <+: l ∨ (∃ x, str "@@ -" ++ x ++ str " +" ++ s <+: l ∧ ∀ c ∈ x, Digit c ∨ c = ',') ∨
    str "*** " ++ s ++ [','] <+: l ∨ str "--- " ++ s ++ [','] <+: l)

/-- No line number exceeds the largest `int` less the number of lines of the diff. -/
def FitsInt (lines : List Str) : Prop := ∀ l ∈ lines, ∀ s, LineNumber l s → (decimal s : Int) + lines.length ≤ maxInt

/-- The line after the last one of the hunk has a number that is an `int`, in both files. -/
def HView.EndsFit (h : HView) : Prop :=
  h.srcLine + ((h.diffs.map (fun v => v.src.length)).sum : Nat) ≤ maxInt ∧
  h.dstLine + ((h.diffs.map (fun v => v.dst.length)).sum : Nat) ≤ maxInt

end Spec
end KompareDiff2
