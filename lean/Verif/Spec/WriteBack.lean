import Verif.Spec.Recreate
import Verif.Spec.Shown
/-
When what was read from a diff can be written as a diff again: a condition on what a client sees (`MView`), independent of the code.
-/
namespace KompareDiff2
namespace Spec

/-- Every line ends with a newline and is not longer than the pattern library can match, and the line numbers and counts are `int`s. -/
structure MView.WholeLines (v : MView) : Prop where
  lines : ∀ k ∈ v.hunks, ∀ d ∈ k.diffs, ∀ l ∈ d.src ++ d.dst, ∃ t, l = t ++ ['\n'] ∧ t.length < 65534
  numbers : ∀ k ∈ v.hunks, k.srcLine + drift k.srcCount ≤ intMax ∧ k.dstLine + drift k.dstCount ≤ intMax ∧ k.srcCount ≤ intMax ∧ k.dstCount ≤ intMax

/-- Names and time stamps are there (the names without tab or newline), and all lines are whole. -/
structure MView.Complete (v : MView) : Prop extends v.WholeLines where
  source : HeaderField v.source
  destination : HeaderField v.destination
  stamps : v.sourceTimestamp ≠ [] ∧ v.destinationTimestamp ≠ []

/-- No source time stamp is known, as in the diffs of git; all lines are whole, every difference has lines, and none of the lines of the old
file begins with `-- `. -/
structure MView.Gitlike (v : MView) : Prop extends v.WholeLines where
  source : '\t' ∉ v.source ∧ '\n' ∉ v.source
  destination : '\n' ∉ v.destination
  stamp : v.sourceTimestamp = []
  filled : ∀ k ∈ v.hunks, ∀ d ∈ k.diffs, d.src ++ d.dst ≠ []
  quiet : ∀ k ∈ v.hunks, ∀ d ∈ k.diffs, ∀ l ∈ d.src, ¬ str "-- " <+: l

/-- Every hunk has lines in both files. -/
def MView.BothSides (v : MView) : Prop := ∀ k ∈ v.hunks, k.srcCount ≠ 0 ∧ k.dstCount ≠ 0

/-- `name` is the directory `d` and the file name `f`; models are ordered by these (C31). -/
def SourceBefore (cmp : Str → Str → Int) (v w : MView) : Prop :=
  ∃ d f d' f', SplitOf v.source d f ∧ SplitOf w.source d' f' ∧ (cmp d d' < 0 ∨ (cmp d d' = 0 ∧ cmp f f' ≤ 0))

end Spec
end KompareDiff2
