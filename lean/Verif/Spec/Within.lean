import Verif.Spec.Blend
import Verif.Spec.Int32
/-
Hunks and the lines of the file they are shown in.
-/
namespace KompareDiff2
namespace Spec

/-- The hunk takes no lines of the old file beyond line `n`. -/
def HView.Within (n : Nat) (k : HView) : Prop := k.old = [] ∨ k.srcLine + (k.old.length : Int) ≤ (n : Int) + 1

/-- Hunks in the order of the old file, without overlap. -/
def Ascending (ks : List HView) : Prop :=
  (∀ k ∈ ks, (1 : Int) ≤ k.srcLine) ∧ ks.Pairwise (fun k k' : HView => k.srcLine + (k.old.length : Int) ≤ k'.srcLine)

/-- The lines of the file and all lines the hunks show for the new file can be counted in an `int`. -/
def Countable (n : Nat) (ks : List HView) : Prop := (n : Int) + ((ks.map (fun k => k.new.length)).sum : Nat) < maxInt

/-- The hunk of a unified diff takes no lines of the old file beyond line `n`. -/
def UHunk.Within (n : Nat) (h : UHunk) : Prop := h.srcCount = 0 ∨ h.srcLine + h.srcCount ≤ n + 1

/-- The hunks of one file of a unified diff are in the order of the old file and do not overlap, and the lines they give for the new file
and the `n` lines of the old one can be counted in an `int`. -/
structure UFile.InOrder (n : Nat) (f : UFile) : Prop where
  first : ∀ h ∈ f.hunks, 1 ≤ h.srcLine
  apart : f.hunks.Pairwise (fun h h' : UHunk => h.srcLine + h.srcCount ≤ h'.srcLine)
  countable : n + (f.hunks.map UHunk.dstCount).sum < 2147483647

end Spec
end KompareDiff2
