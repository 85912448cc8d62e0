import Verif.Spec.EditScript
import Verif.Spec.Markers
import Verif.Model.Difference
/-
What a user may expect of the markers of a difference: which characters of its lines are highlighted.
-/
namespace KompareDiff2.Spec

/-- The markers of a pair of lines.  Nothing is marked for equal lines, nor for lines whose comparison would need a table of more than
2^24 entries.  Otherwise, if the lines differ in at most half of the longer (padded) length, the characters left unmarked are the same
on both sides and at most as many characters are marked on each side as the edit distance; else both lines are marked in full. -/
def PairMarked (a b : Str) (m1 m2 : List Marker) : Prop :=
  if (a.length + 1) * (b.length + 1) > 2 ^ 24 ∨ a = b then m1 = [] ∧ m2 = []
  else ∃ d, IsDistance true a b d ∧
    if d ≤ max (a.length + 1) (b.length + 1) / 2 then
      unmarkedFrom (changedAt m1) 0 a = unmarkedFrom (changedAt m2) 0 b ∧
      markedFrom (changedAt m1) 0 a ≤ d ∧ markedFrom (changedAt m2) 0 b ≤ d
    else m1 = [⟨.Start, 0⟩, ⟨.End, a.length⟩] ∧ m2 = [⟨.Start, 0⟩, ⟨.End, b.length⟩]

/-- Lines with their markers: a change with as many old as new lines is marked pair by pair, anything else is not marked. -/
def Marked (ty : DiffType) (src dst : List (Str × List Marker)) : Prop :=
  if ty = .Change ∧ src.length = dst.length then ∀ p ∈ src.zip dst, PairMarked p.1.1 p.2.1 p.1.2 p.2.2
  else ∀ x ∈ src ++ dst, x.2 = []

/-- The lines of a difference with their markers, `DifferenceString::string` and `markerList`. -/
def shownLines (l : List DStr) : List (Str × List Marker) := l.map (fun x => (x.string, x.markers))

/-- The markers of a difference are as expected, provided its lines have fewer than 65535 characters (beyond that the size computation
of the table may overflow). -/
def InlineMarked (d : Diff) : Prop :=
  (∀ x ∈ d.source ++ d.dest, x.string.length < 65535) → Marked d.type (shownLines d.source) (shownLines d.dest)

/-- No line is marked. -/
def NoMarks (d : Diff) : Prop := ∀ x ∈ shownLines d.source ++ shownLines d.dest, x.2 = []

end KompareDiff2.Spec
