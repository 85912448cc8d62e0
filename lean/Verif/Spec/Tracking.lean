import Verif.Model.Difference
/-
Where the lines of each difference are in the text obtained by applying exactly the differences flagged as applied.
-/
namespace KompareDiff2.Spec

/-- Number of lines an applied difference adds to the text. -/
def growth (d : Diff) : Int := if d.applied then (d.dlc : Int) - d.slc else 0

/-- `Tracks off ds`: every difference's tracking line number is its source line number plus the growth of all differences
before it (plus `off`). -/
def Tracks : Int → List Diff → Prop
  | _, [] => True
  | off, d :: ds => d.tracking = d.sourceLineNo + off ∧ Tracks (off + growth d) ds

/-- The same, for the difference at position `k`: source line number plus growth of the first `k` differences. -/
def trackingAt (ds : List Diff) (k : Nat) (d : Diff) : Int := d.sourceLineNo + ((ds.take k).map growth).sum

end KompareDiff2.Spec
