import Verif.Model.Difference
/-
What it means that a list of differences describes how a source text and the current text differ.
Only the accessors of `Difference` are used.
-/
namespace KompareDiff2.Spec

/-- The lines that the current text holds at a difference: the destination lines if it is applied, the source lines
otherwise. -/
def current (d : Diff) : List Str := if d.applied then d.dstText else d.srcText

/-- `Describes s t S T ds`: `S` is a piece of the source text starting at line number `s`, `T` the corresponding piece of
the current text starting at line number `t`, and `ds` lists, in order, the differences between the two:
`S` and `T` agree on some lines, then there is a difference at exactly this place (its source line number and its
tracking line number tell so) holding the source lines `S` has here and the lines `T` has here, and so on;
after the last difference `S` and `T` agree. -/
inductive Describes : Int → Int → List Str → List Str → List Diff → Prop where
  | done (s t : Int) (common : List Str) : Describes s t common common []
  | diff (s t : Int) (common : List Str) (d : Diff) (S T : List Str) (ds : List Diff) :
      d.sourceLineNo = s + common.length →
      d.tracking = t + common.length →
      Describes (s + common.length + d.srcText.length) (t + common.length + (current d).length) S T ds →
      Describes s t (common ++ (d.srcText ++ S)) (common ++ (current d ++ T)) (d :: ds)

/-- Successive applied differences do not touch: at least one common line lies between them. -/
def Apart : List Diff → Prop
  | [] => True
  | [_] => True
  | d :: d' :: ds => (d.applied = true → d'.applied = true → d.sourceEnd < d'.sourceLineNo) ∧ Apart (d' :: ds)

/-- Every difference holds at least one line, and an unapplied one holds as many source as destination lines. -/
def Fair (d : Diff) : Prop := 0 < d.slc + d.dlc ∧ (d.applied = false → d.slc = d.dlc)

/-- The applied differences that an edit of the lines `e .. E-1` of the current text touches. -/
def touched (e E : Int) (d : Diff) : Bool := d.applied && decide (d.tracking ≤ E) && decide (e ≤ d.trackingEnd)

end KompareDiff2.Spec
