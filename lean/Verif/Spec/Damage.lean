import Verif.Spec.Shown
/-
Specification of unified diffs that are damaged in some files.
Independent of the parser model (the data types and the name unescaping apart).
-/
namespace KompareDiff2
namespace Spec

/-- The diff of one file of which only the first hunks are as they should be; after them stand any other lines (written here without their
newlines). -/
structure PartFile where
  file : UFile
  mess : List Str := []
  deriving Repr, DecidableEq

/-- Lines with their newlines. -/
def ended (ts : List Str) : List Str := ts.map (· ++ ['\n'])

/-- The diff of the file as written. -/
def PartFile.render (p : PartFile) : List Str := p.file.render ++ ended p.mess

/-- A diff with such files, and lines after the last one. -/
structure PartDiff where
  files : List PartFile
  trailer : List Str := []
  deriving Repr, DecidableEq

/-- The lines of the diff. -/
def PartDiff.render (d : PartDiff) : List Str := d.files.flatMap PartFile.render ++ ended d.trailer

/-- What is required of a damaged diff: the lines that stand in the wrong place are anything but file headers and "no newline" remarks, and
the file after a damaged one is announced by a line `Index: …` or `diff …`.  The rest is as in well-formed diffs (`UDiff.Ok`). -/
structure PartDiff.Ok (d : PartDiff) : Prop where
  files : ∀ p ∈ d.files, p.file.Ok
  mess : ∀ p ∈ d.files, ∀ t ∈ p.mess, BetweenLine t
  announced : ∀ ps p q qs, d.files = ps ++ p :: q :: qs → p.mess ≠ [] → ∃ t ts, q.file.preamble = t :: ts ∧ (str "Index: " <+: t ∨ str "diff " <+: t)
  first : ∀ p ps, d.files = p :: ps → (∀ t ∈ p.file.preamble, PreambleLine t) ∧ ((∃ l ∈ d.render, str "Index: " <+: l) → p.file.src.stamp ≠ none)
  later : ∀ p ps, d.files = p :: ps → ∀ q ∈ ps, ∀ t ts, q.file.preamble = t :: ts → SeparatorLine t
  trailer : (∀ t ∈ d.trailer, BetweenLine t) ∧ ∀ t ts, d.trailer = t :: ts → SeparatorLine t
  last : ∀ ps p, d.files = ps ++ [p] → p.mess ≠ [] → d.trailer = []
  short : ∀ l ∈ d.render, l.length < 65535

/-- What the header of a file says. -/
def UFile.names (unesc : Str → Str) (f : UFile) : FileNames :=
  { source := unesc f.src.name, destination := unesc f.dst.name, sourceTimestamp := f.src.stamp.getD [], destinationTimestamp := f.dst.stamp.getD [] }

/-- A hunk of which only the first blocks were found. -/
def UHunk.cutView (h : UHunk) (bs : List Block) : HView := { h.view with diffs := blockViews h.srcLine h.dstLine bs }

/-- What the two header lines of a file look like within a hunk: a removed and an added line. -/
def UFile.asChange (g : UFile) : Block := .change [{ text := str "-- " ++ g.src.render.dropLast }] [{ text := str "++ " ++ g.dst.render.dropLast }]

/-- The lines left over after the hunks of a file make the diff malformed: there are some, and the first one does not announce another file
or the signature of a mail. -/
def Complaint (left : List Str) : Prop := ∃ l ls, left = l :: ls ∧ ¬ str "Index: " <+: l ∧ ¬ str "diff " <+: l ∧ ¬ str "-- " <+: l

end Spec
end KompareDiff2
