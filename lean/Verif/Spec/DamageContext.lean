import Verif.Spec.Damage
import Verif.Spec.ShownContext
/-
Specification of context diffs with lines in the wrong place.
Independent of the parser model (the data types and the name unescaping apart).
-/
namespace KompareDiff2
namespace Spec

/-- A context diff whose first files are as they should be.  After their last hunk stand other lines (written here without their newlines),
then perhaps more files and lines after the last one. -/
structure CutDiff where
  before : List CFile
  mess : List Str
  after : List CFile := []
  trailer : List Str := []
  deriving Repr, DecidableEq

/-- The lines of the diff. -/
def CutDiff.render (d : CutDiff) : List Str := d.before.flatMap CFile.render ++ (ended d.mess ++ (d.after.flatMap CFile.render ++ ended d.trailer))

/-- Whether an `Index: ` line marks the diff as written by CVS. -/
def CutDiff.cvs (d : CutDiff) : Bool := d.render.any (fun l => (str "Index: ").isPrefixOf l)

/-- A line that cannot stand after a hunk: it announces no file, is no header, does not open a hunk, and is no line of a section. -/
def Stray (t : Str) : Prop :=
  ¬ SeparatorLine t ∧ ¬ str "*** " <+: t ∧ ¬ List.replicate 15 '*' <+: t ∧ ∀ x u, t = x :: ' ' :: u → x ≠ ' ' ∧ x ≠ '-' ∧ x ≠ '+' ∧ x ≠ '!'

/-- What is required of such a diff: the first line in the wrong place is recognisable as such, those after it are anything but Perforce
headers and "no newline" remarks.  The rest is as in well-formed diffs (`CDiff.Ok`). -/
structure CutDiff.Ok (d : CutDiff) : Prop where
  files : ∀ f ∈ d.before ++ d.after, f.Ok
  headers : ∀ f ∈ d.before ++ d.after, HeadersOk d.cvs f.src f.dst
  some : d.before ≠ []
  first : ∀ f fs, d.before = f :: fs → ∀ t ∈ f.preamble, CPreamble t
  later : ∀ f fs, d.before = f :: fs ∨ d.after = f :: fs → ∀ g ∈ fs, ∀ t ts, g.preamble = t :: ts → SeparatorLine t
  stray : ∃ t ts, d.mess = t :: ts ∧ Stray t
  mess : ∀ t ∈ d.mess, '\n' ∉ t ∧ ¬ str "==== " <+: t ∧ ¬ str "\\ No newline" <+: t
  trailer : (∀ t ∈ d.trailer, CBetween t) ∧ ∀ t ts, d.trailer = t :: ts → SeparatorLine t

/-- The files among some files that have hunks, as a client sees them. -/
def shownFiles (unesc : Str → Str) (cvs : Bool) (fs : List CFile) : List MView :=
  (fs.filter (fun f => decide (f.hunks ≠ []))).map (fun f => f.view unesc cvs)

/-- A line that opens a file. -/
def opensFile (cvs : Bool) (l : Str) : Prop := if cvs then CvsHeaderLine1 l else ContextHeaderLine "*** " l

end Spec
end KompareDiff2
