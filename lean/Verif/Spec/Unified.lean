import Verif.Model.DiffModel
/-
Specification of unified diffs: what a diff text says, how it is written, and what a user of the library sees of it.
Independent of the parser model; the only shared vocabulary are strings, `decNat` (decimal notation) and the data types.
-/
namespace KompareDiff2
namespace Spec

/-! ### What a client sees -/

/-- What can be read from one `Difference` (except the inline markers). -/
structure DView where
  type : DiffType
  srcLine : Int
  dstLine : Int
  tracking : Int
  src : List Str
  dst : List Str
  applied : Bool
  unsaved : Bool
  conflicts : Bool
  deriving Repr, DecidableEq

/-- What can be read from one `DiffHunk`. -/
structure HView where
  srcLine : Int
  dstLine : Int
  function : Str
  type : HunkType
  diffs : List DView
  deriving Repr, DecidableEq

/-- What can be read from one `DiffModel`. -/
structure MView where
  source : Str
  destination : Str
  sourceTimestamp : Str
  destinationTimestamp : Str
  sourceRevision : Str
  destinationRevision : Str
  hunks : List HView
  differences : List DView
  appliedCount : Int
  deriving Repr, DecidableEq

/-! ### Unified diffs -/

/-- A line of a text: its characters without the newline, and whether it ends with a newline (only the last line of a file
may not). -/
structure Line where
  text : Str
  eol : Bool := true
  deriving Repr, DecidableEq

/-- The characters of the line. -/
def Line.value (l : Line) : Str := l.text ++ (if l.eol then ['\n'] else [])

/-- What `diff` writes after a line without newline. -/
def noNewlineMarker : Str := str "\\ No newline at end of file\n"

/-- A line of a hunk as `diff -u` writes it: prefix, text, newline, and the remark if the newline is not in the file. -/
def Line.render (p : Char) (l : Line) : List Str := (p :: l.text ++ ['\n']) :: (if l.eol then [] else [noNewlineMarker])

/-- A block of a hunk: unchanged lines, or removed lines followed by added lines. -/
inductive Block where
  | context (ls : List Line)
  | change (removed added : List Line)
  deriving Repr, DecidableEq

/-- Lines of the old file in a block. -/
def Block.old : Block → List Line
  | .context ls => ls
  | .change r _ => r

/-- Lines of the new file in a block. -/
def Block.new : Block → List Line
  | .context ls => ls
  | .change _ a => a

/-- A block as `diff -u` writes it. -/
def Block.render : Block → List Str
  | .context ls => ls.flatMap (Line.render ' ')
  | .change r a => r.flatMap (Line.render '-') ++ a.flatMap (Line.render '+')

/-- Blocks are not empty. -/
def Block.NonEmpty : Block → Prop
  | .context ls => ls ≠ []
  | .change r a => r ≠ [] ∨ a ≠ []

/-- Whether two blocks can be told apart in the text: unchanged blocks are maximal, and between two changes without unchanged
lines the `+` lines of the first are followed by `-` lines of the second. -/
def Block.Separated : Block → Block → Prop
  | .context _, .context _ => False
  | .change _ a, .change r _ => a ≠ [] ∧ r ≠ []
  | _, _ => True

/-- Consecutive blocks are separated. -/
def SeparatedBlocks : List Block → Prop
  | [] => True
  | [_] => True
  | b :: b' :: bs => b.Separated b' ∧ SeparatedBlocks (b' :: bs)

/-- A hunk: the number of its first line in each file, whether a count of 1 is left out, the function text (and whether there is a space
before it, as `diff` writes), the blocks. -/
structure UHunk where
  srcLine : Nat
  dstLine : Nat
  shortSrc : Bool := false
  shortDst : Bool := false
  function : Option Str := none
  gap : Bool := true
  blocks : List Block
  deriving Repr, DecidableEq

/-- Number of lines in the old file. -/
def UHunk.srcCount (h : UHunk) : Nat := (h.blocks.map (fun b => b.old.length)).sum
/-- Number of lines in the new file. -/
def UHunk.dstCount (h : UHunk) : Nat := (h.blocks.map (fun b => b.new.length)).sum

/-- A range `start,count` of a hunk header: for an empty range the line *before* it is written; a count of 1 can be left out. -/
def range (start count : Nat) (short : Bool) : Str :=
  decNat (if count = 0 then start - 1 else start) ++ (if short then [] else ',' :: decNat count)

/-- The header line of a hunk. -/
def UHunk.header (h : UHunk) : Str :=
  str "@@ -" ++ range h.srcLine h.srcCount h.shortSrc ++ str " +" ++ range h.dstLine h.dstCount h.shortDst ++ str " @@" ++
    (match h.function with | none => [] | some f => if h.gap then ' ' :: f else f) ++ ['\n']

/-- A hunk as `diff -u` writes it. -/
def UHunk.render (h : UHunk) : List Str := h.header :: h.blocks.flatMap Block.render

/-- A range that can be written: the count is left out only if it is 1, an empty range is not before line 1, numbers are `int`. -/
def RangeOk (start count : Nat) (short : Bool) : Prop :=
  (short = true → count = 1) ∧ (count = 0 → 1 ≤ start) ∧ start ≤ 2147483647 ∧ count ≤ 2147483647

/-- A well-formed hunk. -/
structure UHunk.Ok (h : UHunk) : Prop where
  src : RangeOk h.srcLine h.srcCount h.shortSrc
  dst : RangeOk h.dstLine h.dstCount h.shortDst
  function : ∀ f, h.function = some f → '\n' ∉ f ∧ (h.gap = false → f.head? ≠ some ' ')
  nonEmpty : ∀ b ∈ h.blocks, b.NonEmpty
  separated : SeparatedBlocks h.blocks
  lines : ∀ b ∈ h.blocks, ∀ l ∈ b.old ++ b.new, '\n' ∉ l.text ∧ l.text.length < 65534

/-- A file header line: the name as written, the time stamp if there is one, a further field if there is one. -/
structure Header where
  name : Str
  stamp : Option Str := none
  extra : Option Str := none
  deriving Repr, DecidableEq

/-- A header line as written after `--- ` or `+++ `. -/
def Header.render (h : Header) : Str :=
  h.name ++ (match h.stamp with
    | none => []
    | some ts => '\t' :: ts ++ (match h.extra with | none => [] | some e => '\t' :: e)) ++ ['\n']

/-- A well-formed header. -/
structure Header.Ok (h : Header) : Prop where
  name : h.name ≠ [] ∧ '\t' ∉ h.name ∧ '\n' ∉ h.name
  stamp : ∀ ts, h.stamp = some ts → ts ≠ [] ∧ '\t' ∉ ts ∧ '\n' ∉ ts
  extra : ∀ e, h.extra = some e → '\n' ∉ e

/-- The diff of one file: lines before it (without newline), the two header lines, the hunks. -/
structure UFile where
  preamble : List Str := []
  src : Header
  dst : Header
  hunks : List UHunk
  deriving Repr, DecidableEq

/-- The diff of one file as written. -/
def UFile.render (f : UFile) : List Str :=
  f.preamble.map (· ++ ['\n']) ++ [str "--- " ++ f.src.render, str "+++ " ++ f.dst.render] ++ f.hunks.flatMap UHunk.render

/-- A diff: the files and lines after the last one (such as the signature that `git format-patch` writes). -/
structure UDiff where
  files : List UFile
  trailer : List Str := []
  deriving Repr, DecidableEq

/-- The lines of a diff. -/
def UDiff.render (d : UDiff) : List Str := d.files.flatMap UFile.render ++ d.trailer.map (· ++ ['\n'])

/-- A line between files: not a file header, not a Perforce header, not a "no newline" remark. -/
def BetweenLine (t : Str) : Prop :=
  '\n' ∉ t ∧ ¬ str "--- " <+: t ∧ ¬ str "==== " <+: t ∧ ¬ str "\\ No newline" <+: t

/-- A line that may follow a file: it tells that a new file or the signature follows. -/
def SeparatorLine (t : Str) : Prop := str "Index: " <+: t ∨ str "diff " <+: t ∨ str "-- " <+: t

/-- A line before the first file: in addition it does not look like the beginning of a diff in another format. -/
def PreambleLine (t : Str) : Prop :=
  BetweenLine t ∧ ¬ str "*** " <+: t ∧ (∀ x s, t = x :: s → ¬ ('0' ≤ x ∧ x ≤ '9')) ∧
    (∀ x y s, t = x :: y :: s → x = 'a' ∨ x = 'c' ∨ x = 'd' → ¬ ('0' ≤ y ∧ y ≤ '9'))

/-- A well-formed file diff. -/
structure UFile.Ok (f : UFile) : Prop where
  src : f.src.Ok
  dst : f.dst.Ok
  hunks : ∀ h ∈ f.hunks, h.Ok
  between : ∀ t ∈ f.preamble, BetweenLine t

/-- A well-formed diff.  An `Index: ` line makes the library look for the header format of CVS, which has a time stamp. -/
structure UDiff.Ok (d : UDiff) : Prop where
  files : ∀ f ∈ d.files, f.Ok
  first : ∀ f fs, d.files = f :: fs → (∀ t ∈ f.preamble, PreambleLine t) ∧
    ((∃ g ∈ d.files, ∃ t ∈ g.preamble, str "Index: " <+: t) ∨ (∃ t ∈ d.trailer, str "Index: " <+: t) → f.src.stamp ≠ none)
  later : ∀ f fs, d.files = f :: fs → ∀ g ∈ fs, ∀ t ts, g.preamble = t :: ts → SeparatorLine t
  trailer : (∀ t ∈ d.trailer, BetweenLine t) ∧ ∀ t ts, d.trailer = t :: ts → SeparatorLine t

/-! ### What the diff says -/

/-- The difference a block stands for, at position `a` in the old and `b` in the new file. -/
def Block.view (a b : Nat) : Block → DView
  | .context ls =>
    { type := .Unchanged, srcLine := a, dstLine := b, tracking := a, src := ls.map Line.value, dst := ls.map Line.value,
      applied := false, unsaved := false, conflicts := false }
  | .change r d =>
    { type := if r = [] then .Insert else if d = [] then .Delete else .Change, srcLine := a, dstLine := b, tracking := a,
      src := r.map Line.value, dst := d.map Line.value, applied := false, unsaved := false, conflicts := false }

/-- The differences of a list of blocks starting at positions `a`, `b`. -/
def blockViews : Nat → Nat → List Block → List DView
  | _, _, [] => []
  | a, b, k :: ks => k.view a b :: blockViews (a + k.old.length) (b + k.new.length) ks

/-- The hunk as seen by a client. -/
def UHunk.view (h : UHunk) : HView :=
  { srcLine := h.srcLine, dstLine := h.dstLine, function := h.function.getD [], type := .Normal,
    diffs := blockViews h.srcLine h.dstLine h.blocks }

/-- The file as seen by a client; `unesc` undoes the escaping of names. -/
def UFile.view (unesc : Str → Str) (f : UFile) : MView :=
  { source := unesc f.src.name, destination := unesc f.dst.name,
    sourceTimestamp := f.src.stamp.getD [], destinationTimestamp := f.dst.stamp.getD [],
    sourceRevision := [], destinationRevision := [],
    hunks := f.hunks.map UHunk.view,
    differences := (f.hunks.flatMap (fun h => h.view.diffs)).filter (fun d => d.type ≠ .Unchanged),
    appliedCount := 0 }

/-- The block is a change. -/
def Block.isChange : Block → Bool
  | .context _ => false
  | .change _ _ => true

/-- The file diff contains a change. -/
def UFile.changes (f : UFile) : Bool := f.hunks.any (fun h => h.blocks.any Block.isChange)

end Spec

/-- What can be read from a `Difference`. -/
def Diff.view (d : Diff) : Spec.DView :=
  { type := d.type, srcLine := d.sourceLineNo, dstLine := d.destLineNo, tracking := d.tracking, src := d.srcText, dst := d.dstText,
    applied := d.applied, unsaved := d.unsaved, conflicts := d.conflicts }

/-- What can be read from a `DiffHunk` on a heap. -/
def Hunk.view (h : Heap) (k : Hunk Nat) : Spec.HView :=
  { srcLine := k.sourceLine, dstLine := k.destLine, function := k.function, type := k.type,
    diffs := k.diffs.map (fun i => (h.cell i).view) }

/-- What can be read from a `DiffModel` on a heap. -/
def DModel.view (h : Heap) (m : DModel) : Spec.MView :=
  { source := m.source, destination := m.destination, sourceTimestamp := m.sourceTimestamp,
    destinationTimestamp := m.destinationTimestamp, sourceRevision := m.sourceRevision,
    destinationRevision := m.destinationRevision, hunks := m.hunks.map (Hunk.view h),
    differences := m.differences.map (fun i => (h.cell i).view), appliedCount := m.appliedCount }

end KompareDiff2
