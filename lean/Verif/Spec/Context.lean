import Verif.Spec.Unified
/-
Specification of context diffs, as written by `diff -c` and `cvs diff -c`: what such a diff says, how it is written, and what a user of
the library sees of it.  Independent of the parser model.
-/
namespace KompareDiff2
namespace Spec

/-- A block of a hunk: unchanged lines, removed lines, added lines, or lines replaced by others (texts without newline). -/
inductive CBlock where
  | context (ls : List Str)
  | delete (ls : List Str)
  | insert (ls : List Str)
  | change (removed added : List Str)
  deriving Repr, DecidableEq

/-- Lines of the old file in a block. -/
def CBlock.old : CBlock → List Str
  | .context ls => ls
  | .delete ls => ls
  | .insert _ => []
  | .change r _ => r

/-- Lines of the new file in a block. -/
def CBlock.new : CBlock → List Str
  | .context ls => ls
  | .delete _ => []
  | .insert ls => ls
  | .change _ a => a

/-- The block is a change. -/
def CBlock.isChange : CBlock → Bool
  | .context _ => false
  | _ => true

/-- The block removes lines. -/
def CBlock.removes : CBlock → Bool
  | .delete _ => true
  | .change _ _ => true
  | _ => false

/-- The block adds lines. -/
def CBlock.adds : CBlock → Bool
  | .insert _ => true
  | .change _ _ => true
  | _ => false

/-- A line of a section: mark, space, text. -/
def markedLine (mark : Char) (t : Str) : Str := mark :: ' ' :: t ++ ['\n']

/-- The block in the old section: `  ` unchanged, `- ` removed, `! ` replaced. -/
def CBlock.oldLines : CBlock → List Str
  | .context ls => ls.map (markedLine ' ')
  | .delete ls => ls.map (markedLine '-')
  | .insert _ => []
  | .change r _ => r.map (markedLine '!')

/-- The block in the new section: `  ` unchanged, `+ ` added, `! ` replacement. -/
def CBlock.newLines : CBlock → List Str
  | .context ls => ls.map (markedLine ' ')
  | .delete _ => []
  | .insert ls => ls.map (markedLine '+')
  | .change _ a => a.map (markedLine '!')

/-- Blocks are not empty; a replacement has both sides. -/
def CBlock.NonEmpty : CBlock → Prop
  | .context ls => ls ≠ []
  | .delete ls => ls ≠ []
  | .insert ls => ls ≠ []
  | .change r a => r ≠ [] ∧ a ≠ []

/-- Unchanged blocks and changes alternate. -/
def Alternating : List CBlock → Prop
  | [] => True
  | [_] => True
  | b :: b' :: bs => b.isChange ≠ b'.isChange ∧ Alternating (b' :: bs)

/-- A hunk: the number of its first line in each file, the function text, the blocks. -/
structure CHunk where
  srcLine : Nat
  dstLine : Nat
  function : Option Str := none
  blocks : List CBlock
  deriving Repr, DecidableEq

/-- Number of lines in the old file. -/
def CHunk.srcCount (h : CHunk) : Nat := (h.blocks.map (fun b => b.old.length)).sum
/-- Number of lines in the new file. -/
def CHunk.dstCount (h : CHunk) : Nat := (h.blocks.map (fun b => b.new.length)).sum

/-- The old section; it is left out when nothing is removed. -/
def CHunk.oldSection (h : CHunk) : List Str := if h.blocks.any CBlock.removes then h.blocks.flatMap CBlock.oldLines else []
/-- The new section; it is left out when nothing is added. -/
def CHunk.newSection (h : CHunk) : List Str := if h.blocks.any CBlock.adds then h.blocks.flatMap CBlock.newLines else []

/-- A range of at least two lines: first and last line number. -/
def lineRange (start count : Nat) : Str := decNat start ++ ',' :: decNat (start + count - 1)

/-- The line that opens a hunk. -/
def CHunk.stars (h : CHunk) : Str :=
  List.replicate 15 '*' ++ (match h.function with | none => [] | some f => ' ' :: f) ++ ['\n']
/-- The line that opens the old section. -/
def CHunk.oldRange (h : CHunk) : Str := str "*** " ++ lineRange h.srcLine h.srcCount ++ str " ****\n"
/-- The line that opens the new section. -/
def CHunk.newRange (h : CHunk) : Str := str "--- " ++ lineRange h.dstLine h.dstCount ++ str " ----\n"

/-- A hunk as `diff -c` writes it. -/
def CHunk.render (h : CHunk) : List Str := h.stars :: h.oldRange :: h.oldSection ++ h.newRange :: h.newSection

/-- A well-formed hunk with at least two lines on each side (for fewer lines `diff` writes another kind of range, which the library
does not understand). -/
structure CHunk.Ok (h : CHunk) : Prop where
  src : 2 ≤ h.srcCount ∧ h.srcLine ≤ 2147483647
  dst : 2 ≤ h.dstCount ∧ h.dstLine ≤ 2147483647
  function : ∀ f, h.function = some f → '\n' ∉ f
  nonEmpty : ∀ b ∈ h.blocks, b.NonEmpty
  alternating : Alternating h.blocks
  changes : ∃ b ∈ h.blocks, b.isChange = true
  lines : ∀ b ∈ h.blocks, ∀ t ∈ b.old ++ b.new, '\n' ∉ t ∧ t.length < 65535

/-- The diff of one file: lines before it, the two header lines, the hunks. -/
structure CFile where
  preamble : List Str := []
  src : Header
  dst : Header
  hunks : List CHunk
  deriving Repr, DecidableEq

/-- The diff of one file as written. -/
def CFile.render (f : CFile) : List Str :=
  f.preamble.map (· ++ ['\n']) ++ [str "*** " ++ f.src.render, str "--- " ++ f.dst.render] ++ f.hunks.flatMap CHunk.render

/-- A context diff: the files and lines after the last one. -/
structure CDiff where
  files : List CFile
  trailer : List Str := []
  deriving Repr, DecidableEq

/-- The lines of a diff. -/
def CDiff.render (d : CDiff) : List Str := d.files.flatMap CFile.render ++ d.trailer.map (· ++ ['\n'])

/-- Whether an `Index: ` line marks the diff as written by CVS. -/
def CDiff.cvs (d : CDiff) : Bool :=
  (d.files.flatMap CFile.preamble ++ d.trailer).any (fun t => (str "Index: ").isPrefixOf t)

/-- A line between files: not a file header, not a Perforce header, not a "no newline" remark. -/
def CBetween (t : Str) : Prop := '\n' ∉ t ∧ ¬ str "*** " <+: t ∧ ¬ str "==== " <+: t ∧ ¬ str "\\ No newline" <+: t

/-- A line before the first file: in addition it does not look like the beginning of a diff in another format. -/
def CPreamble (t : Str) : Prop := PreambleLine t

/-- Headers: `diff` writes the name and perhaps the time stamp; CVS writes the name, the time stamp and the revision (which may be left
out for the new file). -/
def HeadersOk (cvs : Bool) (src dst : Header) : Prop :=
  (cvs = false → src.extra = none ∧ dst.extra = none) ∧ (cvs = true → src.stamp ≠ none ∧ src.extra ≠ none ∧ dst.stamp ≠ none)

/-- A well-formed file diff. -/
structure CFile.Ok (f : CFile) : Prop where
  src : f.src.Ok
  dst : f.dst.Ok
  hunks : ∀ h ∈ f.hunks, h.Ok
  between : ∀ t ∈ f.preamble, CBetween t

/-- A well-formed diff. -/
structure CDiff.Ok (d : CDiff) : Prop where
  files : ∀ f ∈ d.files, f.Ok
  headers : ∀ f ∈ d.files, HeadersOk d.cvs f.src f.dst
  first : ∀ f fs, d.files = f :: fs → ∀ t ∈ f.preamble, CPreamble t
  later : ∀ f fs, d.files = f :: fs → ∀ g ∈ fs, ∀ t ts, g.preamble = t :: ts → SeparatorLine t
  trailer : (∀ t ∈ d.trailer, CBetween t) ∧ ∀ t ts, d.trailer = t :: ts → SeparatorLine t

/-! ### What the diff says -/

/-- The difference a block stands for, at position `a` in the old and `b` in the new file. -/
def CBlock.view (a b : Nat) (k : CBlock) : DView :=
  { type := match k with
      | .context _ => .Unchanged
      | .delete _ => .Delete
      | .insert _ => .Insert
      | .change _ _ => .Change
    srcLine := a
    dstLine := b
    tracking := a
    src := k.old
    dst := k.new
    applied := false
    unsaved := false
    conflicts := false }

/-- The differences of a list of blocks starting at positions `a`, `b`. -/
def cblockViews : Nat → Nat → List CBlock → List DView
  | _, _, [] => []
  | a, b, k :: ks => k.view a b :: cblockViews (a + k.old.length) (b + k.new.length) ks

/-- The hunk as seen by a client. -/
def CHunk.view (h : CHunk) : HView :=
  { srcLine := h.srcLine, dstLine := h.dstLine, function := h.function.getD [], type := .Normal,
    diffs := cblockViews h.srcLine h.dstLine h.blocks }

/-- What the library takes for the time stamps: for a diff written by CVS it takes the revision of the old file, and for the new file the
revision with a tab before it. -/
def shownStamps (cvs : Bool) (src dst : Header) : Str × Str :=
  if cvs then (src.extra.getD [], match dst.extra with | none => [] | some r => '\t' :: r) else (src.stamp.getD [], dst.stamp.getD [])

/-- The file as seen by a client; `unesc` undoes the escaping of names. -/
def CFile.view (unesc : Str → Str) (cvs : Bool) (f : CFile) : MView :=
  { source := unesc f.src.name, destination := unesc f.dst.name,
    sourceTimestamp := (shownStamps cvs f.src f.dst).1, destinationTimestamp := (shownStamps cvs f.src f.dst).2,
    sourceRevision := [], destinationRevision := [],
    hunks := f.hunks.map CHunk.view,
    differences := (f.hunks.flatMap (fun h => h.view.diffs)).filter (fun d => d.type ≠ .Unchanged),
    appliedCount := 0 }

end Spec
end KompareDiff2
