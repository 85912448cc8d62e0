import Verif.Spec.Context
/-
Specification of normal diffs, as written by `diff` without options for the format: what such a diff says, how it is written, and what
a user of the library sees of it.  Independent of the parser model.
-/
namespace KompareDiff2
namespace Spec

/-- A command of a normal diff (texts without newline):
`insert after dst ls`: the lines `ls`, which are the lines from `dst` on in the new file, come after line `after` of the old file;
`delete src ls after`: the lines `ls`, from `src` on in the old file, are gone; in the new file they would come after line `after`;
`change src r dst a`: the lines `r` from `src` on in the old file are replaced by the lines `a` from `dst` on in the new file. -/
inductive NCmd where
  | insert (after dst : Nat) (ls : List Str)
  | delete (src : Nat) (ls : List Str) (after : Nat)
  | change (src : Nat) (removed : List Str) (dst : Nat) (added : List Str)
  deriving Repr, DecidableEq

/-- The range of `count` lines from `start` on: a number, or the first and the last number. -/
def shortRange (start count : Nat) : Str :=
  decNat start ++ (if count = 1 then [] else ',' :: decNat (start + count - 1))

/-- The command line. -/
def NCmd.command : NCmd → Str
  | .insert after dst ls => decNat after ++ 'a' :: shortRange dst ls.length ++ ['\n']
  | .delete src ls after => shortRange src ls.length ++ 'd' :: decNat after ++ ['\n']
  | .change src r dst a => shortRange src r.length ++ 'c' :: shortRange dst a.length ++ ['\n']

/-- The lines after the command line: `< ` removed, `> ` added, `---` between them. -/
def NCmd.body : NCmd → List Str
  | .insert _ _ ls => ls.map (markedLine '>')
  | .delete _ ls _ => ls.map (markedLine '<')
  | .change _ r _ a => r.map (markedLine '<') ++ str "---\n" :: a.map (markedLine '>')

/-- A command as `diff` writes it. -/
def NCmd.render (c : NCmd) : List Str := c.command :: c.body

/-- Lines of the old file. -/
def NCmd.old : NCmd → List Str
  | .insert _ _ _ => []
  | .delete _ ls _ => ls
  | .change _ r _ _ => r

/-- Lines of the new file. -/
def NCmd.new : NCmd → List Str
  | .insert _ _ ls => ls
  | .delete _ _ _ => []
  | .change _ _ _ a => a

/-- The two line numbers written first in the ranges. -/
def NCmd.lineNumbers : NCmd → Nat × Nat
  | .insert after dst _ => (after, dst)
  | .delete src _ after => (src, after)
  | .change src _ dst _ => (src, dst)

/-- The kind of the command. -/
def NCmd.type : NCmd → DiffType
  | .insert _ _ _ => .Insert
  | .delete _ _ _ => .Delete
  | .change _ _ _ _ => .Change

/-- A well-formed command: nothing is empty, the numbers are within `int`, the texts have no newline. -/
structure NCmd.Ok (c : NCmd) : Prop where
  nonEmpty : match c with
    | .insert _ _ ls => ls ≠ []
    | .delete _ ls _ => ls ≠ []
    | .change _ r _ a => r ≠ [] ∧ a ≠ []
  numbers : c.lineNumbers.1 ≤ 2147483647 ∧ c.lineNumbers.2 ≤ 2147483647
  lines : ∀ t ∈ c.old ++ c.new, '\n' ∉ t

/-- The hunk a client sees for a command: one difference, at the line numbers of the command. -/
def NCmd.view (c : NCmd) : HView :=
  { srcLine := c.lineNumbers.1, dstLine := c.lineNumbers.2, function := [], type := .Normal,
    diffs := [{ type := c.type, srcLine := c.lineNumbers.1, dstLine := c.lineNumbers.2, tracking := c.lineNumbers.1,
                src := c.old, dst := c.new, applied := false, unsaved := false, conflicts := false }] }

/-- The model a client sees for the commands of one file. -/
def normalView (src dst : Str) (cs : List NCmd) : MView :=
  { source := src, destination := dst, sourceTimestamp := [], destinationTimestamp := [], sourceRevision := [], destinationRevision := [],
    hunks := cs.map NCmd.view, differences := cs.flatMap (fun c => c.view.diffs), appliedCount := 0 }

/-! ### Several files -/

/-- A character the library accepts in an option. -/
def OptionChar (x : Char) : Prop :=
  ('a' ≤ x ∧ x ≤ 'z') ∨ ('A' ≤ x ∧ x ≤ 'Z') ∨ ('0' ≤ x ∧ x ≤ '9') ∨ x = '=' ∨ x = '"'

/-- An option in the line `diff OPTIONS OLD NEW`: one or two dashes, then letters, digits, `=`, `"`. -/
def OptionWord (w : Str) : Prop := ∃ n, n ≠ [] ∧ (∀ x ∈ n, OptionChar x) ∧ (w = '-' :: n ∨ w = '-' :: '-' :: n)

/-- The diff of one file in a recursive comparison: lines before it (such as `Only in …`), the line `diff OPTIONS OLD NEW`, the commands. -/
structure NFile where
  preamble : List Str := []
  options : List Str := []
  src : Str
  dst : Str
  cmds : List NCmd
  deriving Repr, DecidableEq

/-- The line `diff OPTIONS OLD NEW`. -/
def NFile.header (f : NFile) : Str := str "diff " ++ f.options.flatMap (· ++ [' ']) ++ f.src ++ ' ' :: f.dst ++ ['\n']

/-- The diff of one file as written. -/
def NFile.render (f : NFile) : List Str := f.preamble.map (· ++ ['\n']) ++ f.header :: f.cmds.flatMap NCmd.render

/-- Names the library can find in the header line: the text of the old name does not begin with an option, the new name has no space. -/
structure NFile.NamesOk (f : NFile) : Prop where
  src : '\n' ∉ f.src ∧ ∀ w, OptionWord w → ¬ (w ++ [' ']) <+: (f.src ++ [' '])
  dst : '\n' ∉ f.dst ∧ ' ' ∉ f.dst

/-- A line before a file. -/
def NBetween (t : Str) : Prop :=
  PreambleLine t ∧ ¬ str "diff " <+: t ∧ ¬ str "Index: " <+: t ∧ ¬ str "> " <+: t ∧ ¬ str "< " <+: t

/-- A well-formed file diff. -/
structure NFile.Ok (f : NFile) : Prop where
  names : f.NamesOk
  options : ∀ w ∈ f.options, OptionWord w
  between : ∀ t ∈ f.preamble, NBetween t
  cmds : ∀ c ∈ f.cmds, c.Ok

/-! ### CVS -/

/-- One file of a normal diff written by `cvs diff`: the line `Index: NAME`, information lines (`=====…`, `RCS file: …`,
`retrieving revision …`, `diff -r1.1 NAME`), the commands. -/
structure CvsNFile where
  name : Str
  info : List Str
  cmds : List NCmd
  deriving Repr, DecidableEq

/-- The lines of the file. -/
def CvsNFile.render (f : CvsNFile) : List Str :=
  (str "Index: " ++ f.name ++ ['\n']) :: (f.info.map (· ++ ['\n']) ++ f.cmds.flatMap NCmd.render)

/-- Well-formed, with at least one information line, as `cvs diff` always writes. -/
structure CvsNFile.Ok (f : CvsNFile) : Prop where
  name : '\n' ∉ f.name
  hasInfo : f.info ≠ []
  info : ∀ t ∈ f.info, PreambleLine t ∧ ¬ str "Index: " <+: t
  cmds : ∀ c ∈ f.cmds, c.Ok

end Spec
end KompareDiff2
