import Verif.Spec.Unified
import Verif.Spec.Context
import Verif.Spec.Normal
import Verif.Spec.InlineMarks
/-
Texts as the library holds them: a `QString` is a sequence of UTF-16 code units, and a character outside the basic plane is two of them.  The model's strings are
lists of `Char`; a code unit that is not a character by itself (a surrogate) is written as a private-use character that no encoded text contains otherwise.
-/
namespace KompareDiff2
namespace Spec

/-- The UTF-16 code units of a character. -/
def utf16 (c : Char) : List Nat :=
  if c.toNat < 0x10000 then [c.toNat] else [0xD800 + (c.toNat - 0x10000) / 0x400, 0xDC00 + (c.toNat - 0x10000) % 0x400]

/-- The element of a model string for a code unit: the character with this number, and U+10F800 … U+10FFFF for the surrogates 0xD800 … 0xDFFF. -/
def unitChar (u : Nat) : Char := if 0xD800 ≤ u ∧ u < 0xE000 then Char.ofNat (0x102000 + u) else Char.ofNat u

/-- The code units of a text. -/
def units (t : Str) : Str := t.flatMap (fun c => (utf16 c).map unitChar)

/-- The character needs two code units. -/
def Astral (c : Char) : Prop := 0x10000 ≤ c.toNat

/-- The code units of a line. -/
def Line.units (l : Line) : Line := { l with text := Spec.units l.text }

def Block.units : Block → Block
  | .context ls => .context (ls.map Line.units)
  | .change r a => .change (r.map Line.units) (a.map Line.units)

def UHunk.units (h : UHunk) : UHunk := { h with function := h.function.map Spec.units, blocks := h.blocks.map Block.units }

/-- No line of the hunk is too long in code units. -/
def UHunk.UnitsShort (h : UHunk) : Prop := ∀ b ∈ h.blocks, ∀ l ∈ b.old ++ b.new, (Spec.units l.text).length < 65534

def Header.units (h : Header) : Header := { name := Spec.units h.name, stamp := h.stamp.map Spec.units, extra := h.extra.map Spec.units }

def UFile.units (f : UFile) : UFile :=
  { preamble := f.preamble.map Spec.units, src := f.src.units, dst := f.dst.units, hunks := f.hunks.map UHunk.units }

/-- The diff of the texts in code units. -/
def UDiff.units (d : UDiff) : UDiff := { files := d.files.map UFile.units, trailer := d.trailer.map Spec.units }

def CBlock.units : CBlock → CBlock
  | .context ls => .context (ls.map Spec.units)
  | .delete ls => .delete (ls.map Spec.units)
  | .insert ls => .insert (ls.map Spec.units)
  | .change r a => .change (r.map Spec.units) (a.map Spec.units)

def CHunk.units (h : CHunk) : CHunk := { h with function := h.function.map Spec.units, blocks := h.blocks.map CBlock.units }

/-- No line of the hunk is too long in code units. -/
def CHunk.UnitsShort (h : CHunk) : Prop := ∀ b ∈ h.blocks, ∀ t ∈ b.old ++ b.new, (Spec.units t).length < 65535

def CFile.units (f : CFile) : CFile :=
  { preamble := f.preamble.map Spec.units, src := f.src.units, dst := f.dst.units, hunks := f.hunks.map CHunk.units }

/-- The context diff of the texts in code units. -/
def CDiff.units (d : CDiff) : CDiff := { files := d.files.map CFile.units, trailer := d.trailer.map Spec.units }

/-- The command with its texts in code units. -/
def NCmd.units : NCmd → NCmd
  | .insert after dst ls => .insert after dst (ls.map Spec.units)
  | .delete src ls after => .delete src (ls.map Spec.units) after
  | .change src r dst a => .change src (r.map Spec.units) dst (a.map Spec.units)

/-- What a client sees, in code units. -/
def DView.units (d : DView) : DView := { d with src := d.src.map Spec.units, dst := d.dst.map Spec.units }

def HView.units (h : HView) : HView := { h with function := Spec.units h.function, diffs := h.diffs.map DView.units }

def MView.units (m : MView) : MView :=
  { source := Spec.units m.source, destination := Spec.units m.destination, sourceTimestamp := Spec.units m.sourceTimestamp,
    destinationTimestamp := Spec.units m.destinationTimestamp, sourceRevision := Spec.units m.sourceRevision,
    destinationRevision := Spec.units m.destinationRevision, hunks := m.hunks.map HView.units, differences := m.differences.map DView.units,
    appliedCount := m.appliedCount }

/-- The elements of `l` (whose first element has position `i`) at marked positions. -/
def markedText {α : Type} (m : Nat → Bool) : Nat → List α → List α
  | _, [] => []
  | i, x :: l => if m i then x :: markedText m (i + 1) l else markedText m (i + 1) l

end Spec
end KompareDiff2
