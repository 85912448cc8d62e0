import Verif.Spec.AnyText
/-
Specification: a diff text that was converted to Windows line ends, so that each line ends with CR LF instead of LF.
-/
namespace KompareDiff2
namespace Spec

/-- The text with CR LF in place of every LF. -/
def crlf (s : Str) : Str := s.flatMap (fun c => if c = '\n' then ['\r', '\n'] else [c])

/-- A text with a carriage return at its end. -/
def cr (t : Str) : Str := t ++ ['\r']

/-- The line with a carriage return before its end; a last line without newline gets one as well, for the diff text shows it with a
newline and the remark. -/
def Line.dos (l : Line) : Line := { l with text := cr l.text }

/-- The block with Windows line ends. -/
def Block.dos : Block → Block
  | .context ls => .context (ls.map Line.dos)
  | .change r a => .change (r.map Line.dos) (a.map Line.dos)

/-- The hunk with Windows line ends: the carriage return of the header line is part of the function text. -/
def UHunk.dos (h : UHunk) : UHunk :=
  { h with
    function := some (cr (h.function.getD []))
    gap := if h.function = none then false else h.gap
    blocks := h.blocks.map Block.dos }

/-- The header line with a Windows line end: the carriage return is part of the last field. -/
def Header.dos (h : Header) : Header :=
  match h.stamp, h.extra with
  | none, _ => { h with name := cr h.name }
  | some ts, none => { h with stamp := some (cr ts) }
  | some _, some e => { h with extra := some (cr e) }

/-- The file diff with Windows line ends. -/
def UFile.dos (f : UFile) : UFile :=
  { preamble := f.preamble.map cr, src := f.src.dos, dst := f.dst.dos, hunks := f.hunks.map UHunk.dos }

/-- The diff with Windows line ends. -/
def UDiff.dos (d : UDiff) : UDiff := { files := d.files.map UFile.dos, trailer := d.trailer.map cr }

/-- The text is recognised as written by `g` in the format `f`. -/
def TextFormat (text : Str) (g : Generator) (f : Format) : Prop :=
  ∃ ls out, LineList ls ∧ ls.flatten = text ∧ Cleaned ls out ∧ WrittenBy g ls ∧ InFormat g out f

/-- The lines of all hunks leave room for a carriage return. -/
def UDiff.Roomy (d : UDiff) : Prop := ∀ f ∈ d.files, ∀ h ∈ f.hunks, ∀ b ∈ h.blocks, ∀ l ∈ b.old ++ b.new, l.text.length < 65533

end Spec
end KompareDiff2
