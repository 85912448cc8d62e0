import Verif.Model.Encoding
import Verif.Spec.EndToEnd
/-
Vocabulary for C55: encodings.
-/
namespace KompareDiff2
namespace Spec

/-- What happens to the text settings of a list: an encoding is chosen, or a file with these bytes is read. -/
inductive TextOp where
  | setEncoding (name : Str)
  | readFile (bytes : List UInt8)

/-- One of them. -/
def TextOp.run (q : Codecs) (t : TextState) : TextOp → TextState
  | .setEncoding name => t.setEncoding q name
  | .readFile bytes => (t.readFile q bytes).1

/-- A history of them, beginning with a new list. -/
def runText (q : Codecs) (ops : List TextOp) : TextState := ops.foldl (TextOp.run q) {}

/-- The codec meant by a name: `default` in any case, and unknown names, mean the one of the system. -/
def meant (q : Codecs) (name : Str) : Codec :=
  if name.map Char.toLower = str "default" then q.system else (q.named name).getD q.system

/-- The name chosen last. -/
def chosen (ops : List TextOp) : Option Str :=
  ops.foldl (fun o op => match op with | .setEncoding n => some n | .readFile _ => o) none

/-- The codec in force after a history: the one chosen last, that of the system if none was. -/
def selected (q : Codecs) (ops : List TextOp) : Codec :=
  match chosen ops with
  | some n => meant q n
  | none => q.system

/-- The whole text of a sequence of bytes. -/
def Codec.text (c : Codec) (bytes : List UInt8) : Str := (c.decode c.init bytes).2

/-- The text does not begin with a byte order mark. -/
def NoBom (s : Str) : Prop := ∀ c ∈ s.head?, c.toNat ≠ 0xFEFF

/-- The byte order mark of UTF-8. -/
def bom : List UInt8 := [0xEF, 0xBB, 0xBF]

/-- Saving the model `m` writes these bytes, and never others. -/
def WritesBytes (s : MLState) (m : Nat) (bytes : List UInt8) : Prop := ∃ text, Writes s m text ∧ streamBytes text = bytes

/-- The bytes of the original of a file named `src` in a diff; the same file as in `original`. -/
def originalBytes (e : Env) (bytes : Str → List UInt8) (url src : Str) : List UInt8 :=
  if e.isDir url then
    let path := if url.isPrefixOf src then src else e.filePath url src
    if e.exists_ path then bytes path else []
  else bytes url

/-- Whatever the user does, saving the model `m` writes the bytes `new` if nothing is marked as applied, and `old` if all is. -/
def SavesBytes (s : MLState) (m : Nat) (old new : List UInt8) : Prop :=
  ∀ ops : List UserOp, (∀ op ∈ ops, op.Ok s) → ∃ s', runUser ops s = Res.ok s' ∧
    ((∀ d ∈ (s'.store m).differences, (s'.heap.cell d).applied = false) → WritesBytes s' m new) ∧
    ((∀ d ∈ (s'.store m).differences, (s'.heap.cell d).applied = true) → WritesBytes s' m old)

end Spec
end KompareDiff2
