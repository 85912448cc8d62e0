import Verif.Spec.Blend
import Verif.Spec.Session
/-
Specification of the way from a diff text to a saved file.
-/
namespace KompareDiff2
namespace Spec

/-- The original of a file named `src` in a diff: the file itself if one file was given, otherwise the file of that name in the given
directory (the empty text if it does not exist). -/
def original (e : Env) (url src : Str) : Str :=
  if e.isDir url then
    let path := if url.isPrefixOf src then src else e.filePath url src
    if e.exists_ path then e.contents path else []
  else e.contents url

/-- Saving the model `m` writes `text`: it is uploaded if there is something unsaved and nothing goes wrong, and nothing else is ever
uploaded. -/
def Writes (s : MLState) (m : Nat) (text : Str) : Prop :=
  ((∃ d ∈ (s.store m).differences, (s.heap.cell d).unsaved = true) →
    ∃ s' target, s.saveDestination {} m = Res.ok (s', true) ∧ s'.log = s.log ++ [.upload target text]) ∧
  ∀ v s' b, s.saveDestination v m = Res.ok (s', b) → ∃ new, s'.log = s.log ++ new ∧ ∀ target t, .upload target t ∈ new → t = text

/-- Whatever the user does, saving the model `m` writes the text `S` with exactly those changes made that are not marked as applied;
that is `T` if none is marked, and `S` if all are. -/
def SavesMix (s : MLState) (m : Nat) (S : Str) (T : List Str) : Prop :=
  ∀ ops : List UserOp, (∀ op ∈ ops, op.Ok s) → ∃ s', runUser ops s = Res.ok s' ∧
    (∃ out, Patches 0 ((pending ((s'.store m).hunks.map (Hunk.view s'.heap))).map DView.edit) (split S) out ∧ Writes s' m out.flatten) ∧
    ((∀ d ∈ (s'.store m).differences, (s'.heap.cell d).applied = false) → Writes s' m T.flatten) ∧
    ((∀ d ∈ (s'.store m).differences, (s'.heap.cell d).applied = true) → Writes s' m S)

end Spec
end KompareDiff2
