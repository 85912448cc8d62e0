import Verif.Spec.EndToEnd
/-
Specification of the file on the disk while its differences are being looked at.
-/
namespace KompareDiff2
namespace Spec

/-- The text of the file `url`, which was `before`, after the events of a log: an upload to `url` replaces it, nothing else changes it. -/
def fileAfter (url : Str) (before : Str) : List Event → Str
  | [] => before
  | .upload u t :: log => fileAfter url (if u = url then t else before) log
  | _ :: log => fileAfter url before log

/-- The differences with the marks they had when they were last saved (or opened): a difference is unsaved exactly when its mark has
changed since then (C08). -/
def lastMarks (h : Heap) : Heap := { h with cell := fun i => { h.cell i with applied := (h.cell i).applied ^^ (h.cell i).unsaved } }

/-- Whatever the user does, the file `url`, which had the text `T` in the beginning, always has the text `S` with exactly those changes
made that were not marked when it was last saved.  If nothing is unsaved these are the changes not marked now: none marked gives `T`, all
marked gives `S`. -/
def KeepsFile (s : MLState) (m : Nat) (url S : Str) (T : List Str) : Prop :=
  ∀ ops : List UserOp, (∀ op ∈ ops, op.Ok s) → ∃ s' new, runUser ops s = Res.ok s' ∧ s'.log = s.log ++ new ∧
    (∃ out, Patches 0 ((pending ((s'.store m).hunks.map (Hunk.view (lastMarks s'.heap)))).map DView.edit) (split S) out ∧
      fileAfter url T.flatten new = out.flatten) ∧
    ((∀ d ∈ (s'.store m).differences, (s'.heap.cell d).unsaved = false) →
      (∃ out, Patches 0 ((pending ((s'.store m).hunks.map (Hunk.view s'.heap))).map DView.edit) (split S) out ∧
        fileAfter url T.flatten new = out.flatten) ∧
      ((∀ d ∈ (s'.store m).differences, (s'.heap.cell d).applied = false) → fileAfter url T.flatten new = T.flatten) ∧
      ((∀ d ∈ (s'.store m).differences, (s'.heap.cell d).applied = true) → fileAfter url T.flatten new = S))

/-- What a diff program says about two texts: exit code 0 and no output iff they are the same. -/
def Honest (r : ProcessResult) (old new : Str) : Prop :=
  r.exitStatus = .NormalExit ∧ (r.exitCode = 0 ↔ old = new)

end Spec
end KompareDiff2
