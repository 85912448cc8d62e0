import Verif.Spec.OnDisk
/-
Specification of what happens to the patch when a patch was opened for a file.
-/
namespace KompareDiff2
namespace Spec

/-- Operations that save. -/
def saving : UserOp → Bool
  | .save _ | .saveModel _ _ | .saveAll _ => true
  | _ => false

/-- Whatever the user does, nothing is written but `url`.  As long as nothing was written `url` has the text it had.  Otherwise it has the text
`S` with exactly those changes made that were not marked when it was last saved; if nothing is unsaved these are the changes not marked now:
none marked gives `T`, all marked gives `S`. -/
def Overwrites (s : MLState) (m : Nat) (url S : Str) (T : List Str) : Prop :=
  ∀ ops : List UserOp, (∀ op ∈ ops, op.Ok s) → ∃ s' new, runUser ops s = Res.ok s' ∧ s'.log = s.log ++ new ∧
    (∀ u t, Event.upload u t ∈ new → u = url) ∧
    ∀ before : Str,
      ((∀ t, Event.upload url t ∉ new) → fileAfter url before new = before) ∧
      ((∃ t, Event.upload url t ∈ new) →
        (∃ out, Patches 0 ((pending ((s'.store m).hunks.map (Hunk.view (lastMarks s'.heap)))).map DView.edit) (split S) out ∧
          fileAfter url before new = out.flatten) ∧
        ((∀ d ∈ (s'.store m).differences, (s'.heap.cell d).unsaved = false) →
          ((∀ d ∈ (s'.store m).differences, (s'.heap.cell d).applied = false) → fileAfter url before new = T.flatten) ∧
          ((∀ d ∈ (s'.store m).differences, (s'.heap.cell d).applied = true) → fileAfter url before new = S)))

end Spec
end KompareDiff2
