import Verif.Model.Disk
/-
The disk during and after saving.
-/
namespace KompareDiff2
namespace Spec

/-- What a save has done to the disk when it is interrupted: other files and temporary files are as before, no directory was removed; the file is as
before, or complete, or the temporary file has the complete text. -/
def Interrupted (d d' : Disk) (target text : Str) (t : Nat) : Prop :=
  (∀ u, u ≠ target → d'.file u = d.file u) ∧ (∀ t', t' ≠ t → d'.temp t' = d.temp t') ∧ (∀ p, d.dir p = true → d'.dir p = true) ∧
  (d'.file target = d.file target ∨ d'.file target = some text ∨ d'.temp t = some text)

/-- What is on the disk when a save has ended. -/
def Ended (d d' : Disk) (target text : Str) (t : Nat) : Option (Option ErrorKind) → Prop
  | none => d' = d
  | some none => d'.file target = some text ∧ d'.temp t = none
  | some (some .upload) => d'.temp t = some text
  | some (some _) => d'.file = d.file ∧ d'.dir = d.dir ∧ (d.temp t = none → d'.temp t = none)

/-- What may be found on the disk `d'` when saving the models `l` one after the other, which began on the disk `d`, is interrupted: the texts of the models
before one of them have been saved or are in their temporary files, that one may be half done (but its text is not lost), the files of the
others and all other files are as before.  `unsaved m` says whether `m` had to be saved, `target m` where to, `text m` is the text. -/
def AllInterrupted (d d' : Disk) (l : List Nat) (unsaved : Nat → Prop) (target text : Nat → Str) (t : Nat → Nat) : Prop :=
  ∃ done rest, l = done ++ rest ∧
    (∀ m ∈ done, unsaved m → d'.file (target m) = some (text m) ∨ d'.temp (t m) = some (text m)) ∧
    (∀ m, rest.head? = some m → d'.file (target m) = d.file (target m) ∨ d'.file (target m) = some (text m) ∨ d'.temp (t m) = some (text m)) ∧
    (∀ u, (∀ m ∈ done ++ rest.take 1, u ≠ target m) → d'.file u = d.file u)

end Spec
end KompareDiff2
