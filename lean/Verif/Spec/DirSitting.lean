import Verif.Spec.Sitting
import Verif.Spec.Location
/-
Specification of a whole sitting with two directories: comparing, marking, saving, changing files outside, comparing again, any number of times.
-/
namespace KompareDiff2
namespace Spec

/-- The texts of the files of a directory, by what stands after the name of the directory; a file that does not exist counts as empty
(as for `diff -N`). -/
abbrev Texts := Str → Str

/-- The directory `dir` has these texts. -/
def HoldsDir (e : Env) (dir : Str) (A : Texts) : Prop :=
  e.isDir dir = true ∧ ∀ n, (if e.exists_ (dir ++ n) then e.contents (dir ++ n) else []) = A n

/-- What a diff program answers when it compares the directories: exit code 0 if all texts are the same, otherwise a well-formed unified
diff.  Each file in it is named by its places in the two directories, and its hunks change the first text into the second; no two files have
the same name, and every file that differs is there. -/
def DirAnswers (win : Bool) (source destination : Str) (r : ProcessResult) (A B : Texts) : Prop :=
  r.exitStatus = .NormalExit ∧ (A = B → r.exitCode = 0) ∧
  (A ≠ B → r.exitCode ≠ 0 ∧ ∃ (D : UDiff) (rest : UFile → Str), r.stdout = D.render.flatten ∧ D.Ok ∧
    (∀ f ∈ D.files, f.changes = true → Under source (unescapePath win f.src.name) (rest f) ∧ Under destination (unescapePath win f.dst.name) (rest f) ∧
      Patches 0 (f.hunks.map UHunk.edit) (split (A (rest f))) (split (B (rest f)))) ∧
    (D.files.filter UFile.changes).Pairwise (fun f f' => rest f ≠ rest f') ∧
    (∀ n, A n ≠ B n → ∃ f ∈ D.files, f.changes = true ∧ rest f = n))

/-- `DirSitting i s A B p`: a sitting in which the directories of `i` are compared has come to the state `s`; now the files of the source directory
have the texts `A` and those of the destination directory the texts `B`. -/
inductive DirSitting (i : Info) : MLState → Texts → Texts → Phase → Prop where
  /-- `compare()` starts the diff program. -/
  | compare (e : Env) (s s1 : MLState) (A B : Texts) : Reachable s → s.compare e = Res.ok (s1, true) → s1.info = some i → i.mode = .ComparingDirs →
      DirSitting i s1 A B .running
  /-- `refresh()` or `swap()` starts it again. -/
  | again (e : Env) (s s1 : MLState) (A B : Texts) (p : Phase) : DirSitting i s A B p → s.refresh e = Res.ok s1 ∨ s.swap e = Res.ok s1 → DirSitting i s1 A B .running
  /-- The diff program has compared the directories. -/
  | finished (e : Env) (r : ProcessResult) (s s1 : MLState) (A B : Texts) : DirSitting i s A B .running → HoldsDir e i.localSource A →
      DirAnswers e.win i.localSource i.localDestination r A B → A ≠ B → s.slotDiffProcessFinished e r = Res.ok s1 → DirSitting i s1 A B .shown
  /-- The diff program has found no difference. -/
  | identical (e : Env) (r : ProcessResult) (s s1 : MLState) (A : Texts) : DirSitting i s A A .running →
      DirAnswers e.win i.localSource i.localDestination r A A → s.slotDiffProcessFinished e r = Res.ok s1 → DirSitting i s1 A A .idle
  /-- The user navigates, marks, saves. -/
  | user (op : UserOp) (s s1 : MLState) (A B : Texts) (new : List Event) : DirSitting i s A B .shown → op.Ok s → op.run s = Res.ok s1 →
      s1.log = s.log ++ new → DirSitting i s1 A (fun n => fileAfter (i.destination ++ n) (B n) new) .shown
  /-- Somebody changes files with another program; what is shown is not of interest any more. -/
  | edited (s : MLState) (A B A' B' : Texts) (p : Phase) : DirSitting i s A B p → p ≠ .running → DirSitting i s A' B' .idle

/-- At this moment of a sitting the models `ms` are shown, for files with the names `name m`, all different.  Each of these files of the
destination directory has the text of the one in the source directory with exactly those changes made that were not marked when it was
last saved; if nothing is unsaved, those that are not marked now, so with everything marked it is equal.  All other files are equal. -/
structure InStep (i : Info) (s : MLState) (A B : Texts) (ms : List Nat) (name : Nat → Str) : Prop where
  named : ∀ m ∈ ms, Under i.localSource (s.store m).source (name m) ∧ Under i.localDestination (s.store m).destination (name m)
  distinct : ms.Pairwise (fun m m' => name m ≠ name m')
  texts : ∀ m ∈ ms, ∃ out, Patches 0 ((pending ((s.store m).hunks.map (Hunk.view (lastMarks s.heap)))).map DView.edit) (split (A (name m))) out ∧
    B (name m) = out.flatten
  saved : ∀ m ∈ ms, (∀ d ∈ (s.store m).differences, (s.heap.cell d).unsaved = false) →
    (∃ out, Patches 0 ((pending ((s.store m).hunks.map (Hunk.view s.heap))).map DView.edit) (split (A (name m))) out ∧ B (name m) = out.flatten) ∧
    ((∀ d ∈ (s.store m).differences, (s.heap.cell d).applied = true) → B (name m) = A (name m))
  others : ∀ n, (∀ m ∈ ms, name m ≠ n) → B n = A n

end Spec
end KompareDiff2
