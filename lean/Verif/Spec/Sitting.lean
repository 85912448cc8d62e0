import Verif.Spec.OnDisk
import Verif.Spec.Session
/-
Specification of a whole sitting with two files: comparing, marking, saving, editing the files outside, comparing again, any number of times.
-/
namespace KompareDiff2
namespace Spec

/-- What a diff program answers when it compares the texts `A` and `B`: exit code 0 if they are the same, otherwise a well-formed unified diff
of one file whose hunks change the first text into the second. -/
def Answers (r : ProcessResult) (A B : Str) : Prop :=
  r.exitStatus = .NormalExit ∧ (A = B → r.exitCode = 0) ∧
  (A ≠ B → r.exitCode ≠ 0 ∧ ∃ (D : UDiff) (f : UFile), r.stdout = D.render.flatten ∧ D.Ok ∧ D.files.filter UFile.changes = [f] ∧
    Patches 0 (f.hunks.map UHunk.edit) (split A) (split B))

/-- The file `path` exists and has the text `A`. -/
def Holds (e : Env) (path A : Str) : Prop := e.isDir path = false ∧ e.isFile path = true ∧ e.contents path = A

/-- Nothing is shown; the diff program runs; the differences are shown. -/
inductive Phase where
  | idle | running | shown
  deriving Repr, DecidableEq

/-- `Sitting i s A B p`: a sitting in which the files of `i` are compared has come to the state `s`; now the source file has the text `A` and
the destination file the text `B`. -/
inductive Sitting (i : Info) : MLState → Str → Str → Phase → Prop where
  /-- `compare()` starts the diff program. -/
  | compare (e : Env) (s s1 : MLState) (A B : Str) : Reachable s → s.compare e = Res.ok (s1, true) → s1.info = some i → i.mode = .ComparingFiles →
      i.source ≠ i.destination → Sitting i s1 A B .running
  /-- `refresh()` or `swap()` starts it again. -/
  | again (e : Env) (s s1 : MLState) (A B : Str) (p : Phase) : Sitting i s A B p → s.refresh e = Res.ok s1 ∨ s.swap e = Res.ok s1 → Sitting i s1 A B .running
  /-- The diff program has compared the files. -/
  | finished (e : Env) (r : ProcessResult) (s s1 : MLState) (A B : Str) : Sitting i s A B .running → Holds e i.localSource A → Answers r A B →
      s.slotDiffProcessFinished e r = Res.ok s1 → Sitting i s1 A B (if A = B then .idle else .shown)
  /-- The user navigates, marks, saves. -/
  | user (op : UserOp) (s s1 : MLState) (A B : Str) (new : List Event) : Sitting i s A B .shown → op.Ok s → op.run s = Res.ok s1 →
      s1.log = s.log ++ new → Sitting i s1 A (fileAfter i.destination B new) .shown
  /-- Somebody changes the files with another program; what is shown is not of interest any more. -/
  | edited (s : MLState) (A B A' B' : Str) (p : Phase) : Sitting i s A B p → p ≠ .running → Sitting i s A' B' .idle

end Spec
end KompareDiff2
