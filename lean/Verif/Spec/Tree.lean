import Verif.Model.Tree
/-
Specification of saving on a file system.
-/
namespace KompareDiff2
namespace Spec

/-- There is a place for the file `file` in the directory `dir` (no final slash): the directory exists, or can be created in an existing one; the file may
be written and is not a directory. -/
structure Place (r : Remote) (t : Tree) (dir file : Str) : Prop where
  name : file ≠ [] ∧ '/' ∉ file
  place : t.dir dir = true ∨
    (t.dir (parentDir dir) = true ∧ r.mayCreate dir = true ∧ t.file dir = none ∧ dir.getLast? ≠ some '/')
  write : r.mayWrite (dir ++ ['/'] ++ file) = true
  free : t.dir (dir ++ ['/'] ++ file) = false

/-- The file `target` has been written with this text, the directory `dir` may have been created; nothing else has changed. -/
def Written (t t' : Tree) (dir target text : Str) : Prop :=
  (∃ p, t'.file target = some (text, p)) ∧ t'.dir dir = true ∧
  (∀ q, q ≠ target → t'.file q = t.file q) ∧ (∀ q, q ≠ dir → t'.dir q = t.dir q)

end Spec
end KompareDiff2
