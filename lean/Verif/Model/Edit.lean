import Verif.Model.ModelList
/-
Editing one of the models of a `ModelList`: the list hands out its models (`modelAt`, modellist.h:92), and a client that lets the user edit
the text calls `linesChanged` on them.
-/
namespace KompareDiff2
namespace MLState

/-- `list.modelAt(i)->linesChanged(oldLines, newLines, editLineNumber)` for the model `m`: modellist.h:92, diffmodel.cpp:485-640.  The list is
not told about it.  Returns the state, the inserted and the removed differences. -/
def edit (hash : Str → Nat) (m : Nat) (old new : List Str) (line : Int) (s : MLState) : Res (MLState × List Nat × List Nat) := do
  let m ← s.model (some m)
  let r ← (s.store m).linesChanged hash s.heap old new line
  Res.ok ({ (s.setModel m r.1) with heap := r.2.1 }, r.2.2.1, r.2.2.2)

end MLState
end KompareDiff2
