import Verif.Model.ModelList
/-
Specification vocabulary for `ModelList`: what a valid selection is, the sequence of all differences, which actions should be
enabled, the operations of a user.
-/
namespace KompareDiff2
namespace Spec

/-- All differences of all files in order, each with its file. -/
def sequence (s : MLState) : List (Nat × Nat) :=
  (s.models.getD []).flatMap (fun m => (s.store m).differences.map (fun d => (m, d)))

/-- The selection is the element number `p` of the sequence of all differences. -/
def SelectedAt (s : MLState) (p : Nat) : Prop :=
  ∃ m d, (sequence s)[p]? = some (m, d) ∧ s.selectedModel = some m ∧ s.selectedDifference = some d

/-- The selection as seen through the API is consistent: the selected model is the one at the position reported by `currentModel()`,
the selected difference is one of its differences, at the position reported by `currentDifference()`, and it is also what the
model itself regards as its selected and current difference. -/
structure SelectionValid (s : MLState) (ms : List Nat) (k j m d : Nat) : Prop where
  models : s.models = some ms
  model : ms[k]? = some m
  diff : (s.store m).differences[j]? = some d
  selectedModel : s.selectedModel = some m
  selectedDifference : s.selectedDifference = some d
  currentModel : s.currentModel = Res.ok k
  currentDifference : s.currentDifference = Res.ok j
  index : s.modelIndex = k
  modelSelected : (s.store m).selected = some d
  modelIndex : (s.store m).diffIndex = j

/-- The actions for navigation are enabled exactly when they lead somewhere: next (previous) file iff there is a file after (before)
the selected one, next (previous) difference iff there is a difference after (before) the selected one in any file. -/
structure NavigationRight (s : MLState) : Prop where
  nextFile : ∀ ms k m, s.models = some ms → ms[k]? = some m → s.selectedModel = some m → (s.actions.nextFile = true ↔ k + 1 < ms.length)
  previousFile : ∀ ms k m, s.models = some ms → ms[k]? = some m → s.selectedModel = some m → (s.actions.previousFile = true ↔ 0 < k)
  nextDifference : ∀ p, SelectedAt s p → (s.actions.nextDifference = true ↔ p + 1 < (sequence s).length)
  previousDifference : ∀ p, SelectedAt s p → (s.actions.previousDifference = true ↔ 0 < p)

/-- The actions for writing are right: nothing is enabled when read-only; otherwise apply/unapply according to the state of the selected
difference, apply all/unapply all iff the selected file has a difference that is not/is applied, save iff the file has unsaved changes. -/
structure WritingRight (s : MLState) : Prop where
  readOnly : s.isReadWrite = false →
    s.actions.apply = false ∧ s.actions.unapply = false ∧ s.actions.applyAll = false ∧ s.actions.unapplyAll = false ∧ s.actions.save = false
  apply : ∀ d, s.isReadWrite = true → s.selectedDifference = some d →
    (s.actions.apply = true ↔ (s.heap.cell d).applied = false) ∧ (s.actions.unapply = true ↔ (s.heap.cell d).applied = true)
  all : ∀ m, s.isReadWrite = true → s.selectedModel = some m →
    (s.actions.applyAll = true ↔ ∃ d ∈ (s.store m).differences, (s.heap.cell d).applied = false) ∧
    (s.actions.unapplyAll = true ↔ ∃ d ∈ (s.store m).differences, (s.heap.cell d).applied = true)
  save : ∀ m, s.isReadWrite = true → s.selectedModel = some m →
    (s.actions.save = true ↔ ∃ d ∈ (s.store m).differences, (s.heap.cell d).unsaved = true)

end Spec

/-- What a user can do with an open diff. -/
inductive UserOp where
  | nextDifference
  | previousDifference
  | nextFile
  | previousFile
  | select (m d : Nat)
  | selectDiff (d : Nat)
  | apply
  | unapply
  | applyAll
  | unapplyAll
  | applySlot (b : Bool)
  | applyAllSlot (b : Bool)
  | setReadWrite (b : Bool)
  | save (v : MLState.SaveEnv)
  | saveModel (v : MLState.SaveEnv) (m : Nat)
  | saveAll (v : Nat → MLState.SaveEnv)

/-- The operation on the model list. -/
def UserOp.run : UserOp → MLState → Res MLState
  | .nextDifference, s => s.slotNextDifference
  | .previousDifference, s => s.slotPreviousDifference
  | .nextFile, s => s.slotNextModel
  | .previousFile, s => s.slotPreviousModel
  | .select m d, s => s.slotSelectionChanged (some m) (some d)
  | .selectDiff d, s => s.slotDiffSelectionChanged (some d)
  | .apply, s => s.actionApply
  | .unapply, s => s.actionUnapply
  | .applyAll, s => s.actionApplyAll
  | .unapplyAll, s => s.actionUnapplyAll
  | .applySlot b, s => s.slotApplyDifference b
  | .applyAllSlot b, s => s.slotApplyAllDifferences b
  | .setReadWrite b, s => s.setReadWrite b
  | .save v, s => s.slotSaveDestination v
  | .saveModel v m, s => do let r ← s.saveDestination v m; Res.ok r.1
  | .saveAll v, s => do let r ← s.saveAll v; Res.ok r.1

/-- A sequence of operations. -/
def runUser : List UserOp → MLState → Res MLState
  | [], s => Res.ok s
  | op :: ops, s => do
    let s ← op.run s
    runUser ops s

/-- The operation makes sense in the state: a model passed in is one of the list, a difference passed in is an existing object. -/
def UserOp.Ok (s : MLState) : UserOp → Prop
  | .select m d => m ∈ s.models.getD [] ∧ d ∉ s.deadDiffs
  | .selectDiff d => d ∉ s.deadDiffs
  | .saveModel _ m => m ∈ s.models.getD []
  | _ => True

/-- Operations after which the actions are up to date. -/
def UserOp.updates : UserOp → Bool
  | .applySlot _ | .applyAllSlot _ | .save _ | .saveModel _ _ | .saveAll _ | .setReadWrite _ => false
  | _ => true

end KompareDiff2
