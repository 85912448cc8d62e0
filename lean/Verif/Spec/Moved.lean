import Verif.Spec.Session
import Verif.Model.Edit
/-
Two worlds that differ only in the addresses of the objects.
-/
namespace KompareDiff2
namespace Spec

/-- Both computations end in the same way, and if they succeed the results are related. -/
def Agree {α β : Type} (R : α → β → Prop) : Res α → Res β → Prop
  | .ok x, .ok y => R x y
  | .ub, .ub => True
  | .hang, .hang => True
  | _, _ => False

/-- A hunk whose differences were moved by `a`. -/
def moveHunk (a : Nat) (k : Hunk Nat) : Hunk Nat := { k with diffs := k.diffs.map (· + a) }

/-- A model whose differences were moved by `a`. -/
def moveModel (a : Nat) (m : DModel) : DModel :=
  { m with
    hunks := m.hunks.map (moveHunk a), differences := m.differences.map (· + a), selected := m.selected.map (· + a)
    connected := m.connected.map (· + a) }

/-- An event with the differences moved by `a` and the models by `b`. -/
def moveEvent (a b : Nat) : Event → Event
  | .modelsChanged ms => .modelsChanged (ms.map (List.map (· + b)))
  | .selection m d => .selection (m.map (· + b)) (d.map (· + a))
  | .diffSelection d => .diffSelection (d.map (· + a))
  | e => e

/-- The differences of one memory, moved by `a`, are those of the other. -/
structure HeapMoved (a : Nat) (h h' : Heap) : Prop where
  next : h'.next = h.next + a
  cell : ∀ i, i < h.next → h'.cell (i + a) = h.cell i

/-- The model uses only differences below `n`. -/
structure Uses (n : Nat) (m : DModel) : Prop where
  differences : ∀ i ∈ m.differences, i < n
  hunks : ∀ k ∈ m.hunks, ∀ i ∈ k.diffs, i < n
  selected : ∀ i, m.selected = some i → i < n

/-- The same actions are enabled; those for writing exist only if the list can save. -/
structure SameActions (canSave : Bool) (x y : Actions) : Prop where
  previousFile : y.previousFile = x.previousFile
  nextFile : y.nextFile = x.nextFile
  previousDifference : y.previousDifference = x.previousDifference
  nextDifference : y.nextDifference = x.nextDifference
  writing : canSave = true → y = x

/-- The second list is the first one with all differences moved by `a` and all models by `b`.  Everything else is the same, except for what
had been emitted before (`L` and `L'`), for objects of the second list below `a` and `b`, and for memory not in use.  `A` relates the
enabled flags of the actions; `c` tells whether the lists can save. -/
structure MovedBy (A : Actions → Actions → Prop) (c : Bool) (a b : Nat) (L L' : List Event) (s s' : MLState) : Prop where
  heap : HeapMoved a s.heap s'.heap
  nextModel : s'.nextModel = s.nextModel + b
  store : ∀ j, j < s.nextModel → s'.store (j + b) = moveModel a (s.store j)
  uses : ∀ j, j < s.nextModel → Uses s.heap.next (s.store j)
  dead : ∀ j, j + b ∈ s'.dead ↔ j ∈ s.dead
  deadDiffs : ∀ i, i + a ∈ s'.deadDiffs ↔ i ∈ s.deadDiffs
  models : s'.models = s.models.map (List.map (· + b))
  listed : ∀ m ∈ s.models.getD [], m < s.nextModel
  selectedModel : s'.selectedModel = s.selectedModel.map (· + b)
  selectedModelOk : ∀ m, s.selectedModel = some m → m < s.nextModel
  selectedDifference : s'.selectedDifference = s.selectedDifference.map (· + a)
  selectedDifferenceOk : ∀ d, s.selectedDifference = some d → d < s.heap.next
  modelIndex : s'.modelIndex = s.modelIndex
  info : s'.info = s.info
  settings : s'.settings = s.settings
  process : s'.process = s.process
  diffTemp : s'.diffTemp = s.diffTemp
  diffURL : s'.diffURL = s.diffURL
  canSave : s.canSave = c
  canSave' : s'.canSave = c
  isReadWrite : s'.isReadWrite = s.isReadWrite
  actions : A s.actions s'.actions
  log : ∃ t, s.log = L ++ t ∧ s'.log = L' ++ t.map (moveEvent a b)

/-- The second list is the first one, created elsewhere in memory: differences moved by `a`, models by `b`, and the same actions are enabled.
What was emitted before is in `L` and `L'`; since then the two lists have emitted the same. -/
def Alike (a b : Nat) (L L' : List Event) (s s' : MLState) : Prop := MovedBy (SameActions s.canSave) s.canSave a b L L' s s'

/-- A new list, in an empty memory, with the settings and the operands of `u` and with the same process running. -/
def asNew (cell : Nat → Diff) (u : MLState) : MLState :=
  { MLState.init u.settings u.canSave ⟨cell, 0⟩ with
    isReadWrite := u.isReadWrite, info := u.info, process := u.process, diffTemp := u.diffTemp, diffURL := u.diffURL }

/-- The call of a user, with the arguments moved. -/
def moveUser (a b : Nat) : UserOp → UserOp
  | .select m d => .select (m + b) (d + a)
  | .selectDiff d => .selectDiff (d + a)
  | .saveModel v m => .saveModel v (m + b)
  | .saveAll v => .saveAll fun m => v (m - b)
  | op => op

/-- The call with the arguments moved. -/
def moveOp (a b : Nat) : MLOp → MLOp
  | .user op => .user (moveUser a b op)
  | .select m d => .select (m.map (· + b)) (d.map (· + a))
  | .selectDiff d => .selectDiff (d.map (· + a))
  | op => op

/-- The objects passed to the call of a user exist, or existed. -/
def KnownUser (s : MLState) : UserOp → Prop
  | .select m d => m < s.nextModel ∧ d < s.heap.next
  | .selectDiff d => d < s.heap.next
  | .saveModel _ m => m < s.nextModel
  | _ => True

/-- The objects passed to the call exist, or existed. -/
def Known (s : MLState) : MLOp → Prop
  | .user op => KnownUser s op
  | .select m d => (∀ i, m = some i → i < s.nextModel) ∧ ∀ i, d = some i → i < s.heap.next
  | .selectDiff d => ∀ i, d = some i → i < s.heap.next
  | _ => True

/-- The objects passed to each of the calls exist at that time. -/
def AllKnown : List MLOp → MLState → Prop
  | [], _ => True
  | op :: ops, s => Known s op ∧ ∀ t, op.run s = Res.ok t → AllKnown ops t

/-- The files written by the list. -/
def writtenFiles (log : List Event) : List (Str × Str) :=
  log.filterMap fun e => match e with
    | .upload target content => some (target, content)
    | _ => none

/-- The two calls return the same, and if that is success the two lists are alike. -/
def OpensAlike (a b : Nat) (L L' : List Event) (x y : MLState × Bool) : Prop := y.2 = x.2 ∧ (x.2 = true → Alike a b L L' x.1 y.1)

/-- The diff made by the process was read into both lists or into none, and if it was the lists are alike. -/
def ReadsAlike (a b : Nat) (L L' : List Event) (x y : MLState) : Prop :=
  (y.models = none ↔ x.models = none) ∧ (x.models ≠ none → Alike a b L L' x y)

/-- Both lists run the same process, and if it ends with a diff this diff is read alike. -/
def RunsAlike (a b : Nat) (L L' : List Event) (x y : MLState) : Prop :=
  y.process = x.process ∧
  ∀ e r, r.finishedNormally = true → Agree (ReadsAlike a b L L') (x.slotDiffProcessFinished e r) (y.slotDiffProcessFinished e r)

/-- The answers of a list to its client, except for the objects themselves. -/
structure SameAnswers (s s' : MLState) : Prop where
  modelCount : s'.modelCount = s.modelCount
  differenceCount : Agree Eq s.differenceCount s'.differenceCount
  appliedCount : Agree Eq s.appliedCount s'.appliedCount
  currentModel : Agree Eq s.currentModel s'.currentModel
  currentDifference : Agree Eq s.currentDifference s'.currentDifference
  hasUnsavedChanges : s'.hasUnsavedChanges = s.hasUnsavedChanges
  recreateDiff : ∀ e, Agree Eq (s.recreateDiff e) (s'.recreateDiff e)

end Spec
end KompareDiff2
