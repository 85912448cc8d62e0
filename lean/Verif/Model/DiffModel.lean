import Verif.Model.LinesChanged
import Verif.Model.Path
/-
Model of `DiffModel` (diffmodel.cpp, diffmodel_p.{h,cpp}) with `Difference` objects on a heap.
A pointer to a `Difference` is a `Nat`; the null pointer is `none`.
-/
namespace KompareDiff2

/-- The heap of `Difference` objects: contents and the next unused address.  Objects are never freed here. -/
structure Heap where
  cell : Nat → Diff
  next : Nat

/-- Write one object. -/
def Heap.set (h : Heap) (i : Nat) (d : Diff) : Heap :=
  { h with cell := fun j => if j = i then d else h.cell j }

/-- Update one object through a pointer. -/
def Heap.modify (h : Heap) (i : Nat) (f : Diff → Diff) : Heap := h.set i (f (h.cell i))

/-- Update the objects of a list one after the other (`for (Difference *d : list) …`). -/
def Heap.modifyAll (h : Heap) (f : Diff → Diff) : List Nat → Heap
  | [] => h
  | i :: is => (h.modify i f).modifyAll f is

/-- `new Difference(…)` for a list of contents; the addresses are consecutive. -/
def Heap.allocAll (h : Heap) : List Diff → List Nat × Heap
  | [] => ([], h)
  | d :: ds =>
    let r := ({ cell := fun j => if j = h.next then d else h.cell j, next := h.next + 1 } : Heap).allocAll ds
    (h.next :: r.1, r.2)

/-- `DiffModelPrivate`, diffmodel_p.h:37-59.  `connected` lists the differences whose signal `differenceApplied` is connected
to `slotDifferenceApplied` of this model (diffmodel.cpp:379). -/
structure DModel where
  source : Str := []
  destination : Str := []
  sourcePath : Str := []
  destinationPath : Str := []
  sourceFile : Str := []
  destinationFile : Str := []
  sourceTimestamp : Str := []
  destinationTimestamp : Str := []
  sourceRevision : Str := []
  destinationRevision : Str := []
  hunks : List (Hunk Nat) := []
  differences : List Nat := []
  appliedCount : Int := 0
  diffIndex : Int := 0
  selected : Option Nat := none
  blended : Bool := false
  connected : List Nat := []
  deriving Repr, DecidableEq

/-- `setSourceFile`, diffmodel.cpp:309-315, diffmodel_p.cpp:15-28. -/
def DModel.setSourceFile (m : DModel) (path : Str) : DModel :=
  let r := splitPath m.sourcePath path
  { m with source := path, sourcePath := r.1, sourceFile := r.2 }

/-- `setDestinationFile`, diffmodel.cpp:317-323, diffmodel_p.cpp:30-43. -/
def DModel.setDestinationFile (m : DModel) (path : Str) : DModel :=
  let r := splitPath m.destinationPath path
  { m with destination := path, destinationPath := r.1, destinationFile := r.2 }

/-- `DiffModel(source, destination)`, diffmodel.cpp:23-30, diffmodel_p.h:61-65. -/
def DModel.new (source destination : Str) : DModel :=
  (({ } : DModel).setSourceFile source).setDestinationFile destination

/-- `operator=`, diffmodel.cpp:39-49, diffmodel_p.h:75-95: hunks, differences, the blended flag and the connections are not copied. -/
def DModel.assign (m other : DModel) : DModel :=
  { m with
    source := other.source, sourcePath := other.sourcePath, sourceFile := other.sourceFile,
    sourceTimestamp := other.sourceTimestamp, sourceRevision := other.sourceRevision,
    destination := other.destination, destinationPath := other.destinationPath, destinationFile := other.destinationFile,
    destinationTimestamp := other.destinationTimestamp, destinationRevision := other.destinationRevision,
    appliedCount := other.appliedCount, diffIndex := other.diffIndex, selected := other.selected }

/-- `addHunk`, diffmodel.cpp:367-372. -/
def DModel.addHunk (m : DModel) (h : Hunk Nat) : DModel := { m with hunks := m.hunks ++ [h] }

/-- `addDiff`, diffmodel.cpp:374-380. -/
def DModel.addDiff (m : DModel) (i : Nat) : DModel :=
  { m with differences := m.differences ++ [i], connected := m.connected ++ [i] }

/-- `QList::indexOf`: index of the first occurrence, or -1. -/
def indexOfI (l : List Nat) (i : Nat) : Int :=
  match l with
  | [] => -1
  | x :: l => if x = i then 0 else
    let r := indexOfI l i
    if r < 0 then -1 else r + 1

/-- `findDifference`, diffmodel.cpp:128-133. -/
def DModel.findDifference (m : DModel) (i : Nat) : Int := indexOfI m.differences i

/-- `localeAwareCompareSource`, diffmodel.cpp:135-148; `cmp` is `QString::localeAwareCompare`. -/
def DModel.compareSource (cmp : Str → Str → Int) (m o : DModel) : Int :=
  let r := cmp m.sourcePath o.sourcePath
  if r = 0 then cmp m.sourceFile o.sourceFile else r

/-- `firstDifference`, diffmodel.cpp:179-190. -/
def DModel.firstDifference (m : DModel) : Res (DModel × Option Nat) := do
  let i ← atR m.differences 0
  Res.ok ({ m with diffIndex := 0, selected := some i }, some i)

/-- `lastDifference`, diffmodel.cpp:192-203. -/
def DModel.lastDifference (m : DModel) : Res (DModel × Option Nat) := do
  let i ← atR m.differences ((m.differences.length : Int) - 1)
  Res.ok ({ m with diffIndex := (m.differences.length : Int) - 1, selected := some i }, some i)

/-- `prevDifference`, diffmodel.cpp:205-220 (`--diffIndex` happens in the condition). -/
def DModel.prevDifference (m : DModel) : Res (DModel × Option Nat) :=
  if m.diffIndex > 0 ∧ m.diffIndex - 1 < m.differences.length then do
    let i ← atR m.differences (m.diffIndex - 1)
    Res.ok ({ m with diffIndex := m.diffIndex - 1, selected := some i }, some i)
  else Res.ok ({ m with selected := none, diffIndex := 0 }, none)

/-- `nextDifference`, diffmodel.cpp:222-237. -/
def DModel.nextDifference (m : DModel) : Res (DModel × Option Nat) :=
  if m.diffIndex + 1 < m.differences.length then do
    let i ← atR m.differences (m.diffIndex + 1)
    Res.ok ({ m with diffIndex := m.diffIndex + 1, selected := some i }, some i)
  else Res.ok ({ m with selected := none, diffIndex := 0 }, none)

/-- `setDiffIndex`, diffmodel.cpp:389-394. -/
def DModel.setDiffIndex (m : DModel) (i : Int) : DModel := { m with diffIndex := i }

/-- `setSelectedDifference`, diffmodel.cpp:466-483.  The null pointer is in no list of differences. -/
def DModel.setSelectedDifference (m : DModel) (diff : Option Nat) : DModel × Bool :=
  if diff ≠ m.selected then
    match diff with
    | none => (m, false)
    | some i =>
      if m.findDifference i = -1 then (m, false)
      else ({ m with diffIndex := m.findDifference i, selected := some i }, true)
  else (m, true)

/-- `hasUnsavedChanges`, diffmodel.cpp:396-403. -/
def DModel.hasUnsavedChanges (m : DModel) (h : Heap) : Bool := m.differences.any (fun i => (h.cell i).unsaved)

/-- `GetDifferenceDelta`, diffmodel.cpp:421-428. -/
def Diff.delta (d : Diff) : Int :=
  let delta : Int := (d.dlc : Int) - d.slc
  if d.applied then delta else -delta

/-- `slotDifferenceApplied`, diffmodel.cpp:430-440. -/
def DModel.slotDifferenceApplied (m : DModel) (h : Heap) (i : Nat) : Heap :=
  let delta := (h.cell i).delta
  let line := (h.cell i).destLineNo
  h.modifyAll (fun c => if c.destLineNo > line then { c with tracking := c.tracking + delta } else c) m.differences

/-- `Difference::apply` (difference.cpp:178-189) on a difference that may be connected to the model: the signal is emitted when
the state changes. -/
def DModel.applyDirect (m : DModel) (h : Heap) (i : Nat) (b : Bool) : Heap :=
  let r := (h.cell i).apply b
  let h := h.set i r.1
  if r.2 ∧ i ∈ m.connected then m.slotDifferenceApplied h i else h

/-- `applyDifference`, diffmodel.cpp:405-419.  With no selection the null pointer is dereferenced. -/
def DModel.applyDifference (m : DModel) (h : Heap) (b : Bool) : Res (DModel × Heap) :=
  match m.selected with
  | none => Res.ub
  | some i =>
    if (h.cell i).applied = b then Res.ok (m, h)
    else
      let count := if b ∧ (h.cell i).applied = false then m.appliedCount + 1
        else if b = false ∧ (h.cell i).applied then m.appliedCount - 1 else m.appliedCount
      Res.ok ({ m with appliedCount := count }, m.applyDirect h i b)

/-- The loop of `applyAllDifferences`, diffmodel.cpp:453-463. -/
def applyAllLoop (b : Bool) : Heap → Int → List Nat → Heap
  | h, _, [] => h
  | h, total, i :: is =>
    let h := h.modify i (fun d => { d with tracking := d.tracking + total })
    if (h.cell i).applied = b then applyAllLoop b h total is
    else
      let h := h.modify i (fun d => d.applyQuietly b)
      applyAllLoop b h (total + (h.cell i).delta) is

/-- `applyAllDifferences`, diffmodel.cpp:442-464. -/
def DModel.applyAllDifferences (m : DModel) (h : Heap) (b : Bool) : DModel × Heap :=
  ({ m with appliedCount := if b then (m.differences.length : Int) else 0 }, applyAllLoop b h 0 m.differences)

/-- `linesChanged`, diffmodel.cpp:485-640, with pointers: the list of differences becomes
`[begin, iterBegin) ++ inserted ++ [iterEnd, end)`, the objects behind the edit get new tracking numbers.  The created objects
are not connected (`addDiff` is not used) and neither `appliedCount` nor the hunks change.
Returns the model, the heap, and the pair (inserted, removed). -/
def DModel.linesChanged (hash : Str → Nat) (m : DModel) (h : Heap) (old new : List Str) (edit : Int) :
    Res (DModel × Heap × List Nat × List Nat) := do
  let r ← KompareDiff2.linesChanged hash (m.differences.map h.cell) old new edit
  let pre := m.differences.take r.pre.length
  let mid := (m.differences.drop r.pre.length).take r.removed.length
  let post := m.differences.drop (r.pre.length + r.removed.length)
  let a := h.allocAll r.inserted
  let h := a.2.modifyAll (fun d => { d with tracking := d.tracking + ((new.length : Int) - old.length) }) post
  Res.ok ({ m with differences := pre ++ a.1 ++ post }, h, a.1, mid)

/-- `recreateDiff`, diffmodel.cpp:150-177. -/
def DModel.recreateDiff (win : Bool) (m : DModel) (h : Heap) : Str :=
  str "--- " ++ escapePath win m.source ++ str "\t" ++ m.sourceTimestamp ++
  (if m.sourceRevision ≠ [] then '\t' :: m.sourceRevision else []) ++ str "\n" ++
  str "+++ " ++ escapePath win m.destination ++ str "\t" ++ m.destinationTimestamp ++
  (if m.destinationRevision ≠ [] then '\t' :: m.destinationRevision else []) ++ str "\n" ++
  ((m.hunks.filter (fun k => k.type ≠ .AddedByBlend)).map (fun k =>
    ({ sourceLine := k.sourceLine, destLine := k.destLine, function := k.function, type := k.type,
       diffs := k.diffs.map h.cell } : Hunk Diff).recreate)).flatten

/-- The calls on one model that a client makes, in any order: the public methods of `DiffModel`, `Difference::apply` on one
of its differences (`direct`), and the clearing of the unsaved flags after a successful save
(`ModelList::saveDestination`, modellist.cpp:360-367). -/
inductive MOp where
  | first
  | last
  | next
  | prev
  | select (p : Option Nat)
  | apply (b : Bool)
  | applyAll (b : Bool)
  | direct (i : Nat) (b : Bool)
  | save
  deriving Repr, DecidableEq

/-- One call. -/
def MOp.run (op : MOp) (s : DModel × Heap) : Res (DModel × Heap) :=
  match op with
  | .first => do let r ← s.1.firstDifference; Res.ok (r.1, s.2)
  | .last => do let r ← s.1.lastDifference; Res.ok (r.1, s.2)
  | .next => do let r ← s.1.nextDifference; Res.ok (r.1, s.2)
  | .prev => do let r ← s.1.prevDifference; Res.ok (r.1, s.2)
  | .select p => Res.ok ((s.1.setSelectedDifference p).1, s.2)
  | .apply b => s.1.applyDifference s.2 b
  | .applyAll b => Res.ok (s.1.applyAllDifferences s.2 b)
  | .direct i b => Res.ok (s.1, s.1.applyDirect s.2 i b)
  | .save => Res.ok (s.1, s.2.modifyAll (fun d => d.setUnsaved false) s.1.differences)

/-- A sequence of calls. -/
def runOps : List MOp → DModel × Heap → Res (DModel × Heap)
  | [], s => Res.ok s
  | op :: ops, s => do
    let s ← op.run s
    runOps ops s

end KompareDiff2
