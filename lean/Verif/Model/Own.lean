import Verif.Model.Difference
/-
The objects behind the values of Model/Difference.lean: `Marker`, `DifferenceString`, `Difference`, `DiffHunk` and `DiffModel` objects with
addresses, the pointers between them, and their destructors.  Elsewhere in the model these are values; here it is modelled which calls
create, share and destroy them.  Reading or destroying an object that was destroyed is undefined behaviour.  Null pointers are left out.
-/
namespace KompareDiff2

/-- `DifferenceStringPrivate`, differencestring_p.h:18-38, with the addresses of its markers. -/
structure OStr where
  string : Str := []
  conflict : Str := []
  hash : UInt32 := 0
  markers : List Nat := []
  deriving Repr, DecidableEq

/-- `DifferencePrivate`, difference_p.h:18-38, with the addresses of its lines. -/
structure ODiff where
  type : DiffType := .Unchanged
  sourceLineNo : Int
  destLineNo : Int
  tracking : Int
  source : List Nat := []
  dest : List Nat := []
  applied : Bool := false
  conflicts : Bool := false
  unsaved : Bool := false
  deriving Repr, DecidableEq

/-- `DiffHunkPrivate`, diffhunk_p.h:18-29, of which only the differences matter here. -/
structure OHunk where
  diffs : List Nat := []
  deriving Repr, DecidableEq

/-- `DiffModelPrivate`, diffmodel_p.h:18-58, of which only the two lists matter here. -/
structure OModel where
  hunks : List Nat := []
  differences : List Nat := []
  deriving Repr, DecidableEq

/-- The memory: what lies at each address, `none` for an object that was not created or was destroyed.  Addresses are never used twice
(a simplification: a dangling pointer never becomes valid again). -/
structure Objs where
  marker : Nat → Option Marker := fun _ => none
  string : Nat → Option OStr := fun _ => none
  diff : Nat → Option ODiff := fun _ => none
  hunk : Nat → Option OHunk := fun _ => none
  model : Nat → Option OModel := fun _ => none
  next : Nat := 0

/-- Storing at an address. -/
def put {α : Type} (f : Nat → Option α) (i : Nat) (v : Option α) : Nat → Option α := fun j => if j = i then v else f j

/-- Following a pointer. -/
def deref {α : Type} (f : Nat → Option α) (i : Nat) : Res α :=
  match f i with
  | some v => Res.ok v
  | none => Res.ub

/-- Following a list of pointers. -/
def readAll {α : Type} (f : Nat → Res α) : List Nat → Res (List α)
  | [] => Res.ok []
  | i :: is => do
    let v ← f i
    let vs ← readAll f is
    Res.ok (v :: vs)

/-- What `string()`, `conflictString()`, `markerList()` and the markers in it show of a string, differencestring.cpp:41-60. -/
def Objs.line (s : Objs) (i : Nat) : Res DStr := do
  let o ← deref s.string i
  let ms ← readAll (deref s.marker) o.markers
  Res.ok { string := o.string, conflict := o.conflict, hash := o.hash, markers := ms }

/-- What the accessors of a difference show, difference.cpp:22-120. -/
def Objs.difference (s : Objs) (i : Nat) : Res Diff := do
  let o ← deref s.diff i
  let ss ← readAll s.line o.source
  let ds ← readAll s.line o.dest
  Res.ok { type := o.type, sourceLineNo := o.sourceLineNo, destLineNo := o.destLineNo, tracking := o.tracking, source := ss, dest := ds,
           applied := o.applied, conflicts := o.conflicts, unsaved := o.unsaved }

/-- The differences a hunk shows, diffhunk.cpp:23-28 (followed in `recreateHunk`, diffhunk.cpp:100-153). -/
def Objs.hunkDifferences (s : Objs) (i : Nat) : Res (List Diff) := do
  let o ← deref s.hunk i
  readAll s.difference o.diffs

/-- The differences a model shows, `differences()`, diffmodel.cpp:114-126. -/
def Objs.modelDifferences (s : Objs) (i : Nat) : Res (List Diff) := do
  let o ← deref s.model i
  readAll s.difference o.differences

/-- The differences in the hunks a model shows, `hunks()`, diffmodel.cpp:100-112. -/
def Objs.modelHunks (s : Objs) (i : Nat) : Res (List (List Diff)) := do
  let o ← deref s.model i
  readAll s.hunkDifferences o.hunks

/-! ### Creating -/

/-- `new Marker(type, offset)`, marker.h:38-42. -/
def Objs.newMarker (s : Objs) (v : Marker) : Objs := { s with marker := put s.marker s.next (some v), next := s.next + 1 }

/-- Several `new Marker`, in the order of the list. -/
def Objs.newMarkers : List Marker → Objs → List Nat × Objs
  | [], s => ([], s)
  | v :: vs, s =>
    let r := Objs.newMarkers vs (s.newMarker v)
    (s.next :: r.1, r.2)

/-- A new string object. -/
def Objs.allocString (s : Objs) (o : OStr) : Objs := { s with string := put s.string s.next (some o), next := s.next + 1 }

/-- `new DifferenceString()`, differencestring.cpp:14-18. -/
def Objs.newEmptyString (s : Objs) : Objs := s.allocString {}

/-- `new DifferenceString(string, markerList)`, differencestring.cpp:20-24, differencestring_p.h:40-45: the list of pointers is copied. -/
def Objs.newString (s : Objs) (t : Str) (ms : List Nat) : Objs := s.allocString { string := t, hash := calculateHash t, markers := ms }

/-- The copy constructor, differencestring.cpp:26-30 with the defaulted one of the private class (differencestring_p.h:23): the markers are
not copied, both strings point to the same ones. -/
def Objs.copyString (s : Objs) (i : Nat) : Res Objs := do
  let o ← deref s.string i
  Res.ok (s.allocString o)

/-- `new Difference(sourceLineNo, destinationLineNo, type)`, difference.cpp:17-20, difference_p.h:40-46. -/
def Objs.newDiff (s : Objs) (a b : Int) (ty : DiffType) : Objs :=
  { s with diff := put s.diff s.next (some { type := ty, sourceLineNo := a, destLineNo := b, tracking := a }), next := s.next + 1 }

/-- `new DiffHunk(…)`, diffhunk.cpp:14-19. -/
def Objs.newHunk (s : Objs) : Objs := { s with hunk := put s.hunk s.next (some {}), next := s.next + 1 }

/-- `new DiffModel()`, diffmodel.cpp:23-35. -/
def Objs.newModel (s : Objs) : Objs := { s with model := put s.model s.next (some {}), next := s.next + 1 }

/-! ### Changing -/

/-- `Marker::setType` and `Marker::setOffset`, marker.h:55-62. -/
def Objs.setMarker (s : Objs) (i : Nat) (v : Marker) : Res Objs := do
  let _ ← deref s.marker i
  Res.ok { s with marker := put s.marker i (some v) }

/-- A change of a string object. -/
def Objs.onString (s : Objs) (i : Nat) (f : OStr → OStr) : Res Objs := do
  let o ← deref s.string i
  Res.ok { s with string := put s.string i (some (f o)) }

/-- `setString`, differencestring.cpp:62-68. -/
def Objs.setString (s : Objs) (i : Nat) (t : Str) : Res Objs := s.onString i (fun o => { o with string := t, hash := calculateHash t })

/-- `setConflictString`, differencestring.cpp:70-75. -/
def Objs.setConflict (s : Objs) (i : Nat) (t : Str) : Res Objs := s.onString i (fun o => { o with conflict := t })

/-- `setMarkerList`, differencestring.cpp:77-82: the markers that were in the list are not destroyed. -/
def Objs.setMarkerList (s : Objs) (i : Nat) (ms : List Nat) : Res Objs := s.onString i (fun o => { o with markers := ms })

/-- `prepend`, differencestring.cpp:84-89. -/
def Objs.prepend (s : Objs) (i m : Nat) : Res Objs := s.onString i (fun o => { o with markers := m :: o.markers })

/-- A change of a difference object. -/
def Objs.onDiff (s : Objs) (i : Nat) (f : ODiff → ODiff) : Res Objs := do
  let o ← deref s.diff i
  Res.ok { s with diff := put s.diff i (some (f o)) }

/-- `addSourceLine`, difference.cpp:129-134. -/
def Objs.addSource (s : Objs) (i : Nat) (l : Str) : Res Objs := do
  let _ ← deref s.diff i
  let t := s.newString l []
  t.onDiff i (fun o => { o with source := o.source ++ [s.next] })

/-- `addDestinationLine`, difference.cpp:136-141. -/
def Objs.addDest (s : Objs) (i : Nat) (l : Str) : Res Objs := do
  let _ ← deref s.diff i
  let t := s.newString l []
  t.onDiff i (fun o => { o with dest := o.dest ++ [s.next] })

/-- `setType`, difference.cpp:122-127. -/
def Objs.setType (s : Objs) (i : Nat) (ty : DiffType) : Res Objs := s.onDiff i (fun o => { o with type := ty })

/-- One pair of lines in `determineInlineDifferences`, difference.cpp:219-227, levenshteintable.h:199-341: every marker prepended to a line
is a new object.  The markers already there are read (the code only follows the first one). -/
def Objs.markPair (s : Objs) (t : LTable) (i j : Nat) : Res (LTable × Objs) := do
  let a ← s.line i
  let b ← s.line j
  let p := differenceStringPair ' ' a.string b.string a.markers b.markers
  let r ← t.createTable p
  let m ← if r.1 ≠ 0 then r.2.createListsOfMarkers p else Res.ok (a.markers, b.markers)
  let x := Objs.newMarkers (m.1.take (m.1.length - a.markers.length)) s
  let s ← x.2.onString i (fun o => { o with markers := x.1 ++ o.markers })
  let y := Objs.newMarkers (m.2.take (m.2.length - b.markers.length)) s
  let s ← y.2.onString j (fun o => { o with markers := y.1 ++ o.markers })
  Res.ok (r.2, s)

/-- The loop of `determineInlineDifferences`, difference.cpp:217-228. -/
def Objs.markPairs : LTable → List Nat → List Nat → Objs → Res Objs
  | t, i :: is, j :: js, s => do
    let r ← s.markPair t i j
    Objs.markPairs r.1 is js r.2
  | _, _, _, s => Res.ok s

/-- `determineInlineDifferences`, difference.cpp:203-229. -/
def Objs.determineInline (s : Objs) (i : Nat) : Res Objs := do
  let o ← deref s.diff i
  if o.type ≠ .Change then Res.ok s
  else if o.source.length ≠ o.dest.length then Res.ok s
  else Objs.markPairs LTable.init o.source o.dest s

/-- `DiffHunk::add`, diffhunk.cpp:65-70. -/
def Objs.hunkAdd (s : Objs) (i d : Nat) : Res Objs := do
  let o ← deref s.hunk i
  Res.ok { s with hunk := put s.hunk i (some { o with diffs := o.diffs ++ [d] }) }

/-- `DiffModel::addHunk`, diffmodel.cpp:367-372. -/
def Objs.addHunk (s : Objs) (i h : Nat) : Res Objs := do
  let o ← deref s.model i
  Res.ok { s with model := put s.model i (some { o with hunks := o.hunks ++ [h] }) }

/-- `DiffModel::addDiff`, diffmodel.cpp:374-380: connects to a signal of the difference, which must exist. -/
def Objs.addDiff (s : Objs) (i d : Nat) : Res Objs := do
  let o ← deref s.model i
  let _ ← deref s.diff d
  Res.ok { s with model := put s.model i (some { o with differences := o.differences ++ [d] }) }

/-! ### Destroying -/

/-- `qDeleteAll`. -/
def deleteAll (f : Objs → Nat → Res Objs) : List Nat → Objs → Res Objs
  | [], s => Res.ok s
  | i :: is, s => do
    let s ← f s i
    deleteAll f is s

/-- `delete marker`, marker.h:43. -/
def Objs.deleteMarker (s : Objs) (i : Nat) : Res Objs := do
  let _ ← deref s.marker i
  Res.ok { s with marker := put s.marker i none }

/-- `delete string`, differencestring.cpp:32, differencestring_p.h:47-50. -/
def Objs.deleteString (s : Objs) (i : Nat) : Res Objs := do
  let o ← deref s.string i
  let s ← deleteAll Objs.deleteMarker o.markers s
  Res.ok { s with string := put s.string i none }

/-- `delete difference`, difference.cpp:22, difference_p.h:46-50. -/
def Objs.deleteDiff (s : Objs) (i : Nat) : Res Objs := do
  let o ← deref s.diff i
  let s ← deleteAll Objs.deleteString o.source s
  let s ← deleteAll Objs.deleteString o.dest s
  Res.ok { s with diff := put s.diff i none }

/-- `delete hunk`, diffhunk.cpp:21: the differences of the hunk are not destroyed. -/
def Objs.deleteHunk (s : Objs) (i : Nat) : Res Objs := do
  let _ ← deref s.hunk i
  Res.ok { s with hunk := put s.hunk i none }

/-- `delete model`, diffmodel.cpp:37, diffmodel_p.h:66-73: destroys the hunks, and the differences in the list of the model. -/
def Objs.deleteModel (s : Objs) (i : Nat) : Res Objs := do
  let o ← deref s.model i
  let s ← deleteAll Objs.deleteHunk o.hunks s
  let s ← deleteAll Objs.deleteDiff o.differences s
  Res.ok { s with model := put s.model i none }

/-- The calls a client can make on these objects. -/
inductive OwnOp where
  | newMarker (v : Marker)
  | newEmptyString
  | newString (t : Str) (ms : List Nat)
  | copyString (i : Nat)
  | newDiff (a b : Int) (ty : DiffType)
  | newHunk
  | newModel
  | setMarker (i : Nat) (v : Marker)
  | setString (i : Nat) (t : Str)
  | setConflict (i : Nat) (t : Str)
  | setMarkerList (i : Nat) (ms : List Nat)
  | prepend (i m : Nat)
  | addSource (i : Nat) (l : Str)
  | addDest (i : Nat) (l : Str)
  | setType (i : Nat) (ty : DiffType)
  | determineInline (i : Nat)
  | hunkAdd (i d : Nat)
  | addHunk (i h : Nat)
  | addDiff (i d : Nat)
  | deleteMarker (i : Nat)
  | deleteString (i : Nat)
  | deleteDiff (i : Nat)
  | deleteHunk (i : Nat)
  | deleteModel (i : Nat)

/-- Making a call. -/
def OwnOp.run (op : OwnOp) (s : Objs) : Res Objs :=
  match op with
  | .newMarker v => Res.ok (s.newMarker v)
  | .newEmptyString => Res.ok s.newEmptyString
  | .newString t ms => Res.ok (s.newString t ms)
  | .copyString i => s.copyString i
  | .newDiff a b ty => Res.ok (s.newDiff a b ty)
  | .newHunk => Res.ok s.newHunk
  | .newModel => Res.ok s.newModel
  | .setMarker i v => s.setMarker i v
  | .setString i t => s.setString i t
  | .setConflict i t => s.setConflict i t
  | .setMarkerList i ms => s.setMarkerList i ms
  | .prepend i m => s.prepend i m
  | .addSource i l => s.addSource i l
  | .addDest i l => s.addDest i l
  | .setType i ty => s.setType i ty
  | .determineInline i => s.determineInline i
  | .hunkAdd i d => s.hunkAdd i d
  | .addHunk i h => s.addHunk i h
  | .addDiff i d => s.addDiff i d
  | .deleteMarker i => s.deleteMarker i
  | .deleteString i => s.deleteString i
  | .deleteDiff i => s.deleteDiff i
  | .deleteHunk i => s.deleteHunk i
  | .deleteModel i => s.deleteModel i

/-- Making calls one after the other. -/
def runOwn : List OwnOp → Objs → Res Objs
  | [], s => Res.ok s
  | op :: ops, s => do
    let s ← op.run s
    runOwn ops s

end KompareDiff2
