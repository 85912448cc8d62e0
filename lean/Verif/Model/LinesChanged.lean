import Verif.Model.Difference
/-
Model of `DiffModel::linesChanged` (diffmodel.cpp:485-640) and of the helpers `computeDiffStats`, `processStartMarker`
(diffmodel_p.cpp:45-79), on the list of difference *values*.  `Verif/Model/DiffModel.lean` lifts it to the heap of
`Difference` objects.
-/
namespace KompareDiff2

/-- `for (i = lo; i < lo + n; ++i) result.append(l.at(i))` -/
def sliceN {α} (l : List α) : (n : Nat) → (lo : Int) → Res (List α)
  | 0, _ => Res.ok []
  | n + 1, lo => do
    let x ← atR l lo
    let xs ← sliceN l n (lo + 1)
    Res.ok (x :: xs)

/-- `for (i = lo; i < hi; ++i) result.append(l.at(i))`, the loops at diffmodel.cpp:553, 562, 568, 585 and
diffmodel_p.cpp:70-76. -/
def sliceR {α} (l : List α) (lo hi : Int) : Res (List α) := sliceN l (hi - lo).toNat lo

/-- Continuation condition of the search for `iterBegin`, diffmodel.cpp:500-508 (negated `break` condition). -/
def lcBefore (edit : Int) (d : Diff) : Bool :=
  !(decide (d.trackingEnd > edit) ||
    (decide (d.trackingEnd = edit) && (d.applied || decide (d.tracking = edit))))

/-- Continuation condition of the search for `iterEnd`, diffmodel.cpp:510-519 (negated `break` condition). -/
def lcInside (editEnd : Int) (d : Diff) : Bool :=
  !(decide (d.tracking > editEnd) || (!d.applied && decide (d.tracking = editEnd)))

/-- The computation of `sourceLineNumber` and `destinationLineNumber`, diffmodel.cpp:521-537. `rest` is
`[iterBegin, end)`, `all` the whole list. -/
def lcLineNumbers (all rest : List Diff) (edit : Int) : Int × Int :=
  match rest with
  | [] =>
    match all.getLast? with
    | some l => (l.sourceEnd - (l.trackingEnd - edit), edit)
    | none => (edit, edit)
  | d :: _ =>
    if d.applied = false ∨ d.tracking ≥ edit then (d.sourceLineNo - (d.tracking - edit), edit)
    else (d.sourceLineNo, d.tracking)

/-- The destination block, diffmodel.cpp:551-564. -/
def lcDestLines (first last : Diff) (new : List Str) (edit editEnd : Int) : Res (List Str) := do
  let a ← sliceR first.dstText (first.tracking - first.tracking) (edit - first.tracking)
  let b ← sliceR last.dstText (editEnd - last.tracking) (last.trackingEnd - last.tracking)
  Res.ok (a ++ new ++ b)

/-- The loop over the applied differences building the source block, diffmodel.cpp:573-588. -/
def lcSourceLoop (old : List Str) (edit editEnd : Int) : List Diff → Res (List Str)
  | [] => Res.ok []
  | d :: ds => do
    let startPos := if d.applied then d.trackingEnd else if d.tracking < edit then edit else d.tracking
    let own := if d.applied then d.srcText else []
    let endPos := match ds with
      | [] => editEnd
      | n :: _ => n.tracking
    let gap ← sliceR old (startPos - edit) (endPos - edit)
    let rest ← lcSourceLoop old edit editEnd ds
    Res.ok (own ++ gap ++ rest)

/-- The source and destination blocks that are compared, diffmodel.cpp:539-589. -/
def lcBlocks (applied : List Diff) (old new : List Str) (edit editEnd : Int) : Res (List Str × List Str) :=
  match applied with
  | [] => Res.ok (old, new)
  | first :: tl => do
    let dst ← lcDestLines first ((first :: tl).getLast (by simp)) new edit editEnd
    let pre ← if first.tracking ≥ edit then sliceR old (edit - edit) (first.tracking - edit) else Res.ok []
    let src ← lcSourceLoop old edit editEnd (first :: tl)
    Res.ok (pre ++ src, dst)

/-- `computeDiffStats`, diffmodel_p.cpp:45-56. -/
def computeDiffStats (d : Diff) : Res Diff :=
  let d := if d.slc > 0 ∧ d.dlc > 0 then { d with type := .Change }
    else if d.slc > 0 then { d with type := .Delete }
    else if d.dlc > 0 then { d with type := .Insert }
    else d
  d.determineInline

/-- `processStartMarker`, diffmodel_p.cpp:58-79: consumes two markers and returns the lines between the current line and
the offset of the second one, the remaining markers and the new current line. -/
def processStartMarker (lines : List Str) (ms : List Marker) (cur : Int) : Res (List Str × List Marker × Int) :=
  match ms with
  | _ :: e :: ms' => do
    let l ← sliceR lines cur e.offset
    Res.ok (l, ms', e.offset)
  | _ => Res.ub

/-- Offset of the next marker, or the terminator, diffmodel.cpp:613-614. -/
def nextOffset (ms : List Marker) (terminator : Int) : Int :=
  match ms with
  | m :: _ => m.offset
  | [] => terminator

/-- The conditional call of `processStartMarker` for one side, diffmodel.cpp:621-626. -/
def lcSide (lines : List Str) (ms : List Marker) (next cur : Int) : Res (List Str × List Marker × Int) :=
  if next = cur then processStartMarker lines ms cur else Res.ok ([], ms, cur)

/-- One difference is created per iteration, diffmodel.cpp:603-634. -/
def lcMarkerLoop (src dst : List Str) (sNo dNo : Int) :
    Nat → List Marker → List Marker → Int → Int → Res (List Diff)
  | 0, _, _, _, _ => Res.hang
  | fuel + 1, sm, dm, cs, cd =>
    if sm = [] ∧ dm = [] then Res.ok []
    else do
      let terminator : Int := src.length + dst.length + 1
      let nextS := nextOffset sm terminator
      let nextD := nextOffset dm terminator
      let skip := min (nextD - cd) (nextS - cs)
      let cs := cs + skip
      let cd := cd + skip
      let diff := Diff.new (sNo + cs) (dNo + cd)
      let (sl, sm', cs') ← lcSide src sm nextS cs
      let diff := sl.foldl Diff.addSource diff
      let (dl, dm', cd') ← lcSide dst dm nextD cd
      let diff := dl.foldl Diff.addDest diff
      let diff ← computeDiffStats diff
      let diff := diff.applyQuietly true
      let diff := { diff with tracking := diff.destLineNo }
      let rest ← lcMarkerLoop src dst sNo dNo fuel sm' dm' cs' cd'
      Res.ok (diff :: rest)

/-- The four consecutive parts of the list of differences after the edit (`removed` is no longer in it). -/
structure LCResult where
  pre : List Diff
  removed : List Diff
  inserted : List Diff
  post : List Diff
  deriving Repr, DecidableEq

/-- The new list of differences. -/
def LCResult.list (r : LCResult) : List Diff := r.pre ++ r.inserted ++ r.post

/-- The differences created for a source block and a destination block, diffmodel.cpp:596-634.  The result of `createTable`
is ignored: when the blocks are too large the markers are computed from the fresh table. `hash` is `qHash`. -/
def lcInserted (hash : Str → Nat) (src dst : List Str) (sNo dNo : Int) : Res (List Diff) := do
  let p := stringListPair hash (hash []) src dst
  let r ← LTable.init.createTable p
  let m ← r.2.createListsOfMarkers p
  lcMarkerLoop src dst sNo dNo (m.1.length + m.2.length + 1) m.1 m.2 0 0

/-- `linesChanged`, diffmodel.cpp:485-640. -/
def linesChanged (hash : Str → Nat) (ds : List Diff) (old new : List Str) (edit : Int) : Res LCResult :=
  if old = [] ∧ new = [] then Res.ok ⟨ds, [], [], []⟩
  else do
    let editEnd : Int := edit + old.length
    let pre := ds.takeWhile (lcBefore edit)
    let rest := ds.dropWhile (lcBefore edit)
    let mid := rest.takeWhile (lcInside editEnd)
    let post := rest.dropWhile (lcInside editEnd)
    let applied := mid.filter Diff.applied
    let no := lcLineNumbers ds rest edit
    let blocks ← lcBlocks applied old new edit editEnd
    let inserted ← lcInserted hash blocks.1 blocks.2 no.1 no.2
    Res.ok ⟨pre, mid, inserted,
      post.map (fun d => { d with tracking := d.tracking + ((new.length : Int) - old.length) })⟩

end KompareDiff2
