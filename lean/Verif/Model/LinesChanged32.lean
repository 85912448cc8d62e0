import Verif.Model.DiffModel
import Verif.Model.Int32
/-
`DiffModel::linesChanged` (diffmodel.cpp:485-640) with the arithmetic of the code: line numbers are `int`s, an `int` operation that
leaves the range is undefined; the sizes of lists are 64-bit numbers (Qt 6), sums with them are computed in 64 bits and *narrowed* when
they are stored in an `int`.  `Model/LinesChanged.lean` is the same function on unbounded numbers; what computes no line number is
shared with it.
-/
namespace KompareDiff2

/-- The conversion of a 64-bit number (or of an `unsigned int`) to `int`: modulo 2^32. -/
def narrow32 (x : Int) : Int := x.bmod 4294967296

/-- `sourceLineEnd`, difference.cpp:157-162: `int` + `qsizetype`, narrowed by the return type. -/
def Diff.sourceEnd32 (d : Diff) : Int := narrow32 (d.sourceLineNo + d.slc)

/-- `trackingDestinationLineEnd`, difference.cpp:171-176: the same. -/
def Diff.trackingEnd32 (d : Diff) : Int := narrow32 (d.tracking + d.dlc)

/-- `for (int i = lo; …; ++i) result.append(l.at(i - base))`, `n` times. -/
def sliceN32 {α} (l : List α) (base : Int) : (n : Nat) → (i : Int) → Res (List α)
  | 0, _ => Res.ok []
  | n + 1, i => do
    let k ← int32 (i - base)
    let x ← atR l k
    let i ← int32 (i + 1)
    let xs ← sliceN32 l base n i
    Res.ok (x :: xs)

/-- `for (int i = lo; i < hi; ++i) result.append(l.at(i - base))`: the loops at diffmodel.cpp:553, 562, 568, 576, 585 and
diffmodel_p.cpp:70-76. -/
def sliceR32 {α} (l : List α) (base lo hi : Int) : Res (List α) := sliceN32 l base (hi - lo).toNat lo

/-- `lcBefore` with the narrowed end, diffmodel.cpp:500-508. -/
def lcBefore32 (edit : Int) (d : Diff) : Bool :=
  !(decide (d.trackingEnd32 > edit) ||
    (decide (d.trackingEnd32 = edit) && (d.applied || decide (d.tracking = edit))))

/-- `lcLineNumbers` with checked subtractions, diffmodel.cpp:521-537. -/
def lcLineNumbers32 (all rest : List Diff) (edit : Int) : Res (Int × Int) :=
  match rest with
  | [] =>
    match all.getLast? with
    | some l => do
      let k ← int32 (l.trackingEnd32 - edit)
      let s ← int32 (l.sourceEnd32 - k)
      Res.ok (s, edit)
    | none => Res.ok (edit, edit)
  | d :: _ =>
    if d.applied = false ∨ d.tracking ≥ edit then do
      let k ← int32 (d.tracking - edit)
      let s ← int32 (d.sourceLineNo - k)
      Res.ok (s, edit)
    else Res.ok (d.sourceLineNo, d.tracking)

/-- `lcDestLines` with checked indices, diffmodel.cpp:551-564. -/
def lcDestLines32 (first last : Diff) (new : List Str) (edit editEnd : Int) : Res (List Str) := do
  let a ← sliceR32 first.dstText first.tracking first.tracking edit
  let b ← sliceR32 last.dstText last.tracking editEnd last.trackingEnd32
  Res.ok (a ++ new ++ b)

/-- The source lines of an applied difference, `sourceLineCount()` being narrowed, diffmodel.cpp:575-578. -/
def ownLines32 (d : Diff) : Res (List Str) := if d.applied then sliceR32 d.srcText 0 0 (narrow32 d.slc) else Res.ok []

/-- `lcSourceLoop` with checked indices, diffmodel.cpp:573-588. -/
def lcSourceLoop32 (old : List Str) (edit editEnd : Int) : List Diff → Res (List Str)
  | [] => Res.ok []
  | d :: ds => do
    let startPos := if d.applied then d.trackingEnd32 else if d.tracking < edit then edit else d.tracking
    let own ← ownLines32 d
    let endPos := match ds with
      | [] => editEnd
      | n :: _ => n.tracking
    let gap ← sliceR32 old edit startPos endPos
    let rest ← lcSourceLoop32 old edit editEnd ds
    Res.ok (own ++ gap ++ rest)

/-- `lcBlocks` with checked indices, diffmodel.cpp:539-589. -/
def lcBlocks32 (applied : List Diff) (old new : List Str) (edit editEnd : Int) : Res (List Str × List Str) :=
  match applied with
  | [] => Res.ok (old, new)
  | first :: tl => do
    let dst ← lcDestLines32 first ((first :: tl).getLast (by simp)) new edit editEnd
    let pre ← if first.tracking ≥ edit then sliceR32 old edit edit first.tracking else Res.ok []
    let src ← lcSourceLoop32 old edit editEnd (first :: tl)
    Res.ok (pre ++ src, dst)

/-- `computeDiffStats` with the narrowed counts, diffmodel_p.cpp:45-56. -/
def computeDiffStats32 (d : Diff) : Res Diff :=
  let d := if narrow32 d.slc > 0 ∧ narrow32 d.dlc > 0 then { d with type := .Change }
    else if narrow32 d.slc > 0 then { d with type := .Delete }
    else if narrow32 d.dlc > 0 then { d with type := .Insert }
    else d
  d.determineInline

/-- `processStartMarker` with the offset narrowed to `int`, diffmodel_p.cpp:58-79. -/
def processStartMarker32 (lines : List Str) (ms : List Marker) (cur : Int) : Res (List Str × List Marker × Int) :=
  match ms with
  | _ :: e :: ms' => do
    let l ← sliceR32 lines 0 cur (narrow32 e.offset)
    Res.ok (l, ms', narrow32 e.offset)
  | _ => Res.ub

/-- Offset of the next marker as an `int`, or the terminator, diffmodel.cpp:613-614. -/
def nextOffset32 (ms : List Marker) (terminator : Int) : Int :=
  match ms with
  | m :: _ => narrow32 m.offset
  | [] => terminator

/-- The conditional call of `processStartMarker` for one side, diffmodel.cpp:621-626. -/
def lcSide32 (lines : List Str) (ms : List Marker) (next cur : Int) : Res (List Str × List Marker × Int) :=
  if next = cur then processStartMarker32 lines ms cur else Res.ok ([], ms, cur)

/-- `lcMarkerLoop` with checked operations, diffmodel.cpp:605-634. -/
def lcMarkerLoop32 (src dst : List Str) (sNo dNo : Int) :
    Nat → List Marker → List Marker → Int → Int → Res (List Diff)
  | 0, _, _, _, _ => Res.hang
  | fuel + 1, sm, dm, cs, cd =>
    if sm = [] ∧ dm = [] then Res.ok []
    else do
      let terminator : Int := narrow32 (src.length + dst.length + 1)
      let nextS := nextOffset32 sm terminator
      let nextD := nextOffset32 dm terminator
      let k ← int32 (nextD - cd)
      let l ← int32 (nextS - cs)
      let skip := min k l
      let cs ← int32 (cs + skip)
      let cd ← int32 (cd + skip)
      let s ← int32 (sNo + cs)
      let t ← int32 (dNo + cd)
      let diff := Diff.new s t
      let (sl, sm', cs') ← lcSide32 src sm nextS cs
      let diff := sl.foldl Diff.addSource diff
      let (dl, dm', cd') ← lcSide32 dst dm nextD cd
      let diff := dl.foldl Diff.addDest diff
      let diff ← computeDiffStats32 diff
      let diff := diff.applyQuietly true
      let diff := { diff with tracking := diff.destLineNo }
      let rest ← lcMarkerLoop32 src dst sNo dNo fuel sm' dm' cs' cd'
      Res.ok (diff :: rest)

/-- `lcInserted` with the checked loop, diffmodel.cpp:596-634. -/
def lcInserted32 (hash : Str → Nat) (src dst : List Str) (sNo dNo : Int) : Res (List Diff) := do
  let p := stringListPair hash (hash []) src dst
  let r ← LTable.init.createTable p
  let m ← r.2.createListsOfMarkers p
  lcMarkerLoop32 src dst sNo dNo (m.1.length + m.2.length + 1) m.1 m.2 0 0

/-- The renumbering of a difference behind the edit, diffmodel.cpp:636-638: `int` + (`qsizetype` - `qsizetype`), narrowed. -/
def retrack32 (old new : List Str) (d : Diff) : Diff :=
  { d with tracking := narrow32 (d.tracking + ((new.length : Int) - old.length)) }

/-- `linesChanged`, diffmodel.cpp:485-640, with the arithmetic of the code. -/
def linesChanged32 (hash : Str → Nat) (ds : List Diff) (old new : List Str) (edit : Int) : Res LCResult :=
  if old = [] ∧ new = [] then Res.ok ⟨ds, [], [], []⟩
  else do
    let editEnd : Int := narrow32 (edit + old.length)
    let pre := ds.takeWhile (lcBefore32 edit)
    let rest := ds.dropWhile (lcBefore32 edit)
    let mid := rest.takeWhile (lcInside editEnd)
    let post := rest.dropWhile (lcInside editEnd)
    let applied := mid.filter Diff.applied
    let no ← lcLineNumbers32 ds rest edit
    let blocks ← lcBlocks32 applied old new edit editEnd
    let inserted ← lcInserted32 hash blocks.1 blocks.2 no.1 no.2
    Res.ok ⟨pre, mid, inserted, post.map (retrack32 old new)⟩

/-- `linesChanged` on the objects, as `DModel.linesChanged`, with the arithmetic of the code. -/
def DModel.linesChanged32 (hash : Str → Nat) (m : DModel) (h : Heap) (old new : List Str) (edit : Int) :
    Res (DModel × Heap × List Nat × List Nat) := do
  let r ← KompareDiff2.linesChanged32 hash (m.differences.map h.cell) old new edit
  let pre := m.differences.take r.pre.length
  let mid := (m.differences.drop r.pre.length).take r.removed.length
  let post := m.differences.drop (r.pre.length + r.removed.length)
  let a := h.allocAll r.inserted
  let h := a.2.modifyAll (retrack32 old new) post
  Res.ok ({ m with differences := pre ++ a.1 ++ post }, h, a.1, mid)

end KompareDiff2
