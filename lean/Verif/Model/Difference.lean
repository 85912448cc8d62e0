import Verif.Model.Levenshtein
/-
Model of differencestring.{h,cpp}, differencestring_p.h, difference.{h,cpp}, difference_p.h, diffhunk.{h,cpp}, diffhunk_p.h.
-/
namespace KompareDiff2

/-- One round of the hash, differencestring_p.h:67-69 (`unsigned int` arithmetic). -/
def hashStep (hash : UInt32) (c : Char) : UInt32 :=
  hash ^^^ ((hash <<< 5) + UInt32.ofNat c.toNat + (hash >>> 2))

/-- `calculateHash`, differencestring_p.h:60-70. -/
def calculateHash (s : Str) : UInt32 := s.foldl hashStep 1315423911

/-- `DifferenceStringPrivate`, differencestring_p.h:18-38.  The `Marker` objects are values here; for their
addresses and owners see Model/Own.lean. -/
structure DStr where
  string : Str
  conflict : Str := []
  hash : UInt32
  markers : List Marker := []
  deriving Repr, DecidableEq

/-- `DifferenceString()`, differencestring.cpp:14-18: value-initialised private data, so the hash is 0. -/
def DStr.default : DStr := { string := [], hash := 0 }

/-- `DifferenceString(string, markerList)`, differencestring.cpp:20-24, differencestring_p.h:40-45. -/
def DStr.ofStr (s : Str) (ms : List Marker := []) : DStr := { string := s, hash := calculateHash s, markers := ms }

/-- `setString`, differencestring.cpp:62-68. -/
def DStr.setString (d : DStr) (s : Str) : DStr := { d with string := s, hash := calculateHash s }

/-- `setConflictString`, differencestring.cpp:70-75. -/
def DStr.setConflictString (d : DStr) (s : Str) : DStr := { d with conflict := s }

/-- `setMarkerList`, differencestring.cpp:77-82. -/
def DStr.setMarkerList (d : DStr) (ms : List Marker) : DStr := { d with markers := ms }

/-- `prepend`, differencestring.cpp:84-89. -/
def DStr.prepend (d : DStr) (m : Marker) : DStr := { d with markers := m :: d.markers }

/-- `operator==`, differencestring.cpp:34-39, differencestring_p.h:52-58. -/
def DStr.eq (d e : DStr) : Bool := if d.hash ≠ e.hash then false else decide (d.string = e.string)

/-- `Difference::Type`, difference.h:31-36. -/
inductive DiffType where
  | Change
  | Insert
  | Delete
  | Unchanged
  deriving Repr, DecidableEq

/-- `DifferencePrivate`, difference_p.h:18-38. -/
structure Diff where
  type : DiffType := .Unchanged
  sourceLineNo : Int
  destLineNo : Int
  tracking : Int
  source : List DStr := []
  dest : List DStr := []
  applied : Bool := false
  conflicts : Bool := false
  unsaved : Bool := false
  deriving Repr, DecidableEq

/-- Constructor, difference.cpp:17-20, difference_p.h:40-46: the tracking number starts at the *source* line number. -/
def Diff.new (s d : Int) (ty : DiffType := .Unchanged) : Diff :=
  { type := ty, sourceLineNo := s, destLineNo := d, tracking := s }

/-- `addSourceLine`, difference.cpp:129-134. -/
def Diff.addSource (d : Diff) (l : Str) : Diff := { d with source := d.source ++ [DStr.ofStr l] }

/-- `addDestinationLine`, difference.cpp:136-141. -/
def Diff.addDest (d : Diff) (l : Str) : Diff := { d with dest := d.dest ++ [DStr.ofStr l] }

/-- `sourceLineCount`, difference.cpp:143-148. -/
def Diff.slc (d : Diff) : Nat := d.source.length

/-- `destinationLineCount`, difference.cpp:150-155. -/
def Diff.dlc (d : Diff) : Nat := d.dest.length

/-- `sourceLineEnd`, difference.cpp:157-162. -/
def Diff.sourceEnd (d : Diff) : Int := d.sourceLineNo + d.slc

/-- `destinationLineEnd`, difference.cpp:164-169. -/
def Diff.destEnd (d : Diff) : Int := d.destLineNo + d.dlc

/-- `trackingDestinationLineEnd`, difference.cpp:171-176. -/
def Diff.trackingEnd (d : Diff) : Int := d.tracking + d.dlc

/-- The texts of the source lines (`sourceLines()` with `string()`). -/
def Diff.srcText (d : Diff) : List Str := d.source.map DStr.string

/-- The texts of the destination lines. -/
def Diff.dstText (d : Diff) : List Str := d.dest.map DStr.string

/-- `apply`, difference.cpp:178-189; the Boolean tells whether `differenceApplied` is emitted. -/
def Diff.apply (d : Diff) (b : Bool) : Diff × Bool :=
  if b = d.applied then (d, false)
  else ({ d with applied := b, unsaved := !d.unsaved }, true)

/-- `applyQuietly`, difference.cpp:191-201. -/
def Diff.applyQuietly (d : Diff) (b : Bool) : Diff :=
  if d.applied = b then d else { d with unsaved := !d.unsaved, applied := b }

/-- `setUnsaved`, difference.cpp:108-113. -/
def Diff.setUnsaved (d : Diff) (b : Bool) : Diff := { d with unsaved := b }

/-- The loop of `determineInlineDifferences`, difference.cpp:217-228: one table is reused for all line pairs;
a result of 0 means "no markers". -/
def inlineLoop : LTable → List DStr → List DStr → Res (List DStr × List DStr)
  | t, sl :: ss, dl :: ds => do
    let p := differenceStringPair ' ' sl.string dl.string sl.markers dl.markers
    let r ← t.createTable p
    let m ← if r.1 ≠ 0 then r.2.createListsOfMarkers p else Res.ok (sl.markers, dl.markers)
    let rest ← inlineLoop r.2 ss ds
    Res.ok ({ sl with markers := m.1 } :: rest.1, { dl with markers := m.2 } :: rest.2)
  | _, ss, ds => Res.ok (ss, ds)

/-- `determineInlineDifferences`, difference.cpp:203-229. -/
def Diff.determineInline (d : Diff) : Res Diff :=
  if d.type ≠ .Change then Res.ok d
  else if d.slc ≠ d.dlc then Res.ok d
  else do
    let r ← inlineLoop LTable.init d.source d.dest
    Res.ok { d with source := r.1, dest := r.2 }

/-- Source half of `recreateDifference`, difference.cpp:237-252. -/
def Diff.recreateSource (d : Diff) : Str :=
  (d.srcText.map (fun l => match d.type with
    | .Change | .Delete => '-' :: l
    | _ => [])).flatten

/-- Destination half of `recreateDifference`, difference.cpp:254-269. -/
def Diff.recreateDest (d : Diff) : Str :=
  (d.dstText.map (fun l => match d.type with
    | .Change | .Insert => '+' :: l
    | .Unchanged => ' ' :: l
    | .Delete => [])).flatten

/-- `recreateDifference`, difference.cpp:231-272. -/
def Diff.recreate (d : Diff) : Str := d.recreateSource ++ d.recreateDest

/-- `DiffHunk::Type`, diffhunk.h:30-33. -/
inductive HunkType where
  | Normal
  | AddedByBlend
  deriving Repr, DecidableEq

/-- `DiffHunkPrivate`, diffhunk_p.h:17-28.  The list of differences is a parameter: values for a freshly parsed model,
ids (pointers) at run time. -/
structure Hunk (δ : Type) where
  sourceLine : Int
  destLine : Int
  function : Str := []
  type : HunkType := .Normal
  diffs : List δ := []
  deriving Repr, DecidableEq

/-- `DiffHunk::sourceLineCount`, diffhunk.cpp:72-83. -/
def Hunk.slc (h : Hunk Diff) : Nat := (h.diffs.map Diff.slc).sum

/-- `DiffHunk::destinationLineCount`, diffhunk.cpp:85-96. -/
def Hunk.dlc (h : Hunk Diff) : Nat := (h.diffs.map Diff.dlc).sum

/-- Contribution of one difference to `slc` in `recreateHunk`, diffhunk.cpp:106-123. -/
def Diff.headerSlc (d : Diff) : Nat :=
  match d.type with
  | .Unchanged | .Change | .Delete => d.slc
  | .Insert => 0

/-- Contribution of one difference to `dlc` in `recreateHunk`, diffhunk.cpp:106-123. -/
def Diff.headerDlc (d : Diff) : Nat :=
  match d.type with
  | .Unchanged | .Change | .Insert => d.dlc
  | .Delete => 0

/-- Number of source lines announced by `recreateHunk`, diffhunk.cpp:106-123. -/
def Hunk.headerSlc (h : Hunk Diff) : Nat := (h.diffs.map Diff.headerSlc).sum

/-- Number of destination lines announced by `recreateHunk`, diffhunk.cpp:106-123. -/
def Hunk.headerDlc (h : Hunk Diff) : Nat := (h.diffs.map Diff.headerDlc).sum

/-- The header line written by `recreateHunk`, diffhunk.cpp:126-131. -/
def Hunk.header (h : Hunk Diff) : Str :=
  str "@@ -" ++ decInt h.sourceLine ++ str "," ++ decInt h.headerSlc ++ str " +" ++ decInt h.destLine ++
    str "," ++ decInt h.headerDlc ++ str " @@" ++
    (if h.function ≠ [] then ' ' :: h.function else []) ++ str "\n"

/-- `recreateHunk`, diffhunk.cpp:98-137. -/
def Hunk.recreate (h : Hunk Diff) : Str := h.header ++ (h.diffs.map Diff.recreate).flatten

end KompareDiff2
