import Verif.Model.Parser
/-
The unit tests of the repository (tests/interactivedifftest.cpp, tests/levenshteintest.cpp), evaluated on the model.
These are conformance tests of the transcription, not proofs.  Generated by tools/gen_tests.py from the test data of the repository.
-/
namespace KompareDiff2.Tests

/-- An empty heap. -/
def heap0 : Heap := { cell := fun _ => Diff.new 0 0, next := 0 }
/-- `qHash` is not known; any function serves. -/
def hash0 (_ : Str) : Nat := 0

/-- `parser.parse(patch, &malformed)`, not malformed, one model. -/
def parse1 (patch : List String) : Option (DModel × Heap) :=
  match parse false (fun _ _ => 0) heap0 (patch.map str) with
  | .ok { models := some [m], malformed := false, heap := h } => some (m, h)
  | _ => none

/-- `model->applyAllDifferences(b); model->linesChanged(old, new, line);` -/
def edited (patch : List String) (old new : List String) (line : Int) (b : Bool) : Option (DModel × Heap) := do
  let (m, h) ← parse1 patch
  let (m, h) := m.applyAllDifferences h b
  match m.linesChanged hash0 h (old.map str) (new.map str) line with
  | .ok (m, h, _) => some (m, h)
  | _ => none

/-- A row of `testDifferenceContents`. -/
def contentsRow (patch old new : List String) (line : Int) (b : Bool) (count : Nat) (expected : List (Nat × List String × List String)) : Bool :=
  match edited patch old new line b with
  | none => false
  | some (m, h) => decide (m.differences.length = count) && expected.all (fun e =>
      match m.differences[e.1]? with
      | none => false
      | some i => decide ((h.cell i).srcText = e.2.1.map str) && decide ((h.cell i).dstText = e.2.2.map str))

/-- A row of `testLineNumbers`. -/
def lineNumbersRow (patch old new : List String) (line : Int) (count : Nat) (expected : List (Nat × Int × Int)) : Bool :=
  match edited patch old new line true with
  | none => false
  | some (m, h) => decide (m.differences.length = count) && expected.all (fun e =>
      match m.differences[e.1]? with
      | none => false
      | some i => decide ((h.cell i).sourceLineNo = e.2.1) && decide ((h.cell i).tracking = e.2.2))

-- testOneLineChange
#guard match ({} : DModel).linesChanged hash0 heap0 [str "oldline\n"] [str "newline\n"] 2 with
  | .ok (m, h, _) => m.differences.map (fun i => ((h.cell i).srcText, (h.cell i).dstText, (h.cell i).type)) == [([str "oldline\n"], [str "newline\n"], .Change)]
  | _ => false
-- testSameLine
#guard match ({} : DModel).linesChanged hash0 heap0 [str "oldline1\n", str "oldline2\n"] [str "oldline2\n"] 2 with
  | .ok (m, h, _) => m.differences.map (fun i => ((h.cell i).srcText, (h.cell i).dstText, (h.cell i).type)) == [([str "oldline1\n"], [], .Delete)]
  | _ => false

-- testDifferenceContents and testLineNumbers
@ROWS@

/-- A model built by hand: `new Difference(l, l)`, `addSourceLine`, `addDestinationLine`, `apply(b)`, `addDiff`. -/
def built (ds : List (Int × List String × List String × Bool)) : DModel × Heap :=
  let cells := ds.map (fun d => ((d.2.2.1.foldl (fun x l => x.addDest (str l)) (d.2.1.foldl (fun x l => x.addSource (str l)) (Diff.new d.1 d.1))).apply d.2.2.2).1)
  let al := heap0.allocAll cells
  (al.1.foldl DModel.addDiff {}, al.2)

-- testAppliedTouch
#guard
  let (m, h) := built [(2, ["delete1"], ["insert1"], false), (4, ["delete2"], ["insert2"], false)]
  match m.linesChanged hash0 h [str "oldline\n"] [str "newline\n"] 3 with
  | .ok (m, _, _) => m.differences.length == 3 && m.differences.head? == some 0 && m.differences.getLast? == some 1
  | _ => false
-- testAppliedIntersect
#guard
  let (m, h) := built [(2, ["delete1", "delete2"], ["insert1", "insert2"], false), (5, ["delete3", "delete4"], ["insert3", "insert4"], false)]
  match m.linesChanged hash0 h [str "delete2\n", str "oldline1\n", str "delete3\n"] [str "newline1\n"] 3 with
  | .ok (m, h, _) => m.differences.map (fun i => ((h.cell i).applied, (h.cell i).sourceLineNo, (h.cell i).tracking, (h.cell i).srcText, (h.cell i).dstText)) ==
      [(true, 3, 3, [str "delete2\n", str "oldline1\n", str "delete3\n"], [str "newline1\n"])]
  | _ => false
-- testExistingAndApplied
#guard
  let (m, h) := built [(2, ["delete1"], ["insert1"], true), (3, ["delete2"], ["insert2"], false)]
  match m.linesChanged hash0 h [str "delete1\n"] [str "newline1\n"] 2 with
  | .ok (m, h, _) => m.differences.map (fun i => (h.cell i).applied) == [true, false]
  | _ => false
-- testOneLineDeletionUnapplied
#guard
  let (m, h) := built [(1, ["delete1\n"], [], false)]
  match m.linesChanged hash0 h [str "delete1\n"] [str "newline1\n"] 1 with
  | .ok (m, h, _) => m.differences.map (fun i => ((h.cell i).srcText, (h.cell i).dstText)) == [([str "delete1\n"], [str "newline1\n"])]
  | _ => false

/-- Applied flag, source line, tracking line of all differences. -/
def lines (s : DModel × Heap) : List (Bool × Int × Int) := s.1.differences.map (fun i => ((s.2.cell i).applied, (s.2.cell i).sourceLineNo, (s.2.cell i).tracking))

-- testApplyUnapply
#guard match parse1 @APPLY@ with
  | none => false
  | some (m, h) =>
    let (m, h) := m.applyAllDifferences h true
    let a := (lines (m, h)).all (fun x => x.1)
    let (m, h) := m.applyAllDifferences h false
    let b := lines (m, h) == [(false, 2, 2), (false, 12, 12), (false, 22, 22), (false, 32, 32)]
    let h := m.applyDirect h (m.differences.getD 1 0) true
    let c := lines (m, h) == [(false, 2, 2), (true, 12, 12), (false, 22, 23), (false, 32, 33)]
    let h := m.applyDirect h (m.differences.getD 1 0) true
    let d := lines (m, h) == [(false, 2, 2), (true, 12, 12), (false, 22, 23), (false, 32, 33)]
    let h := m.applyDirect h (m.differences.getD 2 0) true
    let e := lines (m, h) == [(false, 2, 2), (true, 12, 12), (true, 22, 23), (false, 32, 31)]
    let (m, h) := m.applyAllDifferences h true
    let f := lines (m, h) == [(true, 2, 2), (true, 12, 13), (true, 22, 24), (true, 32, 32)]
    let (m, h) := m.applyAllDifferences h true
    let g := lines (m, h) == [(true, 2, 2), (true, 12, 13), (true, 22, 24), (true, 32, 32)]
    decide (m.differences.length = 4) && a && b && c && d && e && f && g

-- testContextDiff
#guard ((parse1 @CTX1@).map (fun s => lines (s.1.applyAllDifferences s.2 true))) == some [(true, 61, 61), (true, 87, 87)]
#guard ((parse1 @CTX2@).map (fun s => lines (s.1.applyAllDifferences s.2 true))) == some [(true, 58, 58)]
-- testNormalDiff
#guard ((parse1 @NORMAL@).map (fun s => lines (s.1.applyAllDifferences s.2 true))) == some [(true, 1, 1)]

/-! ### levenshteintest.cpp -/

/-- The marker lists of a pair. -/
def markers (p : SeqPair) : Option (List Marker × List Marker) :=
  match LTable.init.createTable p with
  | .ok (_, t) => match t.createListsOfMarkers p with
    | .ok r => some r
    | _ => none
  | _ => none
def start (n : Nat) : Marker := { type := .Start, offset := n }
def stop (n : Nat) : Marker := { type := .End, offset := n }
/-- The test looks only at the first markers. -/
def startsWith (m : Option (List Marker × List Marker)) (a b : List Marker) : Bool :=
  match m with
  | some (x, y) => decide (x.take a.length = a) && decide (y.take b.length = b)
  | none => false

-- testFirstEmptyString, testSecondEmptyString, testDifferenceStrings
#guard startsWith (markers (differenceStringPair ' ' (str "12345") [] [] [])) [start 0, stop 5] [start 0, stop 0]
#guard startsWith (markers (differenceStringPair ' ' [] (str "12345") [] [])) [start 0, stop 0] [start 0, stop 5]
#guard startsWith (markers (differenceStringPair ' ' (str "aaabcddefghik") (str "aabcefghijk") [] [])) [start 2, stop 3, start 5, stop 7] [start 9, stop 10]
-- testStringLists, testSmth
#guard startsWith (markers (stringListPair (fun _ => 0) 0 ["delete1", "line1", "line2", "line3", "delete2", "delete3", "line4"] ["line1", "line2", "line3", "insert1", "line4", "insert2"]))
  [start 0, stop 1, start 4, stop 6] [start 3, stop 4, start 5, stop 6]
#guard startsWith (markers (stringListPair (fun _ => 0) 0 ["insert1\n", "newline1\n", "newline2\n", "insert2\n"] ["delete1\n", "efgh\n", "delete2\n"]))
  [start 0, stop 4] [start 0, stop 3]

end KompareDiff2.Tests
