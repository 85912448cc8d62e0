import Verif.Model.Parser
/-
The line numbers and line counts of the parsers are C++ `int`s.  `Model/Parser.lean` computes with unbounded integers; here
the same functions are given with every increment and decrement checked: leaving the range of a 32-bit `int` is undefined behaviour.
Everything that computes no line number is shared with `Model/Parser.lean`.
-/
namespace KompareDiff2

/-- The result of an `int` operation: undefined outside the range of a 32-bit `int`. -/
def int32 (x : Int) : Res Int := if -2147483648 ≤ x ∧ x ≤ 2147483647 then Res.ok x else Res.ub

/-- `n` times `++x` (parserbase.cpp:384, 400, 424-425, 442, 452, 590-591, 598, 603; one increment per line added to the difference). -/
def bump32 : Nat → Int → Res Int
  | 0, x => Res.ok x
  | n + 1, x => do let x ← int32 (x + 1); bump32 n x

/-- `takeRun` with checked counters: `--lineCountA`, `--lineCountB`, parserbase.cpp:586-593, 595-599, 600-604. -/
def takeRun32 (p : Char) (da db : Int) : List Str → Int → Int → Res (List Str × List Str × Int × Int)
  | [], a, b => Res.ok ([], [], a, b)
  | l :: ls, a, b =>
    if l.head? = some p ∧ (a ≠ 0 ∨ b ≠ 0) then do
      let a ← int32 (a - da)
      let b ← int32 (b - db)
      let r ← takeRun32 p da db ls a b
      Res.ok (l.drop 1 :: r.1, r.2)
    else Res.ok ([], l :: ls, a, b)

/-- `if (lineCount == 0) ++lineno;` when a count is given, parserbase.cpp:557-560, 567-569. -/
def emptyRange32 (given : Str) (count x : Int) : Res Int := if given ≠ [] ∧ count = 0 then int32 (x + 1) else Res.ok x

/-- parserbase.cpp:549-571 with the increments for a count of zero checked (lines 560, 569). -/
def unifiedHeaderValues32 (c : Caps) : Res (Option UHeader) := do
  let a := toInt (c.get 1)
  let na := if c.get 3 = [] then (1, true) else toIntOk (c.get 3)
  if na.2 = false then Res.ok none else do
  let a ← emptyRange32 (c.get 3) na.1 a
  let b := toInt (c.get 4)
  let nb := if c.get 6 = [] then (1, true) else toIntOk (c.get 6)
  if nb.2 = false then Res.ok none else do
  let b ← emptyRange32 (c.get 6) nb.1 b
  Res.ok (some { a := a, b := b, countA := na.1, countB := nb.1, function := c.get 7 })

/-- `unifiedContext` with checked counters, parserbase.cpp:585-593. -/
def unifiedContext32 (ls : List Str) (a b : Int) (ca cb : Int) : Res ((Diff × Bool) × List Str × Int × Int) := do
  let r ← takeRun32 ' ' 1 1 ls ca cb
  let d := r.1.foldl (fun d l => (d.addSource l).addDest l) (Diff.new a b)
  Res.ok ((d, false), r.2)

/-- `unifiedChange` with checked counters, parserbase.cpp:594-618. -/
def unifiedChange32 (ls : List Str) (a b : Int) (ca cb : Int) : Res ((Diff × Bool) × List Str × Int × Int) := do
  let r1 ← takeRun32 '-' 1 0 ls ca cb
  let d := r1.1.foldl Diff.addSource (Diff.new a b)
  let r2 ← takeRun32 '+' 0 1 r1.2.1 r1.2.2.1 r1.2.2.2
  let d := r2.1.foldl Diff.addDest d
  let d := { d with type := unifiedType d }
  let d ← d.determineInline
  Res.ok ((d, true), r2.2)

/-- `unifiedStep` with checked counters, parserbase.cpp:581-618. -/
def unifiedStep32 (l : Str) (ls : List Str) (a b ca cb : Int) : Res ((Diff × Bool) × List Str × Int × Int) :=
  if l.head? = some ' ' then unifiedContext32 (l :: ls) a b ca cb else unifiedChange32 (l :: ls) a b ca cb

/-- The loop of `parseUnifiedHunkBody`, parserbase.cpp:581-619, with checked line numbers and counters.  (The increments of the
line numbers are made after the lines are added instead of in between; nothing reads them in between.) -/
def unifiedBodyLoop32 : Nat → List Str → Int → Int → Int → Int → Res (Entries × List Str)
  | 0, _, _, _, _, _ => Res.hang
  | fuel + 1, ls, a, b, ca, cb =>
    match ls with
    | [] => Res.ok ([], [])
    | l :: ls' => do
      let mt ← matchesUnifiedHunkLine l
      if mt = true ∧ (ca ≠ 0 ∨ cb ≠ 0) then do
        let r ← unifiedStep32 l ls' a b ca cb
        let a ← bump32 r.1.1.slc a
        let b ← bump32 r.1.1.dlc b
        let rest ← unifiedBodyLoop32 fuel r.2.1 a b r.2.2.1 r.2.2.2
        Res.ok (r.1 :: rest.1, rest.2)
      else Res.ok ([], l :: ls')

/-- `parseUnifiedHunkHeader` and `parseUnifiedHunkBody`, parserbase.cpp:315-328, 542-622, with checked numbers. -/
def parseUnifiedHunk32 (st : PState) : Res (Option PState) :=
  match st.rest with
  | [] => Res.ok none
  | l :: ls =>
    match reUnifiedHunkHeader.full l with
    | none => Res.ok none
    | some c => do
      let u ← unifiedHeaderValues32 c
      match u with
      | none => Res.ok (some { st with rest := ls })
      | some u => do
        let r ← unifiedBodyLoop32 (ls.length + 1) ls u.a u.b u.countA u.countB
        Res.ok (some { (st.addHunk u.a u.b u.function r.1) with rest := r.2 })

/-- The loop of `parseContextHunkBody`, parserbase.cpp:372-458, with checked line numbers (incremented after the lines are added,
as in `unifiedBodyLoop32`). -/
def contextBodyLoop32 : Nat → List Str → List Str → Int → Int → Res (Entries × Bool)
  | 0, _, _, _, _ => Res.hang
  | fuel + 1, os, ns, a, b =>
    if os = [] ∧ ns = [] then Res.ok ([], true)
    else do
      let s ← contextStep os ns a b
      match s with
      | none => Res.ok ([], false)
      | some r => do
        let a ← bump32 r.1.1.slc a
        let b ← bump32 r.1.1.dlc b
        let rest ← contextBodyLoop32 fuel r.2.1 r.2.2 a b
        Res.ok (r.1 :: rest.1, rest.2)

/-- `parseContextHunkHeader` and `parseContextHunkBody`, parserbase.cpp:259-282, 330-461, with checked numbers. -/
def parseContextHunk32 (st : PState) : Res (Option PState × PState) :=
  match contextHunkHeader st.rest with
  | (none, ls) => Res.ok (none, { st with rest := ls })
  | (some (c1, c2), ls) =>
    let o := contextLines ls
    match o.2 with
    | [] => Res.ub
    | l :: ls2 =>
      match reContextHunkHeader3.full l with
      | none => Res.ok (some { st with rest := o.2 }, st)
      | some c3 => do
        let n := contextLines ls2
        let r ← contextBodyLoop32 (o.1.length + n.1.length + 1) o.1 n.1 (toInt (c2.get 1)) (toInt (c3.get 1))
        Res.ok (some { (st.addHunk (toInt (c2.get 1)) (toInt (c3.get 1)) (c1.get 1) r.1) with rest := n.2 }, st)

/-- The loop over the hunks of the context format, parserbase.cpp:639-640, with checked numbers. -/
def contextHunkLoop32 : Nat → PState → Res PState
  | 0, _ => Res.hang
  | fuel + 1, st => do
    let r ← parseContextHunk32 st
    match r with
    | (none, st) => Res.ok st
    | (some st, _) => contextHunkLoop32 fuel st

/-- `parseUnified` up to the sort, parserbase.cpp:723-733, with checked numbers. -/
def unifiedFiles32 (win : Bool) (g : Generator) (st : PState) : Res PState :=
  fileLoop (parseUnifiedDiffHeader win g) (fun st => hunkLoop parseUnifiedHunk32 (st.rest.length + 1) st) (unifiedHeader1 g)
    (st.rest.length + 1) st

/-- `parseContext` up to the sort, parserbase.cpp:636-644, with checked numbers. -/
def contextFiles32 (win : Bool) (g : Generator) (st : PState) : Res PState :=
  fileLoop (parseContextDiffHeader win g) (fun st => contextHunkLoop32 (st.rest.length + 1) st) (contextHeader1 g)
    (st.rest.length + 1) st

/-- `ParserBase::parse`, parserbase.cpp:107-137, with checked numbers; the normal format computes no line numbers
(parserbase.cpp:468-524 only copies them from the header). -/
def parseLines32 (win : Bool) (cmp : Str → Str → Int) (g : Generator) (heap : Heap) (lines : List Str) : Res ParseResult :=
  let st : PState := { lines := lines, rest := lines, heap := heap, cur := {}, models := [], single := false, malformed := false }
  match determineFormat g lines with
  | .Context => do let st ← contextFiles32 win g st; Res.ok (finishParse cmp st)
  | .Normal => do let st ← normalFiles win g st; Res.ok (finishParse cmp st)
  | .Unified => do let st ← unifiedFiles32 win g st; Res.ok (finishParse cmp st)
  | _ => Res.ok { models := none, malformed := false, heap := heap }

/-- `Parser::parse`, parser.cpp:50-89, with checked numbers. -/
def parse32 (win : Bool) (cmp : Str → Str → Int) (heap : Heap) (lines : List Str) : Res ParseResult := do
  let g := determineGenerator lines
  let lines ← cleanUpCrap lines
  parseLines32 win cmp g heap lines

end KompareDiff2
