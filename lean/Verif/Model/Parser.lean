import Verif.Model.Regex
import Verif.Model.DiffModel
/-
Model of parser.cpp, parserbase.{h,cpp}, diffparser.cpp, cvsdiffparser.cpp, perforceparser.cpp, diffmodellist.cpp and of
`ModelListPrivate::split`.
-/
namespace KompareDiff2
open Re

/-! ### Splitting and cleaning -/

/-- `ModelListPrivate::split`, modellist_p.cpp:20-43 (not QT_OS_MAC): `acc` is the text since the last split position. -/
def splitAux : Str → Str → List Str
  | acc, [] => if acc = [] then [] else [acc]
  | acc, c :: s => if c = '\n' then (acc ++ [c]) :: splitAux [] s else splitAux (acc ++ [c]) s

/-- `ModelListPrivate::split`, modellist_p.cpp:20-43. -/
def split (s : Str) : List Str := splitAux [] s

/-- `QString::truncate(indexOf('\n'))`: without a newline the index is -1 and `truncate(-1)` makes the string empty. -/
def truncateAtNewline (l : Str) : Str := if l.contains '\n' then l.takeWhile (fun c => decide (c ≠ '\n')) else []

/-- `Parser::cleanUpCrap`, parser.cpp:27-48: `before` are the lines already passed.  For a marker line the iterator goes back to
the line before it; without such a line this is undefined. -/
def cleanUpLoop : List Str → List Str → Res (List Str)
  | before, [] => Res.ok before
  | before, l :: ls =>
    if (str "\\ No newline").isPrefixOf l then
      match before.getLast? with
      | none => Res.ub
      | some p => cleanUpLoop (before.dropLast ++ [truncateAtNewline p]) ls
    else cleanUpLoop (before ++ [l]) ls

/-- `Parser::cleanUpCrap`, parser.cpp:27-48. -/
def cleanUpCrap (lines : List Str) : Res (List Str) := cleanUpLoop [] lines

/-! ### Generator and format -/

/-- `Generator`, global.h. -/
inductive Generator where
  | CVSDiff
  | Diff
  | Perforce
  deriving Repr, DecidableEq

/-- `Format`, global.h (`SideBySide` is never detected). -/
inductive Format where
  | Context
  | Ed
  | Normal
  | RCS
  | Unified
  | UnknownFormat
  deriving Repr, DecidableEq

/-- `Parser::determineGenerator`, parser.cpp:91-113. -/
def determineGenerator : List Str → Generator
  | [] => .Diff
  | l :: ls =>
    if (str "Index: ").isPrefixOf l then .CVSDiff
    else if (str "==== ").isPrefixOf l then .Perforce
    else determineGenerator ls

/-- `[acd]` -/
def reAcd : Re := .chr (fun x => decide (x = 'a') || decide (x = 'c') || decide (x = 'd'))
/-- `[0-9,]` -/
def reDigitComma : Re := .chr (fun x => (decide ('0' ≤ x) && decide (x ≤ '9')) || decide (x = ','))
/-- `[0-9]+[0-9,]*[acd][0-9]+[0-9,]*`, diffparser.cpp:30, cvsdiffparser.cpp:34. -/
def reFmtNormal : Re := cat [many1 digit, many reDigitComma, reAcd, many1 digit, many reDigitComma]
/-- `^--- `, diffparser.cpp:31. -/
def reFmtUnified : Re := text (str "--- ")
/-- `^\*\*\* `, diffparser.cpp:32. -/
def reFmtContext : Re := text (str "*** ")
/-- `^[acd][0-9]+ [0-9]+`, diffparser.cpp:33, cvsdiffparser.cpp:37, perforceparser.cpp:39. -/
def reFmtRcs : Re := cat [reAcd, many1 digit, lit ' ', many1 digit]
/-- `^[0-9]+[0-9,]*[acd]`, diffparser.cpp:34, cvsdiffparser.cpp:38. -/
def reFmtEd : Re := cat [many1 digit, many reDigitComma, reAcd]
/-- `^--- [^\t]+\t`, cvsdiffparser.cpp:35. -/
def reFmtUnifiedCvs : Re := cat [text (str "--- "), many1 noTab, lit '\t']
/-- `^\*\*\* [^\t]+\t`, cvsdiffparser.cpp:36. -/
def reFmtContextCvs : Re := cat [text (str "*** "), many1 noTab, lit '\t']
/-- `^@@`, perforceparser.cpp:36. -/
def reFmtUnifiedP4 : Re := text (str "@@")
/-- `^\*{15}`, perforceparser.cpp:37. -/
def reFmtContextP4 : Re := text (List.replicate 15 '*')
/-- `^\d+(|,\d+)[acd]\d+(|,\d+)`, perforceparser.cpp:38. -/
def reFmtNormalP4 : Re :=
  cat [many1 digit, .grp 1 (.alt .eps (.seq (lit ',') (many1 digit))), reAcd, many1 digit,
    .grp 2 (.alt .eps (.seq (lit ',') (many1 digit)))]

/-- The patterns tried on each line, in order: diffparser.cpp:36-58, cvsdiffparser.cpp:40-61, perforceparser.cpp:42-59. -/
def formatPatterns : Generator → List (Re × Format)
  | .Diff => [(reFmtNormal, .Normal), (reFmtUnified, .Unified), (reFmtContext, .Context), (reFmtRcs, .RCS), (reFmtEd, .Ed)]
  | .CVSDiff => [(reFmtNormal, .Normal), (reFmtUnifiedCvs, .Unified), (reFmtContextCvs, .Context), (reFmtRcs, .RCS),
      (reFmtEd, .Ed)]
  | .Perforce => [(reFmtUnifiedP4, .Unified), (reFmtContextP4, .Context), (reFmtNormalP4, .Normal), (reFmtRcs, .RCS)]

/-- First pattern matching at the start of a line. -/
def lineFormat (l : Str) : List (Re × Format) → Option Format
  | [] => none
  | (r, f) :: ps => if r.atStart l then some f else lineFormat l ps

/-- `determineFormat`, diffparser.cpp:26-61, cvsdiffparser.cpp:30-64, perforceparser.cpp:32-62. -/
def determineFormat (g : Generator) : List Str → Format
  | [] => .UnknownFormat
  | l :: ls =>
    match lineFormat l (formatPatterns g) with
    | some f => f
    | none => determineFormat g ls

/-! ### Patterns -/

/-- `\*{15} ?(.*)\n`, parserbase.cpp:68. -/
def reContextHunkHeader1 : Re := cat [text (List.replicate 15 '*'), opt (lit ' '), .grp 1 (many dot), lit '\n']
/-- `\*\*\* ([0-9]+),([0-9]+) \*\*\*\*.*\n`, parserbase.cpp:69. -/
def reContextHunkHeader2 : Re :=
  cat [text (str "*** "), .grp 1 (many1 digit), lit ',', .grp 2 (many1 digit), text (str " ****"), many dot, lit '\n']
/-- `--- ([0-9]+),([0-9]+) ----\n`, parserbase.cpp:71. -/
def reContextHunkHeader3 : Re :=
  cat [text (str "--- "), .grp 1 (many1 digit), lit ',', .grp 2 (many1 digit), text (str " ----\n")]
/-- `X (.*)\n` for a prefix character class `X`: the five body patterns, parserbase.cpp:73-77. -/
def reBody (p : Char → Bool) : Re := cat [.chr p, lit ' ', .grp 1 (many dot), lit '\n']
/-- `- (.*)\n`, parserbase.cpp:73. -/
def reContextRemoved : Re := reBody (fun x => decide (x = '-'))
/-- `\+ (.*)\n`, parserbase.cpp:74. -/
def reContextAdded : Re := reBody (fun x => decide (x = '+'))
/-- `! (.*)\n`, parserbase.cpp:75. -/
def reContextChanged : Re := reBody (fun x => decide (x = '!'))
/-- `  (.*)\n`, parserbase.cpp:76. -/
def reContextContext : Re := reBody (fun x => decide (x = ' '))
/-- `[-\+! ] (.*)\n`, parserbase.cpp:77. -/
def reContextLine : Re := reBody (fun x => decide (x = '-') || decide (x = '+') || decide (x = '!') || decide (x = ' '))
/-- `[a-zA-Z0-9="]` -/
def reOptionChar : Re :=
  .chr (fun x => (decide ('a' ≤ x) && decide (x ≤ 'z')) || (decide ('A' ≤ x) && decide (x ≤ 'Z')) ||
    (decide ('0' ≤ x) && decide (x ≤ '9')) || decide (x = '=') || decide (x = '"'))
/-- `diff (?:(?:-|--)[a-zA-Z0-9=\"]+ )*(?:|-- +)(.*) +(.*)\n`, parserbase.cpp:80. -/
def reNormalDiffHeader : Re :=
  cat [text (str "diff "), many (cat [.alt (lit '-') (text (str "--")), many1 reOptionChar, lit ' ']),
    .alt .eps (.seq (text (str "--")) (many1 (lit ' '))), .grp 1 (many dot), many1 (lit ' '), .grp 2 (many dot), lit '\n']
/-- `(|,[0-9]+)` -/
def reRangeEnd (n : Nat) : Re := .grp n (.alt .eps (.seq (lit ',') (many1 digit)))
/-- `([0-9]+)a([0-9]+)(|,[0-9]+)(.*)\n`, parserbase.cpp:82. -/
def reNormalAdded : Re :=
  cat [.grp 1 (many1 digit), lit 'a', .grp 2 (many1 digit), reRangeEnd 3, .grp 4 (many dot), lit '\n']
/-- `([0-9]+)(|,[0-9]+)d([0-9]+)(.*)\n`, parserbase.cpp:83. -/
def reNormalRemoved : Re :=
  cat [.grp 1 (many1 digit), reRangeEnd 2, lit 'd', .grp 3 (many1 digit), .grp 4 (many dot), lit '\n']
/-- `([0-9]+)(|,[0-9]+)c([0-9]+)(|,[0-9]+)(.*)\n`, parserbase.cpp:84. -/
def reNormalChanged : Re :=
  cat [.grp 1 (many1 digit), reRangeEnd 2, lit 'c', .grp 3 (many1 digit), reRangeEnd 4, .grp 5 (many dot), lit '\n']
/-- `< (.*)\n`, parserbase.cpp:86. -/
def reNormalBodyRemoved : Re := reBody (fun x => decide (x = '<'))
/-- `> (.*)\n`, parserbase.cpp:87. -/
def reNormalBodyAdded : Re := reBody (fun x => decide (x = '>'))
/-- `---\n`, parserbase.cpp:88. -/
def reNormalDivider : Re := text (str "---\n")
/-- `PREFIX ([^\t]+)(?:\t([^\t]+)(?:\t?)(.*))?\n`, the tail common to both unified headers, parserbase.cpp:90-91. -/
def reUnifiedHeaderTail : Re :=
  cat [.grp 1 (many1 noTab), opt (cat [lit '\t', .grp 2 (many1 noTab), opt (lit '\t'), .grp 3 (many dot)]), lit '\n']
/-- `--- ([^\t]+)(?:\t([^\t]+)(?:\t?)(.*))?\n`, parserbase.cpp:90. -/
def reUnifiedHeader1 : Re := .seq (text (str "--- ")) reUnifiedHeaderTail
/-- `\+\+\+ ([^\t]+)(?:\t([^\t]+)(?:\t?)(.*))?\n`, parserbase.cpp:91. -/
def reUnifiedHeader2 : Re := .seq (text (str "+++ ")) reUnifiedHeaderTail
/-- `(|,([0-9]+))` -/
def reCount (n : Nat) : Re := .grp n (.alt .eps (.seq (lit ',') (.grp (n + 1) (many1 digit))))
/-- `@@ -([0-9]+)(|,([0-9]+)) \+([0-9]+)(|,([0-9]+)) @@(?: ?)(.*)\n`, parserbase.cpp:92. -/
def reUnifiedHunkHeader : Re :=
  cat [text (str "@@ -"), .grp 1 (many1 digit), reCount 2, text (str " +"), .grp 4 (many1 digit), reCount 5, text (str " @@"),
    opt (lit ' '), .grp 7 (many dot), lit '\n']
/-- `\*\*\* ([^\t]+)(\t([^\t]+))?\n` and `--- ([^\t]+)(\t([^\t]+))?\n`, diffparser.cpp:20-21. -/
def reContextDiffHeader (pre : String) : Re :=
  cat [text (str pre), .grp 1 (many1 noTab), opt (.grp 2 (.seq (lit '\t') (.grp 3 (many1 noTab)))), lit '\n']
/-- `\*\*\* ([^\t]+)\t([^\t]+)\t(.*)\n`, cvsdiffparser.cpp:22. -/
def reContextDiffHeader1Cvs : Re :=
  cat [text (str "*** "), .grp 1 (many1 noTab), lit '\t', .grp 2 (many1 noTab), lit '\t', .grp 3 (many dot), lit '\n']
/-- `--- ([^\t]+)\t([^\t]+)(|\t(.*))\n`, cvsdiffparser.cpp:23. -/
def reContextDiffHeader2Cvs : Re :=
  cat [text (str "--- "), .grp 1 (many1 noTab), lit '\t', .grp 2 (many1 noTab),
    .grp 3 (.alt .eps (.seq (lit '\t') (.grp 4 (many dot)))), lit '\n']
/-- `Index: (.*)\n`, cvsdiffparser.cpp:25. -/
def reIndexHeader : Re := cat [text (str "Index: "), .grp 1 (many dot), lit '\n']
/-- `==== (.*) - (.*) ====\n` with inverted greediness, perforceparser.cpp:20-27. -/
def reP4Header : Re :=
  cat [text (str "==== "), .grp 1 (.star false dot), text (str " - "), .grp 2 (.star false dot), text (str " ====\n")]
/-- `[^\#]` -/
def reNoHash : Re := .chr (fun x => decide (x ≠ '#'))
/-- `([^\#]+)#(\d+)`, perforceparser.cpp:71, 112, 160. -/
def reP4Source : Re := cat [.grp 1 (many1 reNoHash), lit '#', .grp 2 (many1 digit)]
/-- `([^\#]+)#(|\d+)`, perforceparser.cpp:72, 113, 161. -/
def reP4Destination : Re := cat [.grp 1 (many1 reNoHash), lit '#', .grp 2 (.alt .eps (many1 digit))]

/-- First header line pattern of the context format (`m_contextDiffHeader1`). -/
def contextHeader1 : Generator → Re
  | .Diff => reContextDiffHeader "*** "
  | .CVSDiff => reContextDiffHeader1Cvs
  | .Perforce => reP4Header
/-- Second header line pattern of the context format (`m_contextDiffHeader2`; not used for Perforce). -/
def contextHeader2 : Generator → Re
  | .Diff => reContextDiffHeader "--- "
  | .CVSDiff => reContextDiffHeader2Cvs
  | .Perforce => .eps
/-- `m_normalDiffHeader`. -/
def normalHeader : Generator → Re
  | .Diff => reNormalDiffHeader
  | .CVSDiff => reIndexHeader
  | .Perforce => reP4Header
/-- `m_unifiedDiffHeader1`. -/
def unifiedHeader1 : Generator → Re
  | .Diff | .CVSDiff => reUnifiedHeader1
  | .Perforce => reP4Header

/-- `QString::toInt(&ok)` on a text of decimal digits (the patterns deliver no other): outside the `int` range the result is 0
and `ok` is false. -/
def toIntOk (s : Str) : Int × Bool :=
  let n := s.foldl (fun n c => 10 * n + (c.toNat - '0'.toNat)) 0
  if s = [] then (0, false) else if n ≤ 2147483647 then ((n : Int), true) else (0, false)

/-- `QString::toInt()`. -/
def toInt (s : Str) : Int := (toIntOk s).1

/-! ### Parser state -/

/-- `ParserBase`: `lines` is `m_diffLines`, `rest` the lines from `m_diffIterator` on; `heap` holds the `Difference` objects. -/
structure PState where
  lines : List Str
  rest : List Str
  heap : Heap
  cur : DModel
  models : List DModel
  single : Bool
  malformed : Bool

/-- Entries of a hunk in the order of creation, with the flag "also added to the model with `addDiff`". -/
abbrev Entries := List (Diff × Bool)

/-- A hunk is created with the differences `es` and added to the current model; the flagged ones are also registered with
`addDiff`.  In the code the hunk is added first and the differences one by one; nothing is read in between.
(parserbase.cpp:365-367, 372-457, 490-496, 573-619) -/
def PState.addHunk (st : PState) (a b : Int) (function : Str) (es : Entries) : PState :=
  let al := st.heap.allocAll (es.map Prod.fst)
  let m := st.cur.addHunk { sourceLine := a, destLine := b, function := function, diffs := al.1 }
  let reg := (al.1.zip (es.map Prod.snd)).filter (fun p => p.2)
  { st with heap := al.2, cur := reg.foldl (fun m p => m.addDiff p.1) m }

/-! ### File headers -/

/-- `setSourceTimestamp` … on a new model. -/
def newModel (src dst sts srev dts drev : Str) : DModel :=
  { DModel.new src dst with
    sourceTimestamp := sts, sourceRevision := srev, destinationTimestamp := dts, destinationRevision := drev }

/-- Search for a two-line header, shared by `parseContextDiffHeader` (parserbase.cpp:139-176) and `parseUnifiedDiffHeader`
(parserbase.cpp:223-257): the second line is read without checking for the end first. -/
def twoLineHeader (h1 h2 : Re) (mk : Caps → Caps → DModel) (st : PState) : List Str → Res (PState × Bool)
  | [] => Res.ok ({ st with rest := [] }, false)
  | l :: ls =>
    match h1.full l with
    | none => twoLineHeader h1 h2 mk st ls
    | some c1 =>
      match ls with
      | [] => Res.ub
      | l2 :: ls2 =>
        match h2.full l2 with
        | some c2 => Res.ok ({ st with rest := ls2, cur := mk c1 c2 }, true)
        | none => Res.ok ({ st with rest := l2 :: ls2 }, false)

/-- The model of a Perforce header, perforceparser.cpp:81-95, 124-138, 172-186. -/
def p4Model (c : Caps) : DModel :=
  let s := match reP4Source.full (c.get 1) with | some c => c.get 1 | none => []
  let d := match reP4Destination.full (c.get 2) with | some c => c.get 1 | none => []
  DModel.new s d

/-- Search for a one-line header: `PerforceParser::parse…DiffHeader`, perforceparser.cpp:64-195. -/
def p4Header (st : PState) : List Str → PState × Bool
  | [] => ({ st with rest := [] }, false)
  | l :: ls =>
    match reP4Header.full l with
    | some c => ({ st with rest := ls, cur := p4Model c }, true)
    | none => p4Header st ls

/-- `parseContextDiffHeader`, parserbase.cpp:139-176; perforceparser.cpp:64-104. -/
def parseContextDiffHeader (win : Bool) (g : Generator) (st : PState) : Res (PState × Bool) :=
  match g with
  | .Perforce => Res.ok (p4Header st st.rest)
  | _ => twoLineHeader (contextHeader1 g) (contextHeader2 g) (fun c1 c2 =>
      newModel (unescapePath win (c1.get 1)) (unescapePath win (c2.get 1)) (c1.get 3) (c1.get 5) (c2.get 3) (c2.get 5)) st st.rest

/-- `parseUnifiedDiffHeader`, parserbase.cpp:223-257; perforceparser.cpp:154-195. -/
def parseUnifiedDiffHeader (win : Bool) (g : Generator) (st : PState) : Res (PState × Bool) :=
  match g with
  | .Perforce => Res.ok (p4Header st st.rest)
  | _ => twoLineHeader (unifiedHeader1 g) reUnifiedHeader2 (fun c1 c2 =>
      newModel (unescapePath win (c1.get 1)) (unescapePath win (c2.get 1)) (c1.get 2) (c1.get 4) (c2.get 2) (c2.get 4)) st st.rest

/-- The search loop of `parseNormalDiffHeader`, parserbase.cpp:188-206, cvsdiffparser.cpp:73-91. -/
def normalHeaderLoop (h : Re) (mk : Caps → DModel) : List Str → Option (DModel × List Str)
  | [] => none
  | l :: ls =>
    match h.full l with
    | some c => some (mk c, ls)
    | none => normalHeaderLoop h mk ls

/-- `parseNormalDiffHeader`, parserbase.cpp:183-216; cvsdiffparser.cpp:66-101; perforceparser.cpp:106-147. -/
def parseNormalDiffHeader (win : Bool) (g : Generator) (st : PState) : PState × Bool :=
  match g with
  | .Perforce => p4Header st st.rest
  | _ =>
    let mk := fun c : Caps => match g with
      | .CVSDiff => DModel.new (c.get 1) (c.get 1)
      | _ => DModel.new (unescapePath win (c.get 1)) (unescapePath win (c.get 2))
    match normalHeaderLoop (normalHeader g) mk st.rest with
    | some (m, ls) => ({ st with rest := ls, cur := m }, true)
    | none => ({ st with rest := st.lines, cur := {}, single := true }, false)

/-! ### Unified hunks -/

/-- The values taken from a unified hunk header, parserbase.cpp:549-571: line numbers, counts, function. -/
structure UHeader where
  a : Int
  b : Int
  countA : Int
  countB : Int
  function : Str
  deriving Repr, DecidableEq

/-- parserbase.cpp:549-571: `none` when a count is not an `int`. -/
def unifiedHeaderValues (c : Caps) : Option UHeader :=
  let a := toInt (c.get 1)
  let na := if c.get 3 = [] then (1, true) else toIntOk (c.get 3)
  if na.2 = false then none else
  let a := if c.get 3 ≠ [] ∧ na.1 = 0 then a + 1 else a
  let b := toInt (c.get 4)
  let nb := if c.get 6 = [] then (1, true) else toIntOk (c.get 6)
  if nb.2 = false then none else
  let b := if c.get 6 ≠ [] ∧ nb.1 = 0 then b + 1 else b
  some { a := a, b := b, countA := na.1, countB := nb.1, function := c.get 7 }

/-- One run of lines with the same first character: `for (; it != end && it->startsWith(p) && (A || B); ++it)` where one step
changes the two counters by `da`, `db` (0 or 1).  Returns the lines without the first character, the rest and the counters.
parserbase.cpp:586-593, 595-599, 600-604. -/
def takeRun (p : Char) (da db : Int) : List Str → Int → Int → List Str × List Str × Int × Int
  | [], a, b => ([], [], a, b)
  | l :: ls, a, b =>
    if l.head? = some p ∧ (a ≠ 0 ∨ b ≠ 0) then
      let r := takeRun p da db ls (a - da) (b - db)
      (l.drop 1 :: r.1, r.2)
    else ([], l :: ls, a, b)

/-- `matchesUnifiedHunkLine`, parserbase.cpp:531-540: `line[0]` of an empty string is undefined. -/
def matchesUnifiedHunkLine (l : Str) : Res Bool :=
  match l with
  | [] => Res.ub
  | c :: _ => Res.ok (decide (c = ' ') || decide (c = '+') || decide (c = '-'))

/-- The type of a difference of a unified hunk, parserbase.cpp:605-614. -/
def unifiedType (d : Diff) : DiffType :=
  if d.slc = 0 then .Insert else if d.dlc = 0 then .Delete else .Change

/-- One iteration of the loop of `parseUnifiedHunkBody` (parserbase.cpp:582-594) for a first line starting with `' '`. -/
def unifiedContext (ls : List Str) (a b : Int) (ca cb : Int) : (Diff × Bool) × List Str × Int × Int :=
  let r := takeRun ' ' 1 1 ls ca cb
  let d := r.1.foldl (fun d l => (d.addSource l).addDest l) (Diff.new a b)
  ((d, false), r.2)

/-- The same for a first line starting with `'-'` or `'+'`, parserbase.cpp:594-618. -/
def unifiedChange (ls : List Str) (a b : Int) (ca cb : Int) : Res ((Diff × Bool) × List Str × Int × Int) := do
  let r1 := takeRun '-' 1 0 ls ca cb
  let d := r1.1.foldl Diff.addSource (Diff.new a b)
  let r2 := takeRun '+' 0 1 r1.2.1 r1.2.2.1 r1.2.2.2
  let d := r2.1.foldl Diff.addDest d
  let d := { d with type := unifiedType d }
  let d ← d.determineInline
  Res.ok ((d, true), r2.2)

/-- One iteration of the loop of `parseUnifiedHunkBody`, parserbase.cpp:581-618. -/
def unifiedStep (l : Str) (ls : List Str) (a b ca cb : Int) : Res ((Diff × Bool) × List Str × Int × Int) :=
  if l.head? = some ' ' then Res.ok (unifiedContext (l :: ls) a b ca cb) else unifiedChange (l :: ls) a b ca cb

/-- The loop of `parseUnifiedHunkBody`, parserbase.cpp:581-619 (the line numbers advance by one per line added on their side); `fuel` bounds the number of iterations. -/
def unifiedBodyLoop : Nat → List Str → Int → Int → Int → Int → Res (Entries × List Str)
  | 0, _, _, _, _, _ => Res.hang
  | fuel + 1, ls, a, b, ca, cb =>
    match ls with
    | [] => Res.ok ([], [])
    | l :: ls' => do
      let mt ← matchesUnifiedHunkLine l
      if mt = true ∧ (ca ≠ 0 ∨ cb ≠ 0) then do
        let r ← unifiedStep l ls' a b ca cb
        let rest ← unifiedBodyLoop fuel r.2.1 (a + r.1.1.slc) (b + r.1.1.dlc) r.2.2.1 r.2.2.2
        Res.ok (r.1 :: rest.1, rest.2)
      else Res.ok ([], l :: ls')

/-- `parseUnifiedHunkHeader` and `parseUnifiedHunkBody`, parserbase.cpp:315-328, 542-622; `none`: no header here. -/
def parseUnifiedHunk (st : PState) : Res (Option PState) :=
  match st.rest with
  | [] => Res.ok none
  | l :: ls =>
    match reUnifiedHunkHeader.full l with
    | none => Res.ok none
    | some c =>
      match unifiedHeaderValues c with
      | none => Res.ok (some { st with rest := ls })
      | some u => do
        let r ← unifiedBodyLoop (ls.length + 1) ls u.a u.b u.countA u.countB
        Res.ok (some { (st.addHunk u.a u.b u.function r.1) with rest := r.2 })

/-! ### Normal hunks -/

/-- `parseNormalHunkHeader` and the line numbers read by `parseNormalHunkBody`, parserbase.cpp:289-308, 474-488. -/
def normalHunkHeader (l : Str) : Option (DiffType × Int × Int) :=
  match reNormalAdded.full l with
  | some c => some (.Insert, toInt (c.get 1), toInt (c.get 2))
  | none =>
    match reNormalRemoved.full l with
    | some c => some (.Delete, toInt (c.get 1), toInt (c.get 3))
    | none =>
      match reNormalChanged.full l with
      | some c => some (.Change, toInt (c.get 1), toInt (c.get 3))
      | none => none

/-- A run of lines matching `r`, with the texts captured: `for (; it != end; ++it) { match; if (!match) break; add(captured(1)); }`,
parserbase.cpp:499-507, 514-521 and the loops of `parseContextHunkBody`. -/
def captureRun (r : Re) : List Str → List Str × List Str
  | [] => ([], [])
  | l :: ls =>
    match r.full l with
    | some c => let x := captureRun r ls; (c.get 1 :: x.1, x.2)
    | none => ([], l :: ls)

/-- `parseNormalHunkBody`, parserbase.cpp:468-524: the difference and the remaining lines (the hunk is added even when the divider is
missing; the result `false` of the function is ignored by the caller). -/
def normalHunkBody (ty : DiffType) (a b : Int) (ls : List Str) : Diff × List Str :=
  let d := Diff.new a b ty
  let r1 := if ty = .Change ∨ ty = .Delete then captureRun reNormalBodyRemoved ls else ([], ls)
  let d := r1.1.foldl Diff.addSource d
  let divider : Option (List Str) :=
    if ty = .Change then
      match r1.2 with
      | l :: ls' => if (reNormalDivider.full l).isSome then some ls' else none
      | [] => none
    else some r1.2
  match divider with
  | none => (d, r1.2)
  | some ls2 =>
    let r2 := if ty = .Insert ∨ ty = .Change then captureRun reNormalBodyAdded ls2 else ([], ls2)
    (r2.1.foldl Diff.addDest d, r2.2)

/-- `while (parseNormalHunkHeader()) parseNormalHunkBody();` – one iteration; `none`: no header here. -/
def parseNormalHunk (st : PState) : Res (Option PState) :=
  match st.rest with
  | [] => Res.ok none
  | l :: ls =>
    match normalHunkHeader l with
    | none => Res.ok none
    | some (ty, a, b) =>
      let r := normalHunkBody ty a b ls
      Res.ok (some { (st.addHunk a b [] [(r.1, true)]) with rest := r.2 })

/-! ### Context hunks -/

/-- `parseContextHunkHeader`, parserbase.cpp:259-282: `none` for failure; in the second component the position afterwards. -/
def contextHunkHeader (ls : List Str) : Option (Caps × Caps) × List Str :=
  match ls with
  | [] => (none, [])
  | l :: ls' =>
    match reContextHunkHeader1.full l with
    | none => (none, ls)
    | some c1 =>
      match ls' with
      | [] => (none, [])
      | l2 :: ls2 =>
        match reContextHunkHeader2.full l2 with
        | none => (none, ls')
        | some c2 => (some (c1, c2), ls2)

/-- Lines matching `m_contextHunkBodyLine`, parserbase.cpp:336-339, 349-352. -/
def contextLines : List Str → List Str × List Str
  | [] => ([], [])
  | l :: ls => if (reContextLine.full l).isSome then let r := contextLines ls; (l :: r.1, r.2) else ([], l :: ls)

/-- `it == end || m_contextHunkBodyContext.match(*it).hasMatch()`. -/
def endOrContext (ls : List Str) : Bool :=
  match ls with
  | [] => true
  | l :: _ => (reContextContext.full l).isSome

/-- `it != end && re.match(*it).hasMatch()`. -/
def startsRe (r : Re) (ls : List Str) : Bool :=
  match ls with
  | [] => false
  | l :: _ => (r.full l).isSome

/-- Text captured by `m_contextHunkBodyContext`. -/
def contextText (l : Str) : Str :=
  match reContextContext.full l with
  | some c => c.get 1
  | none => []

/-- The loop over unchanged lines, parserbase.cpp:411-429: the texts added to both sides and the two rests. -/
def contextUnchanged : Nat → List Str → List Str → List Str × List Str × List Str
  | 0, os, ns => ([], os, ns)
  | fuel + 1, os, ns =>
    if endOrContext os ∧ endOrContext ns ∧ (os ≠ [] ∨ ns ≠ []) then
      let l := match ns with
        | n :: _ => contextText n
        | [] => match os with
          | o :: _ => contextText o
          | [] => []
      let r := contextUnchanged fuel (os.drop 1) (ns.drop 1)
      (l :: r.1, r.2)
    else ([], os, ns)

/-- One iteration of the loop of `parseContextHunkBody`, parserbase.cpp:373-457; `none`: `return false`. -/
def contextStep (os ns : List Str) (a b : Int) : Res (Option ((Diff × Bool) × List Str × List Str)) := do
  if startsRe reContextRemoved os then do
    let r := captureRun reContextRemoved os
    let d ← (r.1.foldl Diff.addSource (Diff.new a b .Delete)).determineInline
    Res.ok (some ((d, true), r.2, ns))
  else if startsRe reContextAdded ns then do
    let r := captureRun reContextAdded ns
    let d ← (r.1.foldl Diff.addDest (Diff.new a b .Insert)).determineInline
    Res.ok (some ((d, true), os, r.2))
  else if endOrContext os ∧ endOrContext ns then do
    let r := contextUnchanged (os.length + ns.length) os ns
    let d ← (r.1.foldl (fun d l => (d.addSource l).addDest l) (Diff.new a b .Unchanged)).determineInline
    Res.ok (some ((d, false), r.2.1, r.2.2))
  else if startsRe reContextChanged os ∨ startsRe reContextChanged ns then do
    let r1 := captureRun reContextChanged os
    let r2 := captureRun reContextChanged ns
    let d ← (r2.1.foldl Diff.addDest (r1.1.foldl Diff.addSource (Diff.new a b .Change))).determineInline
    Res.ok (some ((d, true), r1.2, r2.2))
  else Res.ok none

/-- The loop of `parseContextHunkBody`, parserbase.cpp:372-458; the Boolean is the result of the function. -/
def contextBodyLoop : Nat → List Str → List Str → Int → Int → Res (Entries × Bool)
  | 0, _, _, _, _ => Res.hang
  | fuel + 1, os, ns, a, b =>
    if os = [] ∧ ns = [] then Res.ok ([], true)
    else do
      let s ← contextStep os ns a b
      match s with
      | none => Res.ok ([], false)
      | some r => do
        let rest ← contextBodyLoop fuel r.2.1 r.2.2 (a + r.1.1.slc) (b + r.1.1.dlc)
        Res.ok (r.1 :: rest.1, rest.2)

/-- `parseContextHunkHeader` and `parseContextHunkBody`, parserbase.cpp:259-282, 330-461.  The first component is `none` when there is no
header (the position may have moved); the line after the old section is read without checking for the end. -/
def parseContextHunk (st : PState) : Res (Option PState × PState) :=
  match contextHunkHeader st.rest with
  | (none, ls) => Res.ok (none, { st with rest := ls })
  | (some (c1, c2), ls) =>
    let o := contextLines ls
    match o.2 with
    | [] => Res.ub
    | l :: ls2 =>
      match reContextHunkHeader3.full l with
      | none => Res.ok (some { st with rest := o.2 }, st)
      | some c3 => do
        let n := contextLines ls2
        let r ← contextBodyLoop (o.1.length + n.1.length + 1) o.1 n.1 (toInt (c2.get 1)) (toInt (c3.get 1))
        Res.ok (some { (st.addHunk (toInt (c2.get 1)) (toInt (c3.get 1)) (c1.get 1) r.1) with rest := n.2 }, st)

/-! ### Files -/

/-- `checkHeader`, parserbase.cpp:624-634. -/
def checkHeader (header : Re) (st : PState) : PState :=
  match st.rest with
  | [] => st
  | l :: _ =>
    if (header.full l).isSome ∨ (str "Index: ").isPrefixOf l ∨ (str "diff ").isPrefixOf l ∨ (str "-- ").isPrefixOf l then st
    else { st with malformed := true }

/-- `if (m_currentModel->differenceCount() > 0) m_models->append(m_currentModel);` -/
def PState.keepModel (st : PState) : PState :=
  if st.cur.differences.length > 0 then { st with models := st.models ++ [st.cur] } else st

/-- `while (parseXHunkHeader()) parseXHunkBody();` for the unified and the normal format; `fuel` bounds the iterations. -/
def hunkLoop (hunk : PState → Res (Option PState)) : Nat → PState → Res PState
  | 0, _ => Res.hang
  | fuel + 1, st => do
    let r ← hunk st
    match r with
    | none => Res.ok st
    | some st => hunkLoop hunk fuel st

/-- The same loop for the context format, where a failing header may move the position. -/
def contextHunkLoop : Nat → PState → Res PState
  | 0, _ => Res.hang
  | fuel + 1, st => do
    let r ← parseContextHunk st
    match r with
    | (none, st) => Res.ok st
    | (some st, _) => contextHunkLoop fuel st

/-- The loop over the files of `parseContext`, `parseNormal`, `parseUnified` (parserbase.cpp:638-644, 677-683, 725-733):
`while (header()) { hunks; keep the model; checkHeader; }` -/
def fileLoop (header : PState → Res (PState × Bool)) (hunks : PState → Res PState) (check : Re) : Nat → PState → Res PState
  | 0, _ => Res.hang
  | fuel + 1, st => do
    let r ← header st
    if r.2 = false then Res.ok r.1
    else do
      let st ← hunks r.1
      fileLoop header hunks check fuel (checkHeader check st.keepModel)

/-- Hunks of one unified file. -/
def unifiedHunks (st : PState) : Res PState := hunkLoop parseUnifiedHunk (st.rest.length + 1) st
/-- Hunks of one normal file. -/
def normalHunks (st : PState) : Res PState := hunkLoop parseNormalHunk (st.rest.length + 1) st
/-- Hunks of one context file. -/
def contextHunks (st : PState) : Res PState := contextHunkLoop (st.rest.length + 1) st

/-- `parseUnified` up to the sort, parserbase.cpp:723-733. -/
def unifiedFiles (win : Bool) (g : Generator) (st : PState) : Res PState :=
  fileLoop (parseUnifiedDiffHeader win g) unifiedHunks (unifiedHeader1 g) (st.rest.length + 1) st

/-- `parseContext` up to the sort, parserbase.cpp:636-644. -/
def contextFiles (win : Bool) (g : Generator) (st : PState) : Res PState :=
  fileLoop (parseContextDiffHeader win g) contextHunks (contextHeader1 g) (st.rest.length + 1) st

/-- `parseNormal` up to the sort, parserbase.cpp:675-692. -/
def normalFiles (win : Bool) (g : Generator) (st : PState) : Res PState := do
  let st ← fileLoop (fun st => Res.ok (parseNormalDiffHeader win g st)) normalHunks (normalHeader g) (st.rest.length + 1) st
  if st.single then do
    let st ← normalHunks st
    let st := st.keepModel
    Res.ok (if st.rest ≠ [] then { st with malformed := true } else st)
  else Res.ok st

/-- Insertion behind all elements that are not greater. -/
def insertModel (lt : DModel → DModel → Bool) (m : DModel) : List DModel → List DModel
  | [] => [m]
  | x :: xs => if lt m x then m :: x :: xs else x :: insertModel lt m xs

/-- `DiffModelList::sort`, diffmodellist.cpp:11-19, with `operator<` of diffmodel.cpp:50-55.  `std::sort` may order equal elements differently. -/
def sortModels (cmp : Str → Str → Int) (ms : List DModel) : List DModel :=
  ms.foldl (fun acc m => insertModel (fun a b => decide (DModel.compareSource cmp a b < 0)) m acc) []

/-- Result of `Parser::parse`: the list of models (`none` is the null pointer), the `malformed` flag, and the heap. -/
structure ParseResult where
  models : Option (List DModel)
  malformed : Bool
  heap : Heap

/-- The end of `parseX`, parserbase.cpp:646-653, 694-701, 735-742. -/
def finishParse (cmp : Str → Str → Int) (st : PState) : ParseResult :=
  { models := if st.models.length > 0 then some (sortModels cmp st.models) else none, malformed := st.malformed, heap := st.heap }

/-- `ParserBase::parse`, parserbase.cpp:107-137.  `parseEd` and `parseRCS` find no header (parserbase.cpp:178-181, 218-221 and the
overrides), so they return null. -/
def parseLines (win : Bool) (cmp : Str → Str → Int) (g : Generator) (heap : Heap) (lines : List Str) : Res ParseResult :=
  let st : PState := { lines := lines, rest := lines, heap := heap, cur := {}, models := [], single := false, malformed := false }
  match determineFormat g lines with
  | .Context => do let st ← contextFiles win g st; Res.ok (finishParse cmp st)
  | .Normal => do let st ← normalFiles win g st; Res.ok (finishParse cmp st)
  | .Unified => do let st ← unifiedFiles win g st; Res.ok (finishParse cmp st)
  | _ => Res.ok { models := none, malformed := false, heap := heap }

/-- `Parser::parse`, parser.cpp:50-89: the generator is determined before, everything else after the cleaning. -/
def parse (win : Bool) (cmp : Str → Str → Int) (heap : Heap) (lines : List Str) : Res ParseResult := do
  let g := determineGenerator lines
  let lines ← cleanUpCrap lines
  parseLines win cmp g heap lines

end KompareDiff2
