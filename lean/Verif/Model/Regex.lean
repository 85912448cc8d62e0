import Verif.Basic
/-
Regular expressions as used through `QRegularExpression` (PCRE backtracking in priority order, no flags except
`InvertedGreedinessOption`).  The AST nodes are exactly the constructs occurring in the patterns of the parsers.
-/
namespace KompareDiff2

/-- A regular expression. -/
inductive Re where
  | eps
  | chr (p : Char → Bool)
  | seq (a b : Re)
  | alt (a b : Re)
  | star (greedy : Bool) (r : Re)
  | grp (n : Nat) (r : Re)

/-- Captured groups, most recent first. -/
abbrev Caps := List (Nat × Str)

/-- `QRegularExpressionMatch::captured(n)`: empty for a group that did not take part in the match or does not exist. -/
def Caps.get (c : Caps) (n : Nat) : Str :=
  match List.lookup n c with
  | some s => s
  | none => []

/-- Iteration of a matcher; an iteration that consumes nothing is not repeated. -/
def starM {α} (step : Str → Caps → (Str → Caps → Option α) → Option α) (greedy : Bool) :
    Nat → Str → Caps → (Str → Caps → Option α) → Option α
  | 0, s, c, k => k s c
  | n + 1, s, c, k =>
    let again := fun (_ : Unit) => step s c (fun s' c' => if s'.length < s.length then starM step greedy n s' c' k else none)
    if greedy then
      match again () with
      | some r => some r
      | none => k s c
    else
      match k s c with
      | some r => some r
      | none => again ()

/-- Backtracking matcher: `k` receives the rest of the text and the captures; the first success in priority order counts. -/
def Re.m {α} : Re → Str → Caps → (Str → Caps → Option α) → Option α
  | .eps, s, c, k => k s c
  | .chr p, s, c, k =>
    match s with
    | x :: s' => if p x then k s' c else none
    | [] => none
  | .seq a b, s, c, k => a.m s c (fun s' c' => b.m s' c' k)
  | .alt a b, s, c, k =>
    match a.m s c k with
    | some r => some r
    | none => b.m s c k
  | .star g r, s, c, k => starM (fun s c k => r.m s c k) g (s.length + 1) s c k
  | .grp n r, s, c, k => r.m s c (fun s' c' => k s' ((n, s.take (s.length - s'.length)) :: c'))

/-- `QRegularExpression(anchoredPattern(p)).match(s)`: the whole text must match. -/
def Re.full (r : Re) (s : Str) : Option Caps := r.m s [] (fun s' c => if s' = [] then some c else none)

/-- `s.indexOf(QRegularExpression(p), 0) == 0`: some prefix matches. -/
def Re.atStart (r : Re) (s : Str) : Bool := (r.m s [] (fun _ c => some c)).isSome

namespace Re
/-- A literal character. -/
def lit (c : Char) : Re := .chr (fun x => decide (x = c))
/-- A literal text. -/
def text : Str → Re
  | [] => .eps
  | c :: s => .seq (lit c) (text s)
/-- `r*` (greedy). -/
def many (r : Re) : Re := .star true r
/-- `r+` (greedy). -/
def many1 (r : Re) : Re := .seq r (.star true r)
/-- `r?` (greedy). -/
def opt (r : Re) : Re := .alt r .eps
/-- `[0-9]`, `\d`. -/
def digit : Re := .chr (fun x => decide ('0' ≤ x) && decide (x ≤ '9'))
/-- `.` : any character except a newline. -/
def dot : Re := .chr (fun x => decide (x ≠ '\n'))
/-- `[^\t]`. -/
def noTab : Re := .chr (fun x => decide (x ≠ '\t'))
/-- Concatenation of a list. -/
def cat : List Re → Re
  | [] => .eps
  | [r] => r
  | r :: rs => .seq r (cat rs)
end Re

end KompareDiff2
