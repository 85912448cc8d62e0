import Verif.Spec.Lines
/-
How arbitrary lines are divided into file headers, hunks and other lines.  Only the parts that decide about undefined behaviour and
about the malformed flag are described; independent of the parser model.
-/
namespace KompareDiff2
namespace Spec

/-- The line a file header begins with, and the line that must follow (if the header has two lines). -/
structure Opening where
  first : Str → Prop
  second : Option (Str → Prop)

/-- How the reading ends. -/
inductive Outcome where
  /-- all lines were read -/
  | finished
  /-- the first line of a header is not followed by the second one: the remaining lines are ignored -/
  | abandoned
  /-- memory behind the end of the input is accessed -/
  | undefined
  deriving DecidableEq

/-- `Reading o Hunks lines stops outcome`: the lines are read as files that open with `o` and continue as long as `Hunks` says
(`none`: undefined behaviour in the hunks); `stops` are the lines still unread after the hunks of each file. -/
inductive Reading (o : Opening) (Hunks : List Str → Option (List Str) → Prop) : List Str → List (List Str) → Outcome → Prop where
  /-- no further header -/
  | finished (ls : List Str) : (∀ l ∈ ls, ¬ o.first l) → Reading o Hunks ls [] .finished
  /-- the input ends after the first line of a two-line header -/
  | truncated (pre : List Str) (l : Str) (S : Str → Prop) : o.second = some S → (∀ x ∈ pre, ¬ o.first x) → o.first l →
      Reading o Hunks (pre ++ [l]) [] .undefined
  /-- the second line of the header is something else -/
  | abandoned (pre : List Str) (l l2 : Str) (ls : List Str) (S : Str → Prop) : o.second = some S → (∀ x ∈ pre, ¬ o.first x) → o.first l → ¬ S l2 →
      Reading o Hunks (pre ++ l :: l2 :: ls) [] .abandoned
  /-- a file with a two-line header -/
  | two (pre : List Str) (l l2 : Str) (ls rest : List Str) (S : Str → Prop) (stops : List (List Str)) (out : Outcome) : o.second = some S →
      (∀ x ∈ pre, ¬ o.first x) → o.first l → S l2 → Hunks ls (some rest) → Reading o Hunks rest stops out →
      Reading o Hunks (pre ++ l :: l2 :: ls) (rest :: stops) out
  /-- a file with a one-line header -/
  | one (pre : List Str) (l : Str) (ls rest : List Str) (stops : List (List Str)) (out : Outcome) : o.second = none →
      (∀ x ∈ pre, ¬ o.first x) → o.first l → Hunks ls (some rest) → Reading o Hunks rest stops out →
      Reading o Hunks (pre ++ l :: ls) (rest :: stops) out
  /-- undefined behaviour in the hunks after a two-line header -/
  | badTwo (pre : List Str) (l l2 : Str) (ls : List Str) (S : Str → Prop) : o.second = some S →
      (∀ x ∈ pre, ¬ o.first x) → o.first l → S l2 → Hunks ls none → Reading o Hunks (pre ++ l :: l2 :: ls) [] .undefined
  /-- undefined behaviour in the hunks after a one-line header -/
  | badOne (pre : List Str) (l : Str) (ls : List Str) : o.second = none →
      (∀ x ∈ pre, ¬ o.first x) → o.first l → Hunks ls none → Reading o Hunks (pre ++ l :: ls) [] .undefined

/-- The next line is neither a file header nor one of the lines that programs write before a file or at the end. -/
def BadStop (o : Opening) (rest : List Str) : Prop :=
  ∃ l ls, rest = l :: ls ∧ ¬ o.first l ∧ ¬ str "Index: " <+: l ∧ ¬ str "diff " <+: l ∧ ¬ str "-- " <+: l

/-- A non-empty sequence of digits. -/
def Digits (s : Str) : Prop := s ≠ [] ∧ ∀ d ∈ s, Digit d

/-- The number written in decimal. -/
def decimal (s : Str) : Nat := s.foldl (fun n c => 10 * n + (c.toNat - '0'.toNat)) 0

/-! ### Unified -/

/-- `--- name` or `--- name<tab>time stamp…` (with another prefix for the second line). -/
def UnifiedHeaderLine (pre : String) (l : Str) : Prop :=
  ∃ name tail, l = str pre ++ name ++ tail ++ ['\n'] ∧ name ≠ [] ∧ '\t' ∉ name ∧
    (tail = [] ∨ ∃ ts more, tail = '\t' :: ts ++ more ∧ ts ≠ [] ∧ '\t' ∉ ts ∧ '\n' ∉ more)

/-- `==== source - destination ====`, as written by Perforce. -/
def PerforceHeaderLine (l : Str) : Prop :=
  ∃ s t, l = str "==== " ++ s ++ str " - " ++ t ++ str " ====\n" ∧ '\n' ∉ s ∧ '\n' ∉ t

/-- How a file opens in a unified diff. -/
def unifiedOpening : Generator → Opening
  | .Perforce => { first := PerforceHeaderLine, second := none }
  | _ => { first := UnifiedHeaderLine "--- ", second := some (UnifiedHeaderLine "+++ ") }

/-- `@@ -a,n +b,m @@ …`; a count that is left out is 1. -/
def HunkHeaderLine (l : Str) (n m : Nat) : Prop :=
  ∃ a b na nb f, l = str "@@ -" ++ a ++ na ++ str " +" ++ b ++ nb ++ str " @@" ++ f ++ ['\n'] ∧ Digits a ∧ Digits b ∧ '\n' ∉ f ∧
    (na = [] ∧ n = 1 ∨ ∃ d, na = ',' :: d ∧ Digits d ∧ n = decimal d) ∧
    (nb = [] ∧ m = 1 ∨ ∃ d, nb = ',' :: d ∧ Digits d ∧ m = decimal d)

/-- `UnifiedBody n m lines rest`: lines that begin with a space, `-` or `+` are read until `n` lines of the old and `m` lines of the
new file have been read. -/
inductive UnifiedBody : Int → Int → List Str → List Str → Prop where
  | complete (ls : List Str) : UnifiedBody 0 0 ls ls
  | other (n m : Int) (ls : List Str) : (∀ l, ls.head? = some l → l.head? ≠ some ' ' ∧ l.head? ≠ some '-' ∧ l.head? ≠ some '+') →
      UnifiedBody n m ls ls
  | both (n m : Int) (t : Str) (ls rest : List Str) : n ≠ 0 ∨ m ≠ 0 → UnifiedBody (n - 1) (m - 1) ls rest →
      UnifiedBody n m ((' ' :: t) :: ls) rest
  | old (n m : Int) (t : Str) (ls rest : List Str) : n ≠ 0 ∨ m ≠ 0 → UnifiedBody (n - 1) m ls rest → UnifiedBody n m (('-' :: t) :: ls) rest
  | new (n m : Int) (t : Str) (ls rest : List Str) : n ≠ 0 ∨ m ≠ 0 → UnifiedBody n (m - 1) ls rest → UnifiedBody n m (('+' :: t) :: ls) rest

/-- Largest `int`. -/
def intMax : Nat := 2147483647

/-- The hunks of a file in a unified diff.  A hunk whose count is not an `int` has no lines; an empty line after the lines of a hunk is
undefined behaviour. -/
inductive UnifiedHunks : List Str → Option (List Str) → Prop where
  | stop (ls : List Str) : (∀ l, ls.head? = some l → ¬ ∃ n m, HunkHeaderLine l n m) → UnifiedHunks ls (some ls)
  | skipped (l : Str) (ls : List Str) (n m : Nat) (r : Option (List Str)) : HunkHeaderLine l n m → intMax < n ∨ intMax < m → UnifiedHunks ls r →
      UnifiedHunks (l :: ls) r
  | hunk (l : Str) (ls rest : List Str) (n m : Nat) (r : Option (List Str)) : HunkHeaderLine l n m → n ≤ intMax → m ≤ intMax →
      UnifiedBody n m ls rest → rest.head? ≠ some [] → UnifiedHunks rest r → UnifiedHunks (l :: ls) r
  | empty (l : Str) (ls more : List Str) (n m : Nat) : HunkHeaderLine l n m → n ≤ intMax → m ≤ intMax →
      UnifiedBody n m ls ([] :: more) → UnifiedHunks (l :: ls) none

/-! ### Context -/

/-- `*** name` or `*** name<tab>time stamp` (with another prefix for the second line). -/
def ContextHeaderLine (pre : String) (l : Str) : Prop :=
  ∃ name tail, l = str pre ++ name ++ tail ++ ['\n'] ∧ name ≠ [] ∧ '\t' ∉ name ∧
    (tail = [] ∨ ∃ ts, tail = '\t' :: ts ∧ ts ≠ [] ∧ '\t' ∉ ts)

/-- `*** name<tab>time stamp<tab>revision`, as written by CVS. -/
def CvsHeaderLine1 (l : Str) : Prop :=
  ∃ name ts rev, l = str "*** " ++ name ++ '\t' :: ts ++ '\t' :: rev ++ ['\n'] ∧ name ≠ [] ∧ '\t' ∉ name ∧ ts ≠ [] ∧ '\t' ∉ ts ∧ '\n' ∉ rev
/-- `--- name<tab>time stamp` or `--- name<tab>time stamp<tab>revision`, as written by CVS. -/
def CvsHeaderLine2 (l : Str) : Prop :=
  ∃ name ts rev, l = str "--- " ++ name ++ '\t' :: ts ++ rev ++ ['\n'] ∧ name ≠ [] ∧ '\t' ∉ name ∧ ts ≠ [] ∧ '\t' ∉ ts ∧
    (rev = [] ∨ ∃ r, rev = '\t' :: r ∧ '\n' ∉ r)

/-- How a file opens in a context diff. -/
def contextOpening : Generator → Opening
  | .Perforce => { first := PerforceHeaderLine, second := none }
  | .CVSDiff => { first := CvsHeaderLine1, second := some CvsHeaderLine2 }
  | .Diff => { first := ContextHeaderLine "*** ", second := some (ContextHeaderLine "--- ") }

/-- `*************** function` -/
def StarLine (l : Str) : Prop := ∃ f, l = List.replicate 15 '*' ++ f ++ ['\n'] ∧ '\n' ∉ f
/-- `*** a,b ****` -/
def OldRange (l : Str) : Prop :=
  ∃ a b t, l = str "*** " ++ a ++ ',' :: b ++ str " ****" ++ t ++ ['\n'] ∧ Digits a ∧ Digits b ∧ '\n' ∉ t
/-- `--- a,b ----` -/
def NewRange (l : Str) : Prop := ∃ a b, l = str "--- " ++ a ++ ',' :: b ++ str " ----\n" ∧ Digits a ∧ Digits b
/-- A line of a section: `  text`, `- text`, `+ text` or `! text`. -/
def SectionLine (l : Str) : Prop := ∃ x t, l = x :: ' ' :: t ++ ['\n'] ∧ (x = ' ' ∨ x = '-' ∨ x = '+' ∨ x = '!') ∧ '\n' ∉ t

/-- The hunks of a file in a context diff. -/
inductive ContextHunks : List Str → Option (List Str) → Prop where
  | stop (ls : List Str) : (∀ l, ls.head? = some l → ¬ StarLine l) → ContextHunks ls (some ls)
  | lone (l : Str) (ls : List Str) : StarLine l → (∀ l2, ls.head? = some l2 → ¬ OldRange l2) → ContextHunks (l :: ls) (some ls)
  /-- the input ends in the old section -/
  | truncated (l l2 : Str) (old : List Str) : StarLine l → OldRange l2 → (∀ x ∈ old, SectionLine x) → ContextHunks (l :: l2 :: old) none
  /-- the old section is not followed by the line opening the new section -/
  | dropped (l l2 l3 : Str) (old more : List Str) (r : Option (List Str)) : StarLine l → OldRange l2 → (∀ x ∈ old, SectionLine x) →
      ¬ SectionLine l3 → ¬ NewRange l3 → ContextHunks (l3 :: more) r → ContextHunks (l :: l2 :: old ++ l3 :: more) r
  | hunk (l l2 l3 : Str) (old new rest : List Str) (r : Option (List Str)) : StarLine l → OldRange l2 → (∀ x ∈ old, SectionLine x) →
      ¬ SectionLine l3 → NewRange l3 → (∀ x ∈ new, SectionLine x) → (∀ x, rest.head? = some x → ¬ SectionLine x) → ContextHunks rest r →
      ContextHunks (l :: l2 :: old ++ l3 :: (new ++ rest)) r

end Spec
end KompareDiff2
