/-
Independent specification of edit scripts and of "marked ranges".  Nothing here refers to the model.
-/
namespace KompareDiff2.Spec

/-- `Script repl a b c`: some sequence of editing steps of total cost `c` turns `a` into `b`.
Keeping an element is free, deleting or inserting one costs 1; replacing an element by a different one
costs 1 and is only available when `repl = true`. -/
inductive Script {α : Type} (repl : Bool) : List α → List α → Nat → Prop where
  | nil : Script repl [] [] 0
  | keep (x : α) {a b c} : Script repl a b c → Script repl (x :: a) (x :: b) c
  | delete (x : α) {a b c} : Script repl a b c → Script repl (x :: a) b (c + 1)
  | insert (y : α) {a b c} : Script repl a b c → Script repl a (y :: b) (c + 1)
  | replace (x y : α) {a b c} : repl = true → Script repl a b c → Script repl (x :: a) (y :: b) (c + 1)

/-- `c` is the least cost of any edit script from `a` to `b`. -/
def IsDistance {α : Type} (repl : Bool) (a b : List α) (c : Nat) : Prop :=
  Script repl a b c ∧ ∀ c', Script repl a b c' → c ≤ c'

/-- Half-open ranges `[s, e)`, in increasing order, non-empty, inside `[0, len)`, each starting at `lo` or later
and separated from the previous one by at least one position. -/
def RangesFrom (len : Nat) : Nat → List (Nat × Nat) → Prop
  | _, [] => True
  | lo, (s, e) :: r => lo ≤ s ∧ s < e ∧ e ≤ len ∧ RangesFrom len (e + 1) r

/-- Is position `i` inside one of the ranges? -/
def covered (r : List (Nat × Nat)) (i : Nat) : Bool := r.any (fun p => decide (p.1 ≤ i) && decide (i < p.2))

/-- The elements of `l` (whose first element has position `i`) at positions not satisfying `m`. -/
def unmarkedFrom {α : Type} (m : Nat → Bool) : Nat → List α → List α
  | _, [] => []
  | i, x :: l => if m i then unmarkedFrom m (i + 1) l else x :: unmarkedFrom m (i + 1) l

/-- The elements of `l` lying outside the given ranges. -/
def outside {α : Type} (r : List (Nat × Nat)) (l : List α) : List α := unmarkedFrom (covered r) 0 l

/-- Number of positions in the given (disjoint) ranges. -/
def rangesSize (r : List (Nat × Nat)) : Nat := (r.map (fun p => p.2 - p.1)).sum

end KompareDiff2.Spec

namespace KompareDiff2.Spec

/-- Number of elements of `l` (first element at position `i`) at positions satisfying `m`. -/
def markedFrom {α : Type} (m : Nat → Bool) : Nat → List α → Nat
  | _, [] => 0
  | i, _ :: l => (if m i then 1 else 0) + markedFrom m (i + 1) l

end KompareDiff2.Spec
