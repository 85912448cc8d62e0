import Verif.Model.Levenshtein
/-
How marker lists are to be read.  Only the data type `Marker` is taken from the model.
-/
namespace KompareDiff2.Spec

/-- The marker list `Start s₁, End e₁, Start s₂, End e₂, …` that denotes the ranges `[s₁,e₁), [s₂,e₂), …`. -/
def markersOf (r : List (Nat × Nat)) : List Marker :=
  r.flatMap (fun p => [⟨.Start, p.1⟩, ⟨.End, p.2⟩])

/-- The reading of a marker list used by the views (and by the debug code at levenshteintable.h:333-362):
text from the previous marker up to an `End` marker is changed, text up to a `Start` marker is unchanged, and text after
the last marker is unchanged.  `changedAt ms prev i` tells whether position `i ≥ prev` is changed. -/
def changedAt : List Marker → Nat → Bool
  | [], _ => false
  | m :: ms, i => if i < m.offset then decide (m.type = .End) else changedAt ms i

end KompareDiff2.Spec
