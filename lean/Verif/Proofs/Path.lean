import Verif.Model.Path
/-
Lemmas about path helpers.
-/
namespace KompareDiff2

theorem lastIndexOf_none {c : Char} {s : Str} : lastIndexOf c s = none ↔ c ∉ s := by
  induction s with
  | nil => simp [lastIndexOf]
  | cons x s ih =>
    simp only [lastIndexOf]
    cases h : lastIndexOf c s with
    | some i =>
      have : c ∈ s := by
        apply Classical.byContradiction
        intro hc; rw [ih.2 hc] at h; cases h
      simp [this]
    | none =>
      have hc := ih.1 h
      by_cases hx : x = c
      · simp [hx]
      · simp [hx, hc]; exact fun e => hx e.symm

theorem lastIndexOf_some {c : Char} {s : Str} {i : Nat} (h : lastIndexOf c s = some i) :
    ∃ a b, s = a ++ c :: b ∧ a.length = i ∧ c ∉ b := by
  induction s generalizing i with
  | nil => simp [lastIndexOf] at h
  | cons x s ih =>
    simp only [lastIndexOf] at h
    cases h' : lastIndexOf c s with
    | some j =>
      rw [h'] at h; simp at h; subst h
      obtain ⟨a, b, h1, h2, h3⟩ := ih h'
      exact ⟨x :: a, b, by rw [h1]; rfl, by simp [h2], h3⟩
    | none =>
      rw [h'] at h
      by_cases hx : x = c
      · simp [hx] at h; subst h
        exact ⟨[], s, by simp [hx], rfl, lastIndexOf_none.1 h'⟩
      · simp [hx] at h

/-- Splitting at the last slash. -/
theorem splitPath_slash (old a b : Str) (hb : '/' ∉ b) : splitPath old (a ++ '/' :: b) = (a ++ ['/'], b) := by
  have hne : lastIndexOf '/' (a ++ '/' :: b) ≠ none := by
    intro h; rw [lastIndexOf_none] at h; exact h (by simp)
  cases h : lastIndexOf '/' (a ++ '/' :: b) with
  | none => exact absurd h hne
  | some i =>
    obtain ⟨a', b', h1, h2, h3⟩ := lastIndexOf_some h
    have : a = a' ∧ b = b' := by
      rcases List.append_eq_append_iff.1 h1 with ⟨x, e1, e2⟩ | ⟨x, e1, e2⟩
      · cases x with
        | nil => simp at e1 e2; exact ⟨e1.symm, e2⟩
        | cons y x =>
          simp at e2
          rw [e2.2] at hb
          exact absurd (by simp) hb
      · cases x with
        | nil => simp at e1 e2; exact ⟨e1, e2.symm⟩
        | cons y x =>
          simp at e2
          rw [e2.2] at h3
          exact absurd (by simp) h3
    obtain ⟨rfl, rfl⟩ := this
    simp only [splitPath, h, ← h2]
    refine Prod.ext ?_ ?_
    · simp only [List.take_append, List.take_of_length_le (Nat.le_succ a.length)]; simp
    · simp only [List.drop_append, List.drop_eq_nil_of_le (Nat.le_succ a.length)]; simp
      rw [List.take_of_length_le (by omega)]

theorem splitPath_noslash (old p : Str) (h : '/' ∉ p) : splitPath old p = (old, p) := by
  simp only [splitPath, lastIndexOf_none.2 h]

end KompareDiff2
