import Verif.Model.Path
/-
Facts about `replaceAll`, `escapePath`, `unescapePath`.
-/
namespace KompareDiff2

/-- Replace one character by a text. -/
def subst1 (c : Char) (after : Str) (s : Str) : Str := s.flatMap (fun x => if x = c then after else [x])

theorem replaceFuel_single (c : Char) (after : Str) (n : Nat) (s : Str) (h : s.length ≤ n) :
    replaceFuel [c] after n s = subst1 c after s := by
  induction n generalizing s with
  | zero =>
    have : s = [] := List.length_eq_zero_iff.1 (by omega)
    subst this; rfl
  | succ n ih =>
    cases s with
    | nil => rfl
    | cons x s =>
      simp only [List.length_cons] at h
      simp only [replaceFuel]
      by_cases hx : x = c
      · subst hx
        simp [List.isPrefixOf, ih s (by omega), subst1]
      · simp [List.isPrefixOf, hx, ih s (by omega), subst1, Ne.symm hx]

theorem replaceAll_single (c : Char) (after s : Str) : replaceAll [c] after s = subst1 c after s :=
  replaceFuel_single c after _ s (Nat.le_refl _)

/-- The first character of an escaped text is the quote for no text. -/
theorem subst1_head_ne (c d : Char) (hcd : d ≠ c) (after : Str) (s : Str) :
    (subst1 c (d :: after) s).head? ≠ some c := by
  cases s with
  | nil => simp [subst1]
  | cons x s =>
    by_cases hx : x = c
    · simp [subst1, hx, hcd]
    · simp [subst1, hx]

/-- Undoing the escaping `c ↦ d c`, for `d ≠ c`. -/
theorem replaceFuel_undo (c d : Char) (hcd : d ≠ c) (n : Nat) (s : Str) (h : (subst1 c [d, c] s).length ≤ n) :
    replaceFuel [d, c] [c] n (subst1 c [d, c] s) = s := by
  induction s generalizing n with
  | nil => cases n <;> rfl
  | cons x s ih =>
    by_cases hx : x = c
    · subst hx
      have e : subst1 x [d, x] (x :: s) = d :: x :: subst1 x [d, x] s := by simp [subst1]
      rw [e] at h ⊢
      cases n with
      | zero => simp at h
      | succ n =>
        simp only [List.length_cons] at h
        simp [replaceFuel, List.isPrefixOf, ih n (by omega)]
    · have e : subst1 c [d, c] (x :: s) = x :: subst1 c [d, c] s := by simp [subst1, hx]
      rw [e] at h ⊢
      cases n with
      | zero => simp at h
      | succ n =>
        simp only [List.length_cons] at h
        have hh := subst1_head_ne c d hcd [c] s
        have hp : List.isPrefixOf [d, c] (x :: subst1 c [d, c] s) = false := by
          cases hs : subst1 c [d, c] s with
          | nil => simp [List.isPrefixOf]
          | cons y t =>
            rw [hs] at hh
            simp only [List.head?_cons, ne_eq, Option.some.injEq] at hh
            simp [List.isPrefixOf, Ne.symm hh]
        simp [replaceFuel, hp, ih n (by omega)]

/-- Undoing the doubling of `c`. -/
theorem replaceFuel_undouble (c : Char) (n : Nat) (s : Str) (h : (subst1 c [c, c] s).length ≤ n) :
    replaceFuel [c, c] [c] n (subst1 c [c, c] s) = s := by
  induction s generalizing n with
  | nil => cases n <;> rfl
  | cons x s ih =>
    by_cases hx : x = c
    · subst hx
      have e : subst1 x [x, x] (x :: s) = x :: x :: subst1 x [x, x] s := by simp [subst1]
      rw [e] at h ⊢
      cases n with
      | zero => simp at h
      | succ n =>
        simp only [List.length_cons] at h
        simp [replaceFuel, List.isPrefixOf, ih n (by omega)]
    · have e : subst1 c [c, c] (x :: s) = x :: subst1 c [c, c] s := by simp [subst1, hx]
      rw [e] at h ⊢
      cases n with
      | zero => simp at h
      | succ n =>
        simp only [List.length_cons] at h
        simp [replaceFuel, List.isPrefixOf, Ne.symm hx, ih n (by omega)]

/-- The escaped path before quoting. -/
def escapeCore (win : Bool) (p : Str) : Str :=
  subst1 '"' ['\\', '"'] (if win then p else subst1 '\\' ['\\', '\\'] p)

theorem escapePath_eq (win : Bool) (p : Str) :
    escapePath win p = if (escapeCore win p).contains ' ' then '"' :: escapeCore win p ++ ['"'] else escapeCore win p := by
  have h1 : str "\\" = ['\\'] := rfl
  have h2 : str "\"" = ['"'] := rfl
  have h3 : str "\\\\" = ['\\', '\\'] := rfl
  have h4 : str "\\\"" = ['\\', '"'] := rfl
  simp only [escapePath, h1, h2, h3, h4, replaceAll_single, escapeCore]
  cases win <;> simp

theorem escapeCore_head (win : Bool) (p : Str) : (escapeCore win p).head? ≠ some '"' :=
  subst1_head_ne '"' '\\' (by decide) ['"'] _

theorem unescape_core (win : Bool) (p : Str) :
    (if win then replaceAll (str "\\\"") (str "\"") (escapeCore win p)
      else replaceAll (str "\\\\") (str "\\") (replaceAll (str "\\\"") (str "\"") (escapeCore win p))) = p := by
  have h : replaceAll (str "\\\"") (str "\"") (escapeCore win p) = if win then p else subst1 '\\' ['\\', '\\'] p :=
    replaceFuel_undo '"' '\\' (by decide) _ _ (Nat.le_refl _)
  rw [h]
  cases win
  · exact replaceFuel_undouble '\\' _ _ (Nat.le_refl _)
  · rfl

theorem unescape_escape (win : Bool) (p : Str) : unescapePath win (escapePath win p) = p := by
  have hcore := unescape_core win p
  rw [escapePath_eq]
  have hh := escapeCore_head win p
  generalize escapeCore win p = e at hcore hh ⊢
  by_cases hs : e.contains ' '
  · rw [if_pos hs]
    have e1 : (('"' :: e ++ ['"'] : Str)).head? = some '"' := rfl
    have e2 : (('"' :: e ++ ['"'] : Str)).getLast? = some '"' := List.getLast?_concat (l := '"' :: e)
    have e3 : (('"' :: e ++ ['"'] : Str).drop 1).take (('"' :: e ++ ['"'] : Str).length - 2) = e := by simp
    simp only [unescapePath, e1, e2, e3, and_self, if_true]
    exact hcore
  · rw [if_neg hs]
    simp only [unescapePath, hh, false_and, if_false]
    exact hcore

theorem mem_subst1 (c x : Char) (after s : Str) (ha : ∀ y ∈ after, y = c ∨ y = '\\') (h : x ∈ subst1 c after s) :
    x ∈ s ∨ x = '\\' := by
  simp only [subst1, List.mem_flatMap] at h
  obtain ⟨y, hy, hx⟩ := h
  split at hx
  · rename_i hyc
    rcases ha x hx with h1 | h1
    · left; rw [h1, ← hyc]; exact hy
    · exact Or.inr h1
  · simp only [List.mem_singleton] at hx
    left; rw [hx]; exact hy

/-- Escaping adds no character except backslashes and quotes. -/
theorem mem_escapePath (win : Bool) (p : Str) (x : Char) (h : x ∈ escapePath win p) : x ∈ p ∨ x = '\\' ∨ x = '"' := by
  have hc : ∀ y ∈ escapeCore win p, y ∈ p ∨ y = '\\' := by
    intro y hy
    rcases mem_subst1 '"' y _ _ (by simp) hy with h1 | h1
    · cases win
      · exact mem_subst1 '\\' y _ _ (by simp) h1
      · exact Or.inl h1
    · exact Or.inr h1
  rw [escapePath_eq] at h
  split at h
  · simp only [List.cons_append, List.mem_cons, List.mem_append, List.not_mem_nil, or_false] at h
    rcases h with h | h | h
    · exact Or.inr (Or.inr h)
    · rcases hc x h with h | h
      · exact Or.inl h
      · exact Or.inr (Or.inl h)
    · exact Or.inr (Or.inr h)
  · rcases hc x h with h | h
    · exact Or.inl h
    · exact Or.inr (Or.inl h)

theorem escapeCore_ne_nil (win : Bool) (p : Str) (h : p ≠ []) : escapeCore win p ≠ [] := by
  have hs : ∀ (c : Char) (a : Char) (b : Str) (s : Str), s ≠ [] → subst1 c (a :: b) s ≠ [] := by
    intro c a b s hs
    cases s with
    | nil => exact absurd rfl hs
    | cons x s => by_cases hx : x = c <;> simp [subst1, hx]
  unfold escapeCore
  apply hs
  cases win
  · exact hs _ _ _ _ h
  · exact h

theorem escapePath_ne_nil (win : Bool) (p : Str) (h : p ≠ []) : escapePath win p ≠ [] := by
  rw [escapePath_eq]
  split
  · simp
  · exact escapeCore_ne_nil win p h

end KompareDiff2
