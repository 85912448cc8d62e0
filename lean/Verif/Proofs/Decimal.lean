import Verif.Proofs.Regex
/-
Decimal rendering and `toInt`.
-/
namespace KompareDiff2
open Re

/-- A decimal digit. -/
def IsDigit (x : Char) : Prop := '0' ≤ x ∧ x ≤ '9'

instance (x : Char) : Decidable (IsDigit x) := by unfold IsDigit; infer_instance

/-- The value of a text of digits. -/
def digitsVal (s : Str) : Nat := s.foldl (fun n c => 10 * n + (c.toNat - '0'.toNat)) 0

theorem digitChar_toNat (d : Nat) (h : d < 10) : (digitChar d).toNat = 48 + d := by
  have : d = 0 ∨ d = 1 ∨ d = 2 ∨ d = 3 ∨ d = 4 ∨ d = 5 ∨ d = 6 ∨ d = 7 ∨ d = 8 ∨ d = 9 := by omega
  rcases this with h | h | h | h | h | h | h | h | h | h <;> subst h <;> decide

theorem digitChar_isDigit (d : Nat) (h : d < 10) : IsDigit (digitChar d) := by
  have : d = 0 ∨ d = 1 ∨ d = 2 ∨ d = 3 ∨ d = 4 ∨ d = 5 ∨ d = 6 ∨ d = 7 ∨ d = 8 ∨ d = 9 := by omega
  rcases this with h | h | h | h | h | h | h | h | h | h <;> subst h <;> decide

theorem decNat_isDigit (n : Nat) : ∀ x ∈ decNat n, IsDigit x := by
  induction n using Nat.strongRecOn with
  | ind n ih =>
    intro x hx
    rw [decNat] at hx
    split at hx
    · rename_i h
      simp only [List.mem_singleton] at hx
      subst hx; exact digitChar_isDigit n h
    · rename_i h
      simp only [List.mem_append, List.mem_singleton] at hx
      rcases hx with hx | hx
      · exact ih (n / 10) (by omega) x hx
      · subst hx; exact digitChar_isDigit _ (by omega)

theorem decNat_ne_nil (n : Nat) : decNat n ≠ [] := by
  rw [decNat]; split <;> simp

theorem digitsVal_append (s : Str) (c : Char) : digitsVal (s ++ [c]) = 10 * digitsVal s + (c.toNat - 48) := by
  simp [digitsVal]

theorem digitsVal_decNat (n : Nat) : digitsVal (decNat n) = n := by
  induction n using Nat.strongRecOn with
  | ind n ih =>
    rw [decNat]
    split
    · rename_i h
      simp [digitsVal, digitChar_toNat n h]
    · rename_i h
      rw [digitsVal_append, ih (n / 10) (by omega), digitChar_toNat _ (by omega)]
      omega

theorem toIntOk_decNat (n : Nat) (h : n ≤ 2147483647) : toIntOk (decNat n) = ((n : Int), true) := by
  have := digitsVal_decNat n
  simp only [digitsVal] at this
  simp only [toIntOk, this, decNat_ne_nil, if_false, h, if_true]

theorem toInt_decNat (n : Nat) (h : n ≤ 2147483647) : toInt (decNat n) = (n : Int) := by
  rw [toInt, toIntOk_decNat n h]

theorem digit_class {x : Char} (h : IsDigit x) : (fun x => decide ('0' ≤ x) && decide (x ≤ '9')) x = true := by
  simp only [h.1, h.2, decide_true, Bool.and_self]

theorem not_digit_class {x : Char} (h : ¬ IsDigit x) : (fun x => decide ('0' ≤ x) && decide (x ≤ '9')) x = false := by
  simp only [IsDigit, not_and] at h
  by_cases h1 : '0' ≤ x
  · simp [h h1]
  · simp [h1]

/-- `([0-9]+)` followed by something that does not start with a digit and matches. -/
theorem m_digits {α : Type} (t s : Str) (c : Caps) (k : Str → Caps → Option α) (r : α) (ht : ∀ x ∈ t, IsDigit x) (hne : t ≠ [])
    (hs : ∀ x, s.head? = some x → ¬ IsDigit x) (hk : k s c = some r) : (many1 digit).m (t ++ s) c k = some r := by
  cases t with
  | nil => exact absurd rfl hne
  | cons x t =>
    have hx := digit_class (ht x (by simp))
    rw [m_many1, digit, List.cons_append, m_chr_cons, if_pos hx, m_many_chr]
    exact greedy_run (fun y hy => digit_class (ht y (by simp [hy]))) (fun y hy => not_digit_class (hs y hy)) hk

theorem m_digits_some {α : Type} {s : Str} {c : Caps} {k : Str → Caps → Option α} {r : α} (h : (many1 digit).m s c k = some r) :
    ∃ t u, s = t ++ u ∧ t ≠ [] ∧ (∀ x ∈ t, IsDigit x) ∧ k u c = some r := by
  rw [m_many1, digit] at h
  cases s with
  | nil => simp at h
  | cons x s =>
    rw [m_chr_cons] at h
    split at h
    · rename_i hp
      rw [m_many_chr] at h
      obtain ⟨t, u, rfl, ht, hk⟩ := greedy_some h
      refine ⟨x :: t, u, rfl, by simp, ?_, hk⟩
      intro y hy
      rcases List.mem_cons.1 hy with rfl | hy
      · simpa [IsDigit] using hp
      · simpa [IsDigit] using ht y hy
    · cases h

end KompareDiff2
