import Verif.Spec.EditScript
/-
The dynamic-programming recurrence computes the minimum cost of an edit script.
-/
namespace KompareDiff2
open Spec

set_option linter.unusedSectionVars false
variable {α : Type} [DecidableEq α]

/-- Mismatch cost. -/
def mis (ar : Bool) : Nat := if ar then 1 else 2

/-- The recurrence on prefixes of `a`, `b`. -/
def D (ar : Bool) (a b : List α) : Nat → Nat → Nat
  | 0, j => j
  | i + 1, 0 => i + 1
  | i + 1, j + 1 =>
    min (D ar a b (i + 1) j + 1)
      (min (D ar a b i (j + 1) + 1) (D ar a b i j + if a[i]? = b[j]? then 0 else mis ar))

/-- The recurrence on reversed lists. -/
def rd (ar : Bool) : List α → List α → Nat
  | [], l => l.length
  | x :: a, [] => a.length + 1
  | x :: a, y :: b =>
    min (rd ar (x :: a) b + 1) (min (rd ar a (y :: b) + 1) (rd ar a b + if x = y then 0 else mis ar))
termination_by a b => a.length + b.length

theorem rd_nil (ar : Bool) (b : List α) : rd ar [] b = b.length := by simp [rd]
theorem rd_nil' (ar : Bool) (a : List α) : rd ar a [] = a.length := by cases a <;> simp [rd]

theorem Spec.Script.length_nil {ar : Bool} {a b : List α} {c} (h : Script ar a b c) :
    (a = [] → b.length ≤ c) ∧ (b = [] → a.length ≤ c) := by
  induction h <;> simp_all

theorem rd_le_script {ar : Bool} {a b : List α} {c} (h : Script ar a b c) : rd ar a b ≤ c := by
  induction h with
  | nil => simp [rd]
  | keep x h ih => rw [rd]; simp; omega
  | @delete x a b c h ih =>
    cases b with
    | nil => rw [rd_nil'] at *; simp; omega
    | cons y b => rw [rd]; omega
  | @insert y a b c h ih =>
    cases a with
    | nil => rw [rd_nil] at *; simp; omega
    | cons x a => rw [rd]; omega
  | replace x y hr h ih =>
    rw [rd]; subst hr; simp only [mis]; split <;> simp <;> omega

theorem script_rd (ar : Bool) (a b : List α) : Script ar a b (rd ar a b) := by
  fun_induction rd ar a b with
  | case1 l =>
    induction l with
    | nil => exact .nil
    | cons y l ih => exact .insert y ih
  | case2 x a =>
    have : ∀ l : List α, Script ar l [] l.length := by
      intro l
      induction l with
      | nil => exact .nil
      | cons y l ih => exact .delete y ih
    exact this (x :: a)
  | case3 x a y b ih1 ih2 ih3 =>
    have hn := Script.insert y ih1
    have hw := Script.delete x ih2
    have hd : Script ar (x :: a) (y :: b) (rd ar a b + if x = y then 0 else mis ar) := by
      split
      · rename_i h; subst h; exact .keep x ih3
      · cases ar
        · simp only [mis]; exact .delete x (.insert y ih3)
        · exact .replace x y rfl ih3
    rcases Nat.le_total (rd ar (x :: a) b + 1) (min (rd ar a (y :: b) + 1) (rd ar a b + if x = y then 0 else mis ar)) with h | h
    · rw [Nat.min_eq_left h]; exact hn
    · rw [Nat.min_eq_right h]
      rcases Nat.le_total (rd ar a (y :: b) + 1) (rd ar a b + if x = y then 0 else mis ar) with h | h
      · rw [Nat.min_eq_left h]; exact hw
      · rw [Nat.min_eq_right h]; exact hd

theorem Spec.Script.append {ar : Bool} {a b a' b' : List α} {c c'} (h : Script ar a b c) (h' : Script ar a' b' c') :
    Script ar (a ++ a') (b ++ b') (c + c') := by
  induction h with
  | nil => simpa using h'
  | keep x h ih => exact .keep x ih
  | @delete x a b c h ih => have := Script.delete x ih; rwa [show c + 1 + c' = c + c' + 1 by omega]
  | @insert x a b c h ih => have := Script.insert x ih; rwa [show c + 1 + c' = c + c' + 1 by omega]
  | @replace x y a b c hr h ih => have := Script.replace x y hr ih; rwa [show c + 1 + c' = c + c' + 1 by omega]

theorem Spec.Script.reverse {ar : Bool} {a b : List α} {c} (h : Script ar a b c) :
    Script ar a.reverse b.reverse c := by
  induction h with
  | nil => exact .nil
  | keep x h ih => simpa using ih.append (.keep x .nil)
  | delete x h ih => simpa using ih.append (.delete x .nil)
  | insert x h ih => simpa using ih.append (.insert x .nil)
  | replace x y hr h ih => simpa using ih.append (.replace x y hr .nil)

theorem isDistance_rd (ar : Bool) (a b : List α) : IsDistance ar a b (rd ar a.reverse b.reverse) := by
  constructor
  · have := (script_rd ar a.reverse b.reverse).reverse; simpa using this
  · intro c' h; exact rd_le_script h.reverse

theorem D_eq_rd (ar : Bool) (a b : List α) (i j : Nat) (hi : i ≤ a.length) (hj : j ≤ b.length) :
    D ar a b i j = rd ar (a.take i).reverse (b.take j).reverse := by
  fun_induction D ar a b i j with
  | case1 j => simp [rd_nil, hj]
  | case2 i => simp [rd_nil', hi]
  | case3 i j ih1 ih2 ih3 =>
    rw [ih1 hi (by omega), ih2 (by omega) hj, ih3 (by omega) (by omega)]
    have ha : (a.take (i + 1)).reverse = a[i] :: (a.take i).reverse := by
      rw [List.take_succ_eq_append_getElem (by omega)]; simp
    have hb : (b.take (j + 1)).reverse = b[j] :: (b.take j).reverse := by
      rw [List.take_succ_eq_append_getElem (by omega)]; simp
    rw [ha, hb, rd]
    rw [List.getElem?_eq_getElem (by omega : i < a.length), List.getElem?_eq_getElem (by omega : j < b.length)]
    simp

theorem isDistance_D (ar : Bool) (a b : List α) : IsDistance ar a b (D ar a b a.length b.length) := by
  rw [D_eq_rd ar a b _ _ (Nat.le_refl _) (Nat.le_refl _)]
  simpa using isDistance_rd ar a b

/-! Monotonicity facts about the recurrence used by the marker walk. -/

@[simp] theorem D_zero_left (ar : Bool) (a b : List α) (j) : D ar a b 0 j = j := by simp [D]
@[simp] theorem D_zero_right (ar : Bool) (a b : List α) (i) : D ar a b i 0 = i := by cases i <;> simp [D]

theorem mis_pos (ar : Bool) : 1 ≤ mis ar ∧ mis ar ≤ 2 := by cases ar <;> simp [mis]

theorem D_succ (ar : Bool) (a b : List α) (i j) : D ar a b (i + 1) (j + 1) =
    min (D ar a b (i + 1) j + 1)
      (min (D ar a b i (j + 1) + 1) (D ar a b i j + if a[i]? = b[j]? then 0 else mis ar)) := by
  rw [D]

/-- Neighbouring cells differ by at most one, and the north-west neighbour is never larger. -/
theorem D_adj (ar : Bool) (a b : List α) (i j : Nat) :
    (D ar a b i j ≤ D ar a b (i + 1) j + 1 ∧ D ar a b (i + 1) j ≤ D ar a b i j + 1) ∧
    (D ar a b i j ≤ D ar a b i (j + 1) + 1 ∧ D ar a b i (j + 1) ≤ D ar a b i j + 1) ∧
    D ar a b i j ≤ D ar a b (i + 1) (j + 1) := by
  have key : ∀ n i j, i + j ≤ n →
      (D ar a b i j ≤ D ar a b (i + 1) j + 1 ∧ D ar a b (i + 1) j ≤ D ar a b i j + 1) ∧
      (D ar a b i j ≤ D ar a b i (j + 1) + 1 ∧ D ar a b i (j + 1) ≤ D ar a b i j + 1) ∧
      D ar a b i j ≤ D ar a b (i + 1) (j + 1) := by
    have hm := mis_pos ar
    intro n
    induction n with
    | zero =>
      intro i j h
      have : i = 0 := by omega
      have : j = 0 := by omega
      subst i; subst j
      simp [D_succ]
    | succ n ih =>
      intro i j h
      have hu : D ar a b (i + 1) (j + 1) ≤ D ar a b (i + 1) j + 1 := by rw [D_succ]; omega
      have hl : D ar a b (i + 1) (j + 1) ≤ D ar a b i (j + 1) + 1 := by rw [D_succ]; omega
      -- the two neighbour claims at (i,j)
      have hA : D ar a b i j ≤ D ar a b (i + 1) j + 1 ∧ D ar a b (i + 1) j ≤ D ar a b i j + 1 := by
        cases j with
        | zero => simp; omega
        | succ j =>
          have h1 := ih i j (by omega)
          constructor
          · have h3 := h1.2.1.2
            omega
          · rw [D_succ]; omega
      have hB : D ar a b i j ≤ D ar a b i (j + 1) + 1 ∧ D ar a b i (j + 1) ≤ D ar a b i j + 1 := by
        cases i with
        | zero => simp; omega
        | succ i =>
          have h1 := ih i j (by omega)
          constructor
          · have h3 := h1.1.2
            omega
          · rw [D_succ]; omega
      refine ⟨hA, hB, ?_⟩
      rw [D_succ]
      omega
  exact key (i + j) i j (Nat.le_refl _)

/-- Without replacement the value has the parity of `i + j`. -/
theorem D_parity (a b : List α) (i j : Nat) : D false a b i j % 2 = (i + j) % 2 := by
  fun_induction D false a b i j with
  | case1 j => simp
  | case2 i => simp
  | case3 i j ih1 ih2 ih3 =>
    have : mis false = 2 := rfl
    rw [this]
    split <;> omega

end KompareDiff2
