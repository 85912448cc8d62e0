/-
Basic vocabulary of the model: strings, results of C++ computations, loops.
-/
namespace KompareDiff2

/-- Model of `QString` (a sequence of characters; a line keeps its trailing `'\n'`).
Simplification: one `Char` per `QChar`, i.e. surrogate pairs are not split. -/
abbrev Str := List Char

/-- String literals as `Str`. -/
def str (x : String) : Str := x.toList

/-- Outcome of a C++ computation.
* `ok a`  – returned normally with `a`;
* `ub`    – left defined behaviour (out-of-range access, end iterator dereferenced, null pointer …);
* `hang`  – the fuel given to a transcribed `while` loop ran out (termination is the theorem
  that this outcome is unreachable). -/
inductive Res (α : Type u) where
  | ok (a : α)
  | ub
  | hang
  deriving Repr, DecidableEq

namespace Res

/-- Sequencing: undefined behaviour and non-termination propagate. -/
@[inline] def bind {α β} : Res α → (α → Res β) → Res β
  | ok a, f => f a
  | ub, _ => ub
  | hang, _ => hang

instance : Monad Res where
  pure := ok
  bind := bind

@[simp] theorem bind_ok {α β} (a : α) (f : α → Res β) : (Res.ok a >>= f) = f a := rfl
@[simp] theorem bind_ub {α β} (f : α → Res β) : ((Res.ub : Res α) >>= f) = Res.ub := rfl
@[simp] theorem bind_hang {α β} (f : α → Res β) : ((Res.hang : Res α) >>= f) = Res.hang := rfl
@[simp] theorem pure_eq {α} (a : α) : (pure a : Res α) = Res.ok a := rfl
@[simp] theorem map_ok {α β} (a : α) (f : α → β) : (f <$> (Res.ok a)) = Res.ok (f a) := rfl
@[simp] theorem map_ub {α β} (f : α → β) : (f <$> (Res.ub : Res α)) = Res.ub := rfl
@[simp] theorem map_hang {α β} (f : α → β) : (f <$> (Res.hang : Res α)) = Res.hang := rfl

theorem bind_eq_ok {α β} {x : Res α} {f : α → Res β} {b : β} :
    (x >>= f) = Res.ok b ↔ ∃ a, x = Res.ok a ∧ f a = Res.ok b := by
  cases x <;> simp

instance : LawfulMonad Res := LawfulMonad.mk'
  (id_map := by intro α x; cases x <;> rfl)
  (pure_bind := by intros; rfl)
  (bind_assoc := by intro α β γ x f g; cases x <;> rfl)
  (bind_pure_comp := by intro α β f x; cases x <;> rfl)
  (map_const := by intros; rfl)

end Res

/-- `QList::at` / `operator[]`: out of range is undefined behaviour. The index is a C++ `int`. -/
def atR {α} (l : List α) (i : Int) : Res α :=
  if i < 0 then Res.ub else
    match l[i.toNat]? with
    | some a => Res.ok a
    | none => Res.ub

/-- `n` iterations of a loop body, the loop variable starting at `lo`:
`for (i = lo; i < lo + n; ++i) s = f(i, s);` -/
def forN {σ} (f : Nat → σ → Res σ) : (n lo : Nat) → σ → Res σ
  | 0, _, s => Res.ok s
  | n + 1, lo, s => f lo s >>= forN f n (lo + 1)

/-- `for (i = lo; i < hi; ++i) s = f(i, s);` -/
def forRange {σ} (lo hi : Nat) (s : σ) (f : Nat → σ → Res σ) : Res σ :=
  forN f (hi - lo) lo s

/-- Loop rule: an invariant that holds at the start and is preserved by the body holds at the end,
and if the body is always defined then so is the loop. -/
theorem forN_inv {σ} (f : Nat → σ → Res σ) (I : Nat → σ → Prop) (n lo : Nat) (s : σ)
    (h0 : I lo s)
    (hstep : ∀ i s, lo ≤ i → i < lo + n → I i s → ∃ s', f i s = Res.ok s' ∧ I (i + 1) s') :
    ∃ s', forN f n lo s = Res.ok s' ∧ I (lo + n) s' := by
  induction n generalizing lo s with
  | zero => exact ⟨s, rfl, by simpa using h0⟩
  | succ n ih =>
    obtain ⟨s1, h1, hI⟩ := hstep lo s (Nat.le_refl _) (by omega) h0
    obtain ⟨s2, h2, hI2⟩ := ih (lo + 1) s1 hI (fun i s a b c => hstep i s (by omega) (by omega) c)
    refine ⟨s2, ?_, ?_⟩
    · simp [forN, h1, h2]
    · have : lo + (n + 1) = lo + 1 + n := by omega
      rw [this]; exact hI2

theorem forRange_inv {σ} (lo hi : Nat) (s : σ) (f : Nat → σ → Res σ) (I : Nat → σ → Prop)
    (hle : lo ≤ hi) (h0 : I lo s)
    (hstep : ∀ i s, lo ≤ i → i < hi → I i s → ∃ s', f i s = Res.ok s' ∧ I (i + 1) s') :
    ∃ s', forRange lo hi s f = Res.ok s' ∧ I hi s' := by
  obtain ⟨s', h, hI⟩ := forN_inv f I (hi - lo) lo s h0
    (fun i s a b c => hstep i s a (by omega) c)
  refine ⟨s', h, ?_⟩
  have : lo + (hi - lo) = hi := by omega
  rwa [this] at hI

/-- A loop reaches undefined behaviour when its body does so at some iteration reached with the invariant. -/
theorem forN_ub {σ} (f : Nat → σ → Res σ) (I : Nat → σ → Prop) (n lo k : Nat) (s : σ)
    (h0 : I lo s) (hk : lo ≤ k ∧ k < lo + n)
    (hstep : ∀ i s, lo ≤ i → i < k → I i s → f i s = Res.ub ∨ ∃ s', f i s = Res.ok s' ∧ I (i + 1) s')
    (hub : ∀ s, I k s → f k s = Res.ub) :
    forN f n lo s = Res.ub := by
  induction n generalizing lo s with
  | zero => omega
  | succ n ih =>
    by_cases hkl : k = lo
    · subst hkl; simp [forN, hub s h0]
    · rcases hstep lo s (Nat.le_refl _) (by omega) h0 with h | ⟨s1, h1, hI⟩
      · simp [forN, h]
      · simp only [forN, h1, Res.bind_ok]
        exact ih (lo + 1) s1 hI (by omega) (fun i s a b c => hstep i s (by omega) (by omega) c)

end KompareDiff2

namespace KompareDiff2

/-- Decimal digit character. -/
def digitChar (d : Nat) : Char := Char.ofNat ('0'.toNat + d)

/-- Decimal rendering of a natural number, as produced by `QString::arg(int)`. -/
def decNat (n : Nat) : Str :=
  if n < 10 then [digitChar n] else decNat (n / 10) ++ [digitChar (n % 10)]

/-- Decimal rendering of an `int`. -/
def decInt (n : Int) : Str := if n < 0 then '-' :: decNat n.natAbs else decNat n.natAbs

end KompareDiff2
