import Verif.Proofs.Table
/-
Memory safety of `createTable`, including the products that wrap around 2^32.
-/
namespace KompareDiff2

theorem LTable.set_cases (t : LTable) (x y v : Nat) :
    t.set x y v = Res.ub ∨ ∃ t', t.set x y v = Res.ok t' ∧ t'.width = t.width ∧ t'.height = t.height ∧
      t'.size = t.size ∧ t'.mem.length = t.mem.length := by
  unfold LTable.set
  split
  · right; exact ⟨_, rfl, rfl, rfl, rfl, by simp⟩
  · left; rfl

/-- Same shape: dimensions, recorded size and memory length. -/
def LTable.Same (t t' : LTable) : Prop :=
  t'.width = t.width ∧ t'.height = t.height ∧ t'.size = t.size ∧ t'.mem.length = t.mem.length

theorem LTable.Same.refl (t : LTable) : t.Same t := ⟨rfl, rfl, rfl, rfl⟩
theorem LTable.Same.trans {a b c : LTable} (h : a.Same b) (h' : b.Same c) : a.Same c := by
  obtain ⟨h1, h2, h3, h4⟩ := h
  obtain ⟨k1, k2, k3, k4⟩ := h'
  exact ⟨k1.trans h1, k2.trans h2, k3.trans h3, k4.trans h4⟩

theorem LTable.set_same {t t' : LTable} {x y v} (h : t.set x y v = Res.ok t') : t.Same t' := by
  rcases t.set_cases x y v with h' | ⟨t'', h', h1, h2, h3, h4⟩
  · rw [h'] at h; cases h
  · rw [h'] at h; cases h; exact ⟨h1, h2, h3, h4⟩

theorem forN_same {f : Nat → LTable → Res LTable} (hf : ∀ i t t', f i t = Res.ok t' → t.Same t')
    (n lo : Nat) (t t' : LTable) (h : forN f n lo t = Res.ok t') : t.Same t' := by
  induction n generalizing lo t with
  | zero => simp [forN] at h; subst h; exact .refl _
  | succ n ih =>
    simp only [forN] at h
    rw [Res.bind_eq_ok] at h
    obtain ⟨t1, h1, h2⟩ := h
    exact (hf _ _ _ h1).trans (ih _ _ h2)

theorem LTable.cell_same {p : SeqPair} {j i : Nat} {t t' : LTable} (h : LTable.cell p j i t = Res.ok t') : t.Same t' := by
  unfold LTable.cell at h
  simp only [Res.bind_eq_ok] at h
  obtain ⟨_, _, _, _, _, _, _, _, h⟩ := h
  exact LTable.set_same h

theorem LTable.setSize_valid {t : LTable} (hv : t.Valid) (w h : Nat) : (t.setSize w h).2.Valid := by
  obtain ⟨h1, h2⟩ := hv
  have h24 : (2:Nat)^24 = 256*256*256 := by decide
  unfold LTable.setSize
  split
  · exact ⟨h1, h2⟩
  · split
    · constructor <;> simp <;> omega
    · exact ⟨h1, h2⟩

theorem LTable.createTable_valid {t : LTable} (hv : t.Valid) {p r t'} (h : t.createTable p = Res.ok (r, t')) : t'.Valid := by
  have hs := t.setSize_valid hv p.lengthFirst p.lengthSecond
  unfold LTable.createTable at h
  split at h
  · rename_i t1 he
    rw [he] at hs
    simp at h; rw [← h.2]; exact hs
  · rename_i t1 he
    rw [he] at hs
    simp only [Res.bind_eq_ok] at h
    obtain ⟨t2, e2, t3, e3, t4, e4, r', _, h5⟩ := h
    simp at h5
    rw [← h5.2]
    have s2 := forN_same (fun i t t' => LTable.set_same) _ _ _ _ e2
    have s3 := forN_same (fun i t t' => LTable.set_same) _ _ _ _ e3
    have s4 := forN_same (fun i t t' h => forN_same (fun i t t' => LTable.cell_same) _ _ _ _ h) _ _ _ _ e4
    obtain ⟨_, _, k1, k2⟩ := (s2.trans s3).trans s4
    exact ⟨by rw [k1, k2]; exact hs.1, by rw [k1]; exact hs.2⟩

/-- A product that wraps around to a small value makes `createTable` write outside of its memory. -/
theorem LTable.createTable_wrap {t : LTable} (hv : t.Valid) {p : SeqPair}
    (hbig : 2 ^ 32 ≤ p.lengthFirst * p.lengthSecond)
    (hsmall : (p.lengthFirst * p.lengthSecond) % 2 ^ 32 ≤ 2 ^ 24) :
    t.createTable p = Res.ub := by
  have hu : uintMod = 2 ^ 32 := rfl
  have h24 : (2:Nat)^24 = 256*256*256 := by decide
  have hs := t.setSize_valid hv p.lengthFirst p.lengthSecond
  have h1 : (t.setSize p.lengthFirst p.lengthSecond).1 = true ∧
      (t.setSize p.lengthFirst p.lengthSecond).2.width = p.lengthFirst := by
    unfold LTable.setSize
    rw [if_neg (by rw [hu]; omega)]
    exact ⟨rfl, rfl⟩
  unfold LTable.createTable
  generalize t.setSize p.lengthFirst p.lengthSecond = q at hs h1
  obtain ⟨q1, t1⟩ := q
  simp only at hs h1
  obtain ⟨rfl, hw⟩ := h1
  simp only
  obtain ⟨hv1, hv2⟩ := hs
  generalize p.lengthFirst = m at *
  generalize p.lengthSecond = n at *
  by_cases hml : t1.mem.length < m
  · have : forRange 0 m t1 (fun i t => t.set i 0 i) = Res.ub := by
      unfold forRange
      refine forN_ub _ (fun i t => t.width = m ∧ t.mem.length = t1.mem.length) _ _ t1.mem.length t1 ⟨hw, rfl⟩ (by omega) ?_ ?_
      · rintro i s _ _ ⟨e1, e2⟩
        rcases s.set_cases i 0 i with h | ⟨s', h, k1, _, _, k2⟩
        · exact Or.inl h
        · exact Or.inr ⟨s', h, by rw [k1, e1], by rw [k2, e2]⟩
      · rintro s ⟨e1, e2⟩
        unfold LTable.set
        rw [if_neg]
        rw [e2, Nat.zero_mul, Nat.zero_add, Nat.mod_eq_of_lt (by rw [hu]; omega)]
        omega
    rw [this]; rfl
  · have hrow : forRange 0 m t1 (fun i t => t.set i 0 i) = Res.ub ∨
        ∃ t2, forRange 0 m t1 (fun i t => t.set i 0 i) = Res.ok t2 ∧ t1.Same t2 := by
      cases hr : forRange 0 m t1 (fun i t => t.set i 0 i) with
      | ok t2 => exact Or.inr ⟨t2, rfl, forN_same (fun i t t' => LTable.set_same) _ _ _ _ hr⟩
      | ub => exact Or.inl rfl
      | hang =>
        exfalso
        have : ∀ n lo (s : LTable), forN (fun i t => t.set i 0 i) n lo s ≠ Res.hang := by
          intro n
          induction n with
          | zero => intro lo s; simp [forN]
          | succ n ih =>
            intro lo s
            simp only [forN]
            rcases s.set_cases lo 0 lo with h | ⟨s', h, _⟩
            · rw [h]; simp
            · rw [h]; exact ih _ _
        exact this _ _ _ hr
    rcases hrow with h | ⟨t2, h, hsame⟩
    · rw [h]; rfl
    · rw [h]
      simp only [Res.bind_ok]
      have hm0 : 0 < m := by
        rcases Nat.eq_zero_or_pos m with h0 | h0
        · subst h0; simp at hbig
        · exact h0
      obtain ⟨w2, _, _, l2⟩ := hsame
      -- first index past the memory in the first column
      have : ∃ j, j < n ∧ t1.mem.length ≤ j * m ∧ j * m < 2 ^ 32 := by
        refine ⟨(t1.mem.length + m - 1) / m, ?_, ?_, ?_⟩
        · rw [Nat.div_lt_iff_lt_mul hm0, Nat.mul_comm]; omega
        · have h1 := Nat.div_add_mod (t1.mem.length + m - 1) m
          have h2 := Nat.mod_lt (t1.mem.length + m - 1) hm0
          rw [Nat.mul_comm] at h1; omega
        · have h1 := Nat.div_mul_le_self (t1.mem.length + m - 1) m
          omega
      obtain ⟨j0, hj1, hj2, hj3⟩ := this
      have : forRange 0 n t2 (fun j t => t.set 0 j j) = Res.ub := by
        unfold forRange
        refine forN_ub _ (fun i t => t.width = m ∧ t.mem.length = t1.mem.length) _ _ j0 t2
          ⟨by rw [w2, hw], l2⟩ (by omega) ?_ ?_
        · rintro i s _ _ ⟨e1, e2⟩
          rcases s.set_cases 0 i i with h | ⟨s', h, k1, _, _, k2⟩
          · exact Or.inl h
          · exact Or.inr ⟨s', h, by rw [k1, e1], by rw [k2, e2]⟩
        · rintro s ⟨e1, e2⟩
          unfold LTable.set
          rw [if_neg]
          rw [e2, e1, Nat.add_zero, Nat.mod_eq_of_lt (by rw [hu]; omega)]
          omega
      rw [this]; rfl

end KompareDiff2
