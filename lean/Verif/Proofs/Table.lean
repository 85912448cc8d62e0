import Verif.Model.Levenshtein
import Verif.Proofs.EditDistance
/-
`createTable` fills the flat table with the recurrence `D`, without leaving the allocated memory.
-/
namespace KompareDiff2
open Spec
set_option linter.unusedSectionVars false
variable {α : Type} [DecidableEq α]

/-- The size bookkeeping of a table object is consistent with its memory. -/
def LTable.Valid (t : LTable) : Prop := t.mem.length = t.size ∧ t.size ≤ 2 ^ 24

/-- The table has dimensions `w × h` and the memory for it. -/
structure LTable.Ready (t : LTable) (w h : Nat) : Prop where
  width : t.width = w
  height : t.height = h
  room : w * h ≤ t.mem.length
  small : w * h < uintMod
  valid : t.Valid

theorem idx_lt {w h x y : Nat} (hx : x < w) (hy : y < h) : y * w + x < w * h := by
  have : y * w + w ≤ h * w := by
    have := Nat.mul_le_mul_right w (Nat.succ_le_of_lt hy)
    rw [Nat.succ_mul] at this; exact this
  rw [Nat.mul_comm w h]; omega

theorem idx_inj {w x y x' y' : Nat} (hx : x < w) (hx' : x' < w) (h : y * w + x = y' * w + x') :
    x = x' ∧ y = y' := by
  have h1 : (y * w + x) % w = x := by rw [Nat.mul_comm, Nat.mul_add_mod]; exact Nat.mod_eq_of_lt hx
  have h2 : (y' * w + x') % w = x' := by rw [Nat.mul_comm, Nat.mul_add_mod]; exact Nat.mod_eq_of_lt hx'
  have hxx : x = x' := by rw [← h1, ← h2, h]
  subst hxx
  refine ⟨rfl, ?_⟩
  have : y * w = y' * w := by omega
  exact Nat.eq_of_mul_eq_mul_right (by omega) this

theorem LTable.Ready.get_isSome {t : LTable} {w h} (r : t.Ready w h) {x y} (hx : x < w) (hy : y < h) :
    ∃ v, t.get x y = Res.ok v := by
  have := idx_lt hx hy
  have hl : (y * w + x) % uintMod < t.mem.length := by
    rw [Nat.mod_eq_of_lt (by have := r.small; omega)]; have := r.room; omega
  refine ⟨t.mem[(y * w + x) % uintMod], ?_⟩
  unfold LTable.get
  rw [r.width, List.getElem?_eq_getElem hl]

theorem LTable.Ready.set {t : LTable} {w h} (r : t.Ready w h) {x y} (v) (hx : x < w) (hy : y < h) :
    ∃ t', t.set x y v = Res.ok t' ∧ t'.Ready w h ∧ t'.get x y = Res.ok v ∧
      ∀ x' y', x' < w → y' < h → (x' ≠ x ∨ y' ≠ y) → t'.get x' y' = t.get x' y' := by
  have hlt := idx_lt hx hy
  have hsm := r.small
  have hrm := r.room
  have hm : (y * t.width + x) % uintMod = y * w + x := by
    rw [r.width]; exact Nat.mod_eq_of_lt (by omega)
  refine ⟨{ t with mem := t.mem.set (y * w + x) v }, ?_, ⟨r.width, r.height, ?_, r.small, ?_⟩, ?_, ?_⟩
  · unfold LTable.set; rw [hm, if_pos (by omega)]
  · simpa using r.room
  · simpa [LTable.Valid] using r.valid
  · unfold LTable.get
    simp only [r.width, Nat.mod_eq_of_lt (show y * w + x < uintMod by omega)]
    rw [List.getElem?_set_self (by omega)]
  · intro x' y' hx' hy' hne
    have hlt' := idx_lt hx' hy'
    unfold LTable.get
    simp only [r.width, Nat.mod_eq_of_lt (show y' * w + x' < uintMod by omega)]
    rw [List.getElem?_set_ne]
    intro heq
    have := idx_inj hx hx' heq
    omega

/-- `setSize` within the limit makes the table ready. -/
theorem LTable.setSize_ok {t : LTable} (hv : t.Valid) {w h : Nat} (hwh : w * h ≤ 2 ^ 24) :
    (t.setSize w h).1 = true ∧ (t.setSize w h).2.Ready w h := by
  have h24 : (2:Nat)^24 < uintMod := by decide
  have hm : (w * h) % uintMod = w * h := Nat.mod_eq_of_lt (by omega)
  unfold LTable.setSize
  simp only [hm]
  rw [if_neg (by have : (2:Nat)^24 = 256*256*256 := by decide
                 omega)]
  refine ⟨rfl, ?_⟩
  obtain ⟨hv1, hv2⟩ := hv
  by_cases hgt : w * h > t.size
  · simp only [hgt, if_true]
    refine ⟨rfl, rfl, ?_, by omega, ?_, ?_⟩ <;> simp <;> omega
  · simp only [hgt, if_false]
    refine ⟨rfl, rfl, by simp; omega, by omega, hv1, hv2⟩

/-- `p` compares elements of `a` and `b`. -/
structure SeqPair.Of (p : SeqPair) (a b : List α) : Prop where
  lenF : p.lengthFirst = a.length + 1
  lenS : p.lengthSecond = b.length + 1
  eq : ∀ i j, i < a.length → j < b.length → p.equal (i + 1) (j + 1) = Res.ok (decide (a[i]? = b[j]?))

theorem stringListPair_of (hash : α → Nat) (h0 : Nat) (a b : List α) :
    (stringListPair hash h0 a b).Of a b := by
  refine ⟨rfl, rfl, ?_⟩
  intro i j hi hj
  simp [stringListPair, hi, hj]
  intro h1 h2; exact h1 (by rw [h2])

theorem differenceStringPair_of (pad : α) (a b : List α) (mf ms) :
    (differenceStringPair pad a b mf ms).Of a b := by
  refine ⟨rfl, rfl, ?_⟩
  intro i j hi hj
  simp [differenceStringPair, hi, hj]

/-- What a filled table looks like. -/
structure LTable.Filled (t : LTable) (ar : Bool) (a b : List α) : Prop where
  ready : t.Ready (a.length + 1) (b.length + 1)
  val : ∀ x y, x ≤ a.length → y ≤ b.length → t.get x y = Res.ok (D ar a b x y)

theorem createTable_filled {t : LTable} (hv : t.Valid) {p : SeqPair} {a b : List α} (hp : p.Of a b)
    (hsz : (a.length + 1) * (b.length + 1) ≤ 2 ^ 24) :
    ∃ t', t.createTable p = Res.ok (D p.allowReplace a b a.length b.length, t') ∧
      t'.Filled p.allowReplace a b := by
  obtain ⟨hs1, hs2⟩ := LTable.setSize_ok hv hsz
  unfold LTable.createTable
  rw [hp.lenF, hp.lenS]
  generalize hq : t.setSize (a.length + 1) (b.length + 1) = q at hs1 hs2
  obtain ⟨q1, t1⟩ := q
  simp only at hs1 hs2
  subst hs1
  simp only
  -- first row
  obtain ⟨t2, h2, hI2⟩ := forRange_inv 0 (a.length + 1) t1 (fun i t => t.set i 0 i)
    (fun i t => t.Ready (a.length + 1) (b.length + 1) ∧ ∀ x, x < i → t.get x 0 = Res.ok x) (by omega)
    ⟨hs2, by omega⟩
    (by
      rintro i s _ hi ⟨hr, hg⟩
      obtain ⟨s', e1, e2, e3, e4⟩ := hr.set i (x := i) (y := 0) hi (by omega)
      refine ⟨s', e1, e2, ?_⟩
      intro x hx
      by_cases hxi : x = i
      · subst hxi; exact e3
      · rw [e4 x 0 (by omega) (by omega) (Or.inl hxi)]; exact hg x (by omega))
  rw [h2]; simp only [Res.bind_ok]
  -- first column
  obtain ⟨t3, h3, hI3⟩ := forRange_inv 0 (b.length + 1) t2 (fun j t => t.set 0 j j)
    (fun j t => t.Ready (a.length + 1) (b.length + 1) ∧ (∀ x, x ≤ a.length → t.get x 0 = Res.ok x) ∧
      ∀ y, y < j → t.get 0 y = Res.ok y) (by omega)
    ⟨hI2.1, fun x hx => hI2.2 x (by omega), by omega⟩
    (by
      rintro j s _ hj ⟨hr, hg, hc⟩
      obtain ⟨s', e1, e2, e3, e4⟩ := hr.set j (x := 0) (y := j) (by omega) hj
      refine ⟨s', e1, e2, ?_, ?_⟩
      · intro x hx
        by_cases hxj : x = 0 ∧ j = 0
        · obtain ⟨h1, h2⟩ := hxj; subst h1 h2; exact e3
        · rw [e4 x 0 (by omega) (by omega) (by omega)]; exact hg x hx
      · intro y hy
        by_cases hyj : y = j
        · subst hyj; exact e3
        · rw [e4 0 y (by omega) (by omega) (Or.inr hyj)]; exact hc y (by omega))
  rw [h3]; simp only [Res.bind_ok]
  -- main loops
  obtain ⟨t4, h4, hI4⟩ := forRange_inv 1 (b.length + 1) t3 (fun j t =>
      forRange 1 (a.length + 1) t (fun i t => LTable.cell p j i t))
    (fun j t => t.Ready (a.length + 1) (b.length + 1) ∧ (∀ y, y ≤ b.length → t.get 0 y = Res.ok y) ∧
      ∀ x y, x ≤ a.length → y < j → t.get x y = Res.ok (D p.allowReplace a b x y)) (by omega)
    ⟨hI3.1, fun y hy => hI3.2.2 y (by omega), by
      intro x y hx hy
      have : y = 0 := by omega
      subst this; simpa using hI3.2.1 x hx⟩
    (by
      rintro j s hj1 hj ⟨hr, hc, hg⟩
      obtain ⟨s', e1, e2, e3, e4, e5⟩ := forRange_inv 1 (a.length + 1) s (fun i t => LTable.cell p j i t)
        (fun i t => t.Ready (a.length + 1) (b.length + 1) ∧ (∀ y, y ≤ b.length → t.get 0 y = Res.ok y) ∧
          (∀ x y, x ≤ a.length → y < j → t.get x y = Res.ok (D p.allowReplace a b x y)) ∧
          ∀ x, x < i → t.get x j = Res.ok (D p.allowReplace a b x j)) (by omega)
        ⟨hr, hc, hg, by
          intro x hx
          have : x = 0 := by omega
          subst this; simpa using hc j (by omega)⟩
        (by
          rintro i s hi1 hi ⟨hr, hc, hg, hrow⟩
          obtain ⟨i, rfl⟩ : ∃ k, i = k + 1 := ⟨i - 1, by omega⟩
          obtain ⟨j, rfl⟩ : ∃ k, j = k + 1 := ⟨j - 1, by omega⟩
          obtain ⟨s', e1, e2, e3, e4⟩ := hr.set (D p.allowReplace a b (i + 1) (j + 1)) (x := i + 1) (y := j + 1)
            (by omega) (by omega)
          refine ⟨s', ?_, e2, ?_, ?_, ?_⟩
          · unfold LTable.cell
            rw [hp.eq i j (by omega) (by omega)]
            simp only [Res.bind_ok, Nat.add_sub_cancel]
            rw [hg (i + 1) j (by omega) (by omega), hrow i (by omega), hg i j (by omega) (by omega)]
            simp only [Res.bind_ok]
            rw [← e1, D_succ]
            simp [mis]
          · intro y hy; rw [e4 0 y (by omega) (by omega) (by omega)]; exact hc y hy
          · intro x y hx hy; rw [e4 x y (by omega) (by omega) (by omega)]; exact hg x y hx hy
          · intro x hx
            by_cases hxi : x = i + 1
            · subst hxi; exact e3
            · rw [e4 x (j + 1) (by omega) (by omega) (by omega)]; exact hrow x (by omega))
      refine ⟨s', e1, e2, e3, ?_⟩
      intro x y hx hy
      by_cases hyj : y = j
      · subst hyj; exact e5 x (by omega)
      · exact e4 x y hx (by omega))
  rw [h4]; simp only [Res.bind_ok, Nat.add_sub_cancel]
  rw [hI4.2.2 a.length b.length (by omega) (by omega)]
  exact ⟨t4, rfl, hI4.1, fun x y hx hy => hI4.2.2 x y hx (by omega)⟩

end KompareDiff2
