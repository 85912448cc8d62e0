import Verif.Proofs.LineMarkers
/-
The walk through the table with replacement (`DifferenceStringPair`): the markers of characters inside a line.
-/
namespace KompareDiff2
open Spec
set_option linter.unusedSectionVars false
variable {α : Type} [DecidableEq α]

theorem markedFrom_congr {m m' : Nat → Bool} {k : Nat} (l : List α) (h : ∀ i, k ≤ i → m i = m' i) :
    markedFrom m k l = markedFrom m' k l := by
  induction l generalizing k with
  | nil => rfl
  | cons x l ih =>
    simp only [markedFrom]
    rw [h k (Nat.le_refl _), ih (fun i hi => h i (by omega))]

/-- Every marker in the list is at `x` or beyond (the walk moves towards 0). -/
def HeadGe (ms : List Marker) (x : Nat) : Prop := ∀ m l, ms = m :: l → x ≤ m.offset

theorem noteMarker_headGe {ms n c x} (h : HeadGe ms (x + 1)) : HeadGe (noteMarker ms n c (x + 1)) x := by
  intro m l hm
  unfold noteMarker at hm
  split at hm
  · split at hm
    · simp at hm; rw [← hm.1]; simp
    · have := h _ _ hm; omega
  · split at hm
    · simp at hm; rw [← hm.1]; simp
    · have := h _ _ hm; omega

theorem changedAt_cons_ge {m : Marker} {ms : List Marker} {i} (h : m.offset ≤ i) : changedAt (m :: ms) i = changedAt ms i := by
  simp [changedAt, show ¬ i < m.offset by omega]

/-- Noting a marker at `x + 1` does not change the reading at positions from `x + 1` on. -/
theorem noteMarker_ge {ms n c x i} (hi : x + 1 ≤ i) : changedAt (noteMarker ms n c (x + 1)) i = changedAt ms i := by
  unfold noteMarker
  split
  · split
    · rw [changedAt_cons_ge hi]
    · rfl
  · split
    · rw [changedAt_cons_ge hi]
    · rfl

/-- Position `x` reads as unchanged after noting an unchanged step … -/
theorem noteMarker_eq {ms v x} (h : HeadGe ms (x + 1)) : changedAt (noteMarker ms v v (x + 1)) x = false := by
  unfold noteMarker
  split
  · simp [changedAt]
  · rename_i hne
    simp only [Nat.lt_irrefl, if_false]
    cases ms with
    | nil => rfl
    | cons m l =>
      obtain ⟨ty, off⟩ := m
      have := h _ _ rfl
      simp only at this
      simp only [changedAt, show x < off by omega, if_true]
      cases ty
      · simp
      · exact absurd rfl (hne off l)

/-- … and as changed after noting a change. -/
theorem noteMarker_lt {ms v v' x} (h : HeadGe ms (x + 1)) (hv : v < v') :
    changedAt (noteMarker ms v v' (x + 1)) x = true := by
  unfold noteMarker
  split
  · rename_i e l
    rw [if_neg (by omega)]
    have := h _ _ rfl
    simp only at this
    simp only [changedAt, show x < e by omega, if_true, decide_true]
  · rw [if_pos hv]
    simp [changedAt]

theorem route_true (a b : List α) (i j : Nat) :
    let cur := D true a b (i + 1) (j + 1)
    let n := D true a b (i + 1) j
    let w := D true a b i (j + 1)
    let nw := D true a b i j
    (chooseRoute true n nw w cur = 1 ∧ a[i]? = b[j]? ∧ nw = cur) ∨
    (chooseRoute true n nw w cur = 1 ∧ nw + 1 = cur) ∨
    (chooseRoute true n nw w cur = 2 ∧ w + 1 = cur) ∨
    (chooseRoute true n nw w cur = 0 ∧ n + 1 = cur) := by
  intro cur n w nw
  have h1 := D_adj true a b i j
  have h2 := D_adj true a b (i + 1) j
  have h3 := D_adj true a b i (j + 1)
  have hs : cur = _ := D_succ true a b i j
  have hm : mis true = 1 := rfl
  rw [hm] at hs
  simp only [show D true a b (i + 1) (j + 1) = cur from rfl, show D true a b (i + 1) j = n from rfl,
    show D true a b i (j + 1) = w from rfl, show D true a b i j = nw from rfl] at *
  unfold chooseRoute
  split
  · rename_i h
    simp at h
    by_cases hc : nw = cur
    · left
      refine ⟨rfl, ?_, hc⟩
      split at hs
      · assumption
      · omega
    · right; left
      refine ⟨rfl, ?_⟩
      split at hs <;> omega
  · rename_i h
    simp at h
    split
    · right; right; left
      refine ⟨rfl, ?_⟩
      split at hs <;> omega
    · right; right; right
      refine ⟨rfl, ?_⟩
      split at hs <;> omega

structure IInv (a b : List α) (s : Walk) : Prop where
  hx : s.x ≤ a.length
  hy : s.y ≤ b.length
  h1 : HeadGe s.mf s.x
  h2 : HeadGe s.ms s.y
  kept : unmarkedFrom (changedAt s.mf) s.x (a.drop s.x) = unmarkedFrom (changedAt s.ms) s.y (b.drop s.y)
  size1 : D true a b s.x s.y + markedFrom (changedAt s.mf) s.x (a.drop s.x) ≤ D true a b a.length b.length
  size2 : D true a b s.x s.y + markedFrom (changedAt s.ms) s.y (b.drop s.y) ≤ D true a b a.length b.length

theorem note_unmarked_eq {ms v} {i : Nat} {l : List α} {x : α} (h : HeadGe ms (i + 1)) :
    unmarkedFrom (changedAt (noteMarker ms v v (i + 1))) i (x :: l) = x :: unmarkedFrom (changedAt ms) (i + 1) l ∧
    markedFrom (changedAt (noteMarker ms v v (i + 1))) i (x :: l) = markedFrom (changedAt ms) (i + 1) l := by
  constructor
  · simp only [unmarkedFrom]
    rw [noteMarker_eq h]
    simp only [Bool.false_eq_true, if_false]
    rw [unmarkedFrom_congr l (fun k hk => noteMarker_ge hk)]
  · simp only [markedFrom]
    rw [noteMarker_eq h, markedFrom_congr l (fun k hk => noteMarker_ge hk)]
    simp

theorem note_unmarked_lt {ms v v'} {i : Nat} {l : List α} {x : α} (h : HeadGe ms (i + 1)) (hv : v < v') :
    unmarkedFrom (changedAt (noteMarker ms v v' (i + 1))) i (x :: l) = unmarkedFrom (changedAt ms) (i + 1) l ∧
    markedFrom (changedAt (noteMarker ms v v' (i + 1))) i (x :: l) = 1 + markedFrom (changedAt ms) (i + 1) l := by
  constructor
  · simp only [unmarkedFrom]
    rw [noteMarker_lt h hv]
    simp only [if_true]
    rw [unmarkedFrom_congr l (fun k hk => noteMarker_ge hk)]
  · simp only [markedFrom]
    rw [noteMarker_lt h hv, markedFrom_congr l (fun k hk => noteMarker_ge hk)]
    simp

theorem headGe_start0 {ms x} (h : HeadGe ms x) : HeadGe (if x = 0 then ⟨.Start, 0⟩ :: ms else ms) x := by
  split
  · intro m l _; omega
  · exact h

theorem changedAt_start0 {ms x i} : changedAt (if x = 0 then (⟨.Start, 0⟩ :: ms : List Marker) else ms) i = changedAt ms i := by
  split
  · rw [changedAt_cons_ge (by simp)]
  · rfl

theorem inlineStep_inv {t : LTable} {a b : List α} (hf : t.Filled true a b) {s : Walk}
    (hI : IInv a b s) (hx : 0 < s.x) (hy : 0 < s.y) :
    ∃ s', walkStep t true s = Res.ok s' ∧ IInv a b s' ∧ s'.x + s'.y < s.x + s.y := by
  obtain ⟨x, y, mf, ms⟩ := s
  obtain ⟨kx, ky, h1, h2, kept, size1, size2⟩ := hI
  simp only at *
  obtain ⟨i, rfl⟩ : ∃ k, x = k + 1 := ⟨x - 1, by omega⟩
  obtain ⟨j, rfl⟩ : ∃ k, y = k + 1 := ⟨y - 1, by omega⟩
  have hda : a.drop i = a[i] :: a.drop (i + 1) := List.drop_eq_getElem_cons (by omega)
  have hdb : b.drop j = b[j] :: b.drop (j + 1) := List.drop_eq_getElem_cons (by omega)
  have hroute := route_true a b i j
  simp only at hroute
  unfold walkStep
  simp only [Nat.add_sub_cancel]
  rw [hf.val (i + 1) (j + 1) kx ky, hf.val (i + 1) j kx (by omega), hf.val i (j + 1) (by omega) ky,
    hf.val i j (by omega) (by omega)]
  simp only [Res.bind_ok]
  rcases hroute with ⟨hr, heq, hv⟩ | ⟨hr, hv⟩ | ⟨hr, hv⟩ | ⟨hr, hv⟩
  · rw [hr]
    simp only [hv]
    rw [List.getElem?_eq_getElem (by omega), List.getElem?_eq_getElem (by omega)] at heq
    simp only [Option.some.injEq] at heq
    refine ⟨_, rfl, ⟨by simp; omega, by simp; omega, noteMarker_headGe h1, noteMarker_headGe h2, ?_, ?_, ?_⟩, by simp; omega⟩
    · simp only
      rw [hda, hdb, (note_unmarked_eq h1).1, (note_unmarked_eq h2).1, heq, kept]
    · simp only
      rw [hda, (note_unmarked_eq h1).2]; omega
    · simp only
      rw [hdb, (note_unmarked_eq h2).2]; omega
  · rw [hr]
    simp only
    refine ⟨_, rfl, ⟨by simp; omega, by simp; omega, noteMarker_headGe h1, noteMarker_headGe h2, ?_, ?_, ?_⟩, by simp; omega⟩
    · simp only
      rw [hda, hdb, (note_unmarked_lt h1 (by omega)).1, (note_unmarked_lt h2 (by omega)).1, kept]
    · simp only
      rw [hda, (note_unmarked_lt h1 (by omega)).2]; omega
    · simp only
      rw [hdb, (note_unmarked_lt h2 (by omega)).2]; omega
  · rw [hr]
    simp only
    refine ⟨_, rfl, ⟨by simp; omega, ky, headGe_start0 (noteMarker_headGe h1), h2, ?_, ?_, ?_⟩, by simp⟩
    · simp only
      rw [unmarkedFrom_congr (a.drop i) (fun k _ => changedAt_start0), hda, (note_unmarked_lt h1 (by omega)).1, kept]
    · simp only
      rw [markedFrom_congr (a.drop i) (fun k _ => changedAt_start0), hda, (note_unmarked_lt h1 (by omega)).2]; omega
    · simp only
      omega
  · rw [hr]
    simp only
    refine ⟨_, rfl, ⟨kx, by simp; omega, h1, headGe_start0 (noteMarker_headGe h2), ?_, ?_, ?_⟩, by simp⟩
    · simp only
      rw [unmarkedFrom_congr (b.drop j) (fun k _ => changedAt_start0), hdb, (note_unmarked_lt h2 (by omega)).1, kept]
    · simp only
      omega
    · simp only
      rw [markedFrom_congr (b.drop j) (fun k _ => changedAt_start0), hdb, (note_unmarked_lt h2 (by omega)).2]; omega

theorem inlineLoop_inv {t : LTable} {a b : List α} (hf : t.Filled true a b) (fuel : Nat) (s : Walk)
    (hI : IInv a b s) (hfuel : s.x + s.y < fuel) :
    ∃ s', walkLoop t true fuel s = Res.ok s' ∧ IInv a b s' ∧ (s'.x = 0 ∨ s'.y = 0) := by
  induction fuel generalizing s with
  | zero => omega
  | succ fuel ih =>
    unfold walkLoop
    split
    · rename_i h
      obtain ⟨s', e, hI', hlt⟩ := inlineStep_inv hf hI h.1 h.2
      rw [e]
      exact ih s' hI' (by omega)
    · exact ⟨s, rfl, hI, by omega⟩

theorem markedFrom_all {m : Nat → Bool} (k : Nat) (l l' : List α) (h : ∀ i, k ≤ i → i < k + l.length → m i = true) :
    markedFrom m k (l ++ l') = l.length + markedFrom m (k + l.length) l' := by
  induction l generalizing k with
  | nil => simp
  | cons x l ih =>
    simp only [List.cons_append, markedFrom]
    rw [h k (Nat.le_refl _) (by simp)]
    simp only [if_true]
    rw [ih (k + 1) (fun i h1 h2 => h i (by omega) (by simp; omega))]
    simp only [List.length_cons]
    rw [show k + 1 + l.length = k + (l.length + 1) by omega]
    omega

/-- Reading of the list after the final "missed change at the beginning" step. -/
theorem inline_finish {x : Nat} (a : List α) (hx : x ≤ a.length) (ms : List Marker) :
    unmarkedFrom (changedAt (if x ≠ 0 then (⟨.Start, 0⟩ :: ⟨.End, x⟩ :: ms : List Marker) else ms)) 0 a =
      unmarkedFrom (changedAt ms) x (a.drop x) ∧
    markedFrom (changedAt (if x ≠ 0 then (⟨.Start, 0⟩ :: ⟨.End, x⟩ :: ms : List Marker) else ms)) 0 a =
      x + markedFrom (changedAt ms) x (a.drop x) := by
  by_cases h0 : x = 0
  · subst h0; simp
  · simp only [ne_eq, h0, not_false_eq_true, if_true]
    have hall : ∀ i, 0 ≤ i → i < 0 + (a.take x).length →
        changedAt (⟨.Start, 0⟩ :: ⟨.End, x⟩ :: ms) i = true := by
      intro i _ hi
      simp at hi
      simp [changedAt]; omega
    have hcong : ∀ i, x ≤ i → changedAt (⟨.Start, 0⟩ :: ⟨.End, x⟩ :: ms) i = changedAt ms i := by
      intro i hi
      rw [changedAt_cons_ge (by simp), changedAt_cons_ge (by simpa using hi)]
    have hl : 0 + (a.take x).length = x := by simp; omega
    constructor
    · conv => lhs; rw [← List.take_append_drop x a]
      rw [unmarkedFrom_all _ _ _ hall, hl]
      exact unmarkedFrom_congr _ hcong
    · conv => lhs; rw [← List.take_append_drop x a]
      rw [markedFrom_all _ _ _ hall, hl]
      rw [markedFrom_congr _ hcong]
      simp; omega

/-- Summary of `createListsOfMarkers` on two strings. -/
theorem inlineMarkers {t : LTable} {a b : List α} {p : SeqPair} (hf : t.Filled true a b)
    (har : p.allowReplace = true) (hm1 : p.markersFirst = []) (hm2 : p.markersSecond = []) :
    ∃ m1 m2, t.createListsOfMarkers p = Res.ok (m1, m2) ∧
      (p.needFine (D true a b a.length b.length) = false →
        m1 = [⟨.Start, 0⟩, ⟨.End, a.length⟩] ∧ m2 = [⟨.Start, 0⟩, ⟨.End, b.length⟩]) ∧
      (p.needFine (D true a b a.length b.length) = true →
        unmarkedFrom (changedAt m1) 0 a = unmarkedFrom (changedAt m2) 0 b ∧
        markedFrom (changedAt m1) 0 a ≤ D true a b a.length b.length ∧
        markedFrom (changedAt m2) 0 b ≤ D true a b a.length b.length) := by
  unfold LTable.createListsOfMarkers
  rw [hf.ready.width, hf.ready.height]
  simp only [Nat.add_sub_cancel]
  rw [hf.val _ _ (Nat.le_refl _) (Nat.le_refl _)]
  simp only [Res.bind_ok, hm1, hm2, har]
  cases hn : p.needFine (D true a b a.length b.length) with
  | false =>
    simp only [if_true]
    exact ⟨_, _, rfl, fun _ => ⟨rfl, rfl⟩, by simp⟩
  | true =>
    rw [if_neg (by simp)]
    obtain ⟨s', e, hI, hz⟩ := inlineLoop_inv hf (a.length + b.length + 1) ⟨a.length, b.length, [], []⟩
      ⟨by simp, by simp, by simp [HeadGe], by simp [HeadGe], by simp [unmarkedFrom], by simp [markedFrom],
        by simp [markedFrom]⟩ (by simp)
    rw [e]
    simp only [Res.bind_ok]
    refine ⟨_, _, rfl, by simp, fun _ => ?_⟩
    obtain ⟨f1, f2⟩ := inline_finish a hI.hx s'.mf
    obtain ⟨g1, g2⟩ := inline_finish b hI.hy s'.ms
    rw [f1, f2, g1, g2]
    have hD : D true a b s'.x s'.y = s'.x + s'.y := by
      rcases hz with h | h <;> rw [h] <;> simp
    have := hI.size1
    have := hI.size2
    exact ⟨hI.kept, by omega, by omega⟩

end KompareDiff2
