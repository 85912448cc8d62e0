import Verif.Proofs.Table
import Verif.Spec.Markers
/-
The walk through the table without replacement (`StringListPair`).
-/
namespace KompareDiff2
open Spec
set_option linter.unusedSectionVars false
variable {α : Type} [DecidableEq α]

/-! ### list facts about ranges -/

theorem unmarkedFrom_congr {m m' : Nat → Bool} {k : Nat} (l : List α) (h : ∀ i, k ≤ i → m i = m' i) :
    unmarkedFrom m k l = unmarkedFrom m' k l := by
  induction l generalizing k with
  | nil => rfl
  | cons x l ih =>
    simp only [unmarkedFrom]
    rw [h k (Nat.le_refl _), ih (fun i hi => h i (by omega))]

theorem rangesFrom_mono {len lo lo' : Nat} (r) (h : RangesFrom len lo r) (hl : lo' ≤ lo) : RangesFrom len lo' r := by
  cases r with
  | nil => trivial
  | cons p r => obtain ⟨s, e⟩ := p; simp only [RangesFrom] at *; exact ⟨by omega, h.2⟩

theorem covered_below {len lo i : Nat} (r) (h : RangesFrom len lo r) (hi : i < lo) : covered r i = false := by
  induction r generalizing lo with
  | nil => rfl
  | cons p r ih =>
    obtain ⟨s, e⟩ := p
    simp only [RangesFrom] at h
    have := ih h.2.2.2 (by omega)
    simp only [covered, List.any_cons] at *
    simp [this]; omega

/-- A marker list under construction: `o = some e` means an `End e` whose `Start` is still to come. -/
structure Half (len x : Nat) (ms : List Marker) (o : Option Nat) (r : List (Nat × Nat)) : Prop where
  list : ms = (match o with | none => [] | some e => [⟨.End, e⟩]) ++ markersOf r
  rng : match o with
    | none => RangesFrom len (x + 1) r
    | some e => 0 < x ∧ x < e ∧ e ≤ len ∧ RangesFrom len (e + 1) r

/-- Ranges denoted by a marker list under construction when the walk stands at `x`. -/
def eff (x : Nat) (o : Option Nat) (r : List (Nat × Nat)) : List (Nat × Nat) :=
  match o with
  | none => r
  | some e => (x, e) :: r

theorem Half.not_covered {len x ms o r} (h : Half len (x + 1) ms o r) : covered (eff (x + 1) o r) x = false := by
  cases o with
  | none => exact covered_below r h.rng (by omega)
  | some e =>
    have := h.rng
    have h2 : covered r x = false := covered_below r this.2.2.2 (by omega)
    simp only [eff, covered, List.any_cons] at *
    simp [h2]; omega

theorem markersOf_head {r : List (Nat × Nat)} : ∀ e l, markersOf r ≠ ⟨.End, e⟩ :: l := by
  intro e l h
  cases r with
  | nil => simp [markersOf] at h
  | cons p r => simp [markersOf] at h

/-- Keeping an element (north-west step with equal values). -/
theorem Half.keep {len x ms o r v} (h : Half len (x + 1) ms o r) :
    Half len x (noteMarker ms v v (x + 1)) none (eff (x + 1) o r) := by
  obtain ⟨hl, hr⟩ := h
  cases o with
  | none =>
    refine ⟨?_, ?_⟩
    · simp only [List.nil_append] at hl
      subst hl
      simp only [noteMarker, eff]
      split
      · rename_i h; exact absurd h (markersOf_head _ _)
      · simp
    · exact rangesFrom_mono r hr (by omega)
  | some e =>
    refine ⟨?_, ?_⟩
    · subst hl
      simp [noteMarker, eff, markersOf]
    · simp only [eff, RangesFrom] at *
      exact ⟨by omega, by omega, by omega, hr.2.2.2⟩

/-- Marking an element (west/north step). -/
theorem Half.mark {len x ms o r v v'} (h : Half len (x + 1) ms o r) (hv : v < v') (hx : 0 < x) (hlen : x + 1 ≤ len) :
    ∃ e, Half len x (noteMarker ms v v' (x + 1)) (some e) r ∧
      (e = o.getD (x + 1)) := by
  obtain ⟨hl, hr⟩ := h
  cases o with
  | none =>
    refine ⟨x + 1, ⟨?_, ?_⟩, rfl⟩
    · simp only [List.nil_append] at hl
      subst hl
      simp only [noteMarker]
      split
      · rename_i h; exact absurd h (markersOf_head _ _)
      · simp [hv]
    · exact ⟨hx, by omega, by omega, hr⟩
  | some e =>
    refine ⟨e, ⟨?_, ?_⟩, rfl⟩
    · subst hl
      have : v ≠ v' := by omega
      simp [noteMarker, this]
    · simp only at hr ⊢; exact ⟨hx, by omega, by omega, hr.2.2.2⟩

/-- Marking the last remaining element closes the range at 0. -/
theorem Half.markLast {len ms o r v v'} (h : Half len 1 ms o r) (hv : v < v') (hlen : 1 ≤ len) :
    ∃ R, (⟨.Start, 0⟩ :: noteMarker ms v v' 1) = markersOf R ∧ RangesFrom len 0 R ∧
      ∃ e, R = (0, e) :: r ∧ (e = o.getD 1) := by
  obtain ⟨hl, hr⟩ := h
  cases o with
  | none =>
    refine ⟨(0, 1) :: r, ?_, ⟨by omega, by omega, hlen, hr⟩, 1, rfl, rfl⟩
    simp only [List.nil_append] at hl
    subst hl
    simp only [noteMarker]
    split
    · rename_i h; exact absurd h (markersOf_head _ _)
    · simp [hv, markersOf]
  | some e =>
    simp only at hr
    refine ⟨(0, e) :: r, ?_, ⟨by omega, by omega, by omega, hr.2.2.2⟩, e, rfl, rfl⟩
    subst hl
    have : v ≠ v' := by omega
    simp [noteMarker, this, markersOf]

theorem eff_mark_cover {x e : Nat} {o : Option Nat} {r} (he : e = o.getD (x + 1))
    (ho : ∀ e, o = some e → x + 1 < e) : ∀ i, x + 1 ≤ i → covered (eff x (some e) r) i = covered (eff (x + 1) o r) i := by
  intro i hi
  cases o with
  | none => subst he; simp [eff, covered]; omega
  | some e' =>
    simp only [Option.getD_some] at he; subst he
    have := ho _ rfl
    have e1 : decide (x ≤ i) = true := by simp; omega
    have e2 : decide (x + 1 ≤ i) = true := by simp; omega
    simp only [eff, covered, List.any_cons, e1, e2]

theorem Half.open_lt {len x ms e r} (h : Half len x ms (some e) r) : x < e := h.rng.2.1

theorem eff_mark_here {len x e : Nat} {o : Option Nat} {r ms} (he : e = o.getD (x + 1))
    (h : Half len (x + 1) ms o r) : covered (eff x (some e) r) x = true := by
  cases o with
  | none => subst he; simp [eff, covered]
  | some e' =>
    simp only [Option.getD_some] at he; subst he
    have := h.open_lt
    simp [eff, covered]; omega

theorem eff_mark_size {len x e : Nat} {o : Option Nat} {r ms} (he : e = o.getD (x + 1))
    (h : Half len (x + 1) ms o r) : rangesSize (eff x (some e) r) = rangesSize (eff (x + 1) o r) + 1 := by
  cases o with
  | none => subst he; simp [eff, rangesSize]; omega
  | some e' =>
    simp only [Option.getD_some] at he; subst he
    have := h.open_lt
    simp [eff, rangesSize]; omega

/-! ### the route -/

theorem route_false (a b : List α) (i j : Nat) :
    let cur := D false a b (i + 1) (j + 1)
    let n := D false a b (i + 1) j
    let w := D false a b i (j + 1)
    let nw := D false a b i j
    (chooseRoute false n nw w cur = 1 ∧ a[i]? = b[j]? ∧ nw = cur) ∨
    (chooseRoute false n nw w cur = 2 ∧ w + 1 = cur ∧ nw = w + 1 ∧ 0 < i) ∨
    (chooseRoute false n nw w cur = 0 ∧ n + 1 = cur) := by
  intro cur n w nw
  have h1 := D_adj false a b i j
  have h2 := D_adj false a b (i + 1) j
  have h3 := D_adj false a b i (j + 1)
  have p1 := D_parity a b i j
  have p2 := D_parity a b (i + 1) j
  have p3 := D_parity a b i (j + 1)
  have p4 := D_parity a b (i + 1) (j + 1)
  have hs : cur = _ := D_succ false a b i j
  have hm : mis false = 2 := rfl
  rw [hm] at hs
  have hi : i = 0 → w = nw + 1 := by intro h; subst h; simp [w, nw]
  simp only [show D false a b (i + 1) (j + 1) = cur from rfl, show D false a b (i + 1) j = n from rfl,
    show D false a b i (j + 1) = w from rfl, show D false a b i j = nw from rfl] at *
  unfold chooseRoute
  split
  · rename_i h
    simp at h
    left
    refine ⟨rfl, ?_, by omega⟩
    split at hs
    · assumption
    · omega
  · rename_i h
    simp at h
    split
    · rename_i h'
      right; left
      refine ⟨rfl, ?_, ?_, ?_⟩ <;> split at hs <;> omega
    · right; right
      refine ⟨rfl, ?_⟩
      split at hs <;> omega

/-- Invariant of the walk. -/
structure WInv (a b : List α) (s : Walk) (o1 o2 : Option Nat) (r1 r2 : List (Nat × Nat)) : Prop where
  hx : s.x ≤ a.length
  hy : s.y ≤ b.length
  h1 : Half a.length s.x s.mf o1 r1
  h2 : Half b.length s.y s.ms o2 r2 ∨
    (s.y = 0 ∧ o2 = none ∧ s.ms = markersOf r2 ∧ RangesFrom b.length 0 r2)
  kept : unmarkedFrom (covered (eff s.x o1 r1)) s.x (a.drop s.x) =
    unmarkedFrom (covered (eff s.y o2 r2)) s.y (b.drop s.y)
  size : D false a b s.x s.y + rangesSize (eff s.x o1 r1) + rangesSize (eff s.y o2 r2)
    = D false a b a.length b.length
  open1 : ∀ e, o1 = some e → 0 < s.y ∧ D false a b s.x (s.y - 1) = D false a b s.x s.y + 1
  open2 : ∀ e, o2 = some e → 0 < s.x

theorem walkStep_inv {t : LTable} {a b : List α} (hf : t.Filled false a b) {s : Walk} {o1 o2 r1 r2}
    (hI : WInv a b s o1 o2 r1 r2) (hx : 0 < s.x) (hy : 0 < s.y) :
    ∃ s' o1' o2' r1' r2', walkStep t false s = Res.ok s' ∧ WInv a b s' o1' o2' r1' r2' ∧
      s'.x + s'.y < s.x + s.y := by
  obtain ⟨x, y, mf, ms⟩ := s
  obtain ⟨kx, ky, h1, h2, kept, size, op1, op2⟩ := hI
  simp only at *
  obtain ⟨i, rfl⟩ : ∃ k, x = k + 1 := ⟨x - 1, by omega⟩
  obtain ⟨j, rfl⟩ : ∃ k, y = k + 1 := ⟨y - 1, by omega⟩
  have h2 : Half b.length (j + 1) ms o2 r2 := by
    rcases h2 with h2 | h2
    · exact h2
    · omega
  have hda : a.drop i = a[i] :: a.drop (i + 1) := List.drop_eq_getElem_cons (by omega)
  have hdb : b.drop j = b[j] :: b.drop (j + 1) := List.drop_eq_getElem_cons (by omega)
  have hroute := route_false a b i j
  simp only at hroute
  unfold walkStep
  simp only [Nat.add_sub_cancel]
  rw [hf.val (i + 1) (j + 1) kx ky, hf.val (i + 1) j kx (by omega), hf.val i (j + 1) (by omega) ky,
    hf.val i j (by omega) (by omega)]
  simp only [Res.bind_ok]
  rcases hroute with ⟨hr, heq, hv⟩ | ⟨hr, hv, hnw, hi0⟩ | ⟨hr, hv⟩
  · -- north-west
    rw [hr]
    simp only [hv]
    refine ⟨_, none, none, eff (i + 1) o1 r1, eff (j + 1) o2 r2, rfl, ⟨by simp; omega, by simp; omega,
      h1.keep, Or.inl h2.keep, ?_, ?_, by simp, by simp⟩, by simp; omega⟩
    · simp only [eff] at *
      rw [hda, hdb]
      simp only [unmarkedFrom]
      have e1 := h1.not_covered
      have e2 := h2.not_covered
      simp only [eff] at e1 e2
      rw [e1, e2]
      simp only [Bool.false_eq_true, if_false]
      rw [List.getElem?_eq_getElem (by omega), List.getElem?_eq_getElem (by omega)] at heq
      simp at heq
      rw [heq, kept]
    · simp only [eff] at *; omega
  · -- west
    rw [hr]
    simp only
    rw [if_neg (by omega)]
    obtain ⟨e, hh, he⟩ := h1.mark (v := D false a b i (j + 1)) (v' := D false a b (i + 1) (j + 1)) (by omega) hi0 kx
    refine ⟨_, some e, o2, r1, r2, rfl, ⟨by simp; omega, ky, hh, Or.inl h2, ?_, ?_, ?_, ?_⟩, by simp⟩
    · rw [hda]
      simp only [unmarkedFrom]
      rw [eff_mark_here he h1]
      simp only [if_true]
      rw [← kept]
      apply unmarkedFrom_congr
      apply eff_mark_cover he
      rintro e' rfl
      exact h1.open_lt
    · simp only
      rw [eff_mark_size he h1]; omega
    · rintro e' -
      simp only
      exact ⟨by omega, by simp; omega⟩
    · intro e' _; exact hi0
  · -- north
    rw [hr]
    simp only
    -- first list cannot be open
    have ho1 : o1 = none := by
      cases o1 with
      | none => rfl
      | some e =>
        have := (op1 e rfl).2
        simp at this
        omega
    subst ho1
    by_cases hj : j = 0
    · subst hj
      rw [if_pos rfl]
      obtain ⟨R, hR, hRng, e, hRe, he⟩ := h2.markLast (v := D false a b (i + 1) 0) (v' := D false a b (i + 1) (0 + 1)) (by omega) (by omega)
      refine ⟨_, none, none, r1, R, rfl, ⟨kx, by simp, h1, Or.inr ⟨rfl, rfl, by simpa using hR, hRng⟩, ?_, ?_, by simp, by simp⟩, by simp⟩
      · rw [kept]
        simp only
        rw [hdb]
        have : eff 0 none R = eff 0 (some e) r2 := by simp [eff, hRe]
        rw [this]
        simp only [unmarkedFrom]
        rw [eff_mark_here he h2]
        simp only [if_true]
        symm
        apply unmarkedFrom_congr
        apply eff_mark_cover he
        rintro e' rfl
        exact h2.open_lt
      · simp only
        have : eff 0 none R = eff 0 (some e) r2 := by simp [eff, hRe]
        rw [this, eff_mark_size he h2]
        omega
    · rw [if_neg hj]
      obtain ⟨e, hh, he⟩ := h2.mark (v := D false a b (i + 1) j) (v' := D false a b (i + 1) (j + 1)) (by omega) (by omega) ky
      refine ⟨_, none, some e, r1, r2, rfl, ⟨kx, by simp; omega, h1, Or.inl hh, ?_, ?_, by simp, ?_⟩, by simp⟩
      · rw [kept]
        simp only
        rw [hdb]
        simp only [unmarkedFrom]
        rw [eff_mark_here he h2]
        simp only [if_true]
        symm
        apply unmarkedFrom_congr
        apply eff_mark_cover he
        rintro e' rfl
        exact h2.open_lt
      · simp only
        rw [eff_mark_size he h2]; omega
      · intro _ _; simp

theorem walkLoop_inv {t : LTable} {a b : List α} (hf : t.Filled false a b) (fuel : Nat) (s : Walk) {o1 o2 r1 r2}
    (hI : WInv a b s o1 o2 r1 r2) (hfuel : s.x + s.y < fuel) :
    ∃ s' o1' o2' r1' r2', walkLoop t false fuel s = Res.ok s' ∧ WInv a b s' o1' o2' r1' r2' ∧
      (s'.x = 0 ∨ s'.y = 0) := by
  induction fuel generalizing s o1 o2 r1 r2 with
  | zero => omega
  | succ fuel ih =>
    unfold walkLoop
    split
    · rename_i h
      obtain ⟨s', o1', o2', r1', r2', e, hI', hlt⟩ := walkStep_inv hf hI h.1 h.2
      rw [e]
      exact ih s' hI' (by omega)
    · rename_i h
      exact ⟨s, o1, o2, r1, r2, rfl, hI, by omega⟩

/-- Closing a finished list at the beginning. -/
theorem Half.finish {len x : Nat} {ms r} (h : Half len x ms none r) (hx : x ≤ len) :
    ∃ R, (if x ≠ 0 then (⟨.Start, 0⟩ :: ⟨.End, x⟩ :: ms : List Marker) else ms) = markersOf R ∧ RangesFrom len 0 R ∧
      R = (if x ≠ 0 then (0, x) :: r else r) := by
  obtain ⟨hl, hr⟩ := h
  simp only [List.nil_append] at hl
  refine ⟨if x ≠ 0 then (0, x) :: r else r, ?_, ?_, rfl⟩
  · split <;> simp [hl, markersOf]
  · split
    · exact ⟨by omega, by omega, hx, hr⟩
    · exact rangesFrom_mono r hr (by omega)

theorem unmarkedFrom_all {m : Nat → Bool} (k : Nat) (l l' : List α) (h : ∀ i, k ≤ i → i < k + l.length → m i = true) :
    unmarkedFrom m k (l ++ l') = unmarkedFrom m (k + l.length) l' := by
  induction l generalizing k with
  | nil => simp
  | cons x l ih =>
    simp only [List.cons_append, unmarkedFrom]
    rw [h k (Nat.le_refl _) (by simp)]
    simp only [if_true]
    rw [ih (k + 1) (fun i h1 h2 => h i (by omega) (by simp; omega))]
    simp only [List.length_cons]
    congr 1
    omega

/-- Outside of the completed range list = unmarked part of the suffix. -/
theorem outside_finish {x : Nat} (a : List α) (hx : x ≤ a.length) (r : List (Nat × Nat)) :
    outside (if x ≠ 0 then (0, x) :: r else r) a = unmarkedFrom (covered r) x (a.drop x) := by
  split
  · unfold outside
    conv => lhs; rw [← List.take_append_drop x a]
    rw [unmarkedFrom_all]
    · simp only [List.length_take, Nat.min_eq_left hx, Nat.zero_add]
      apply unmarkedFrom_congr
      intro i hi
      simp [covered]; omega
    · intro i _ hi
      simp [covered] at *; left; omega
  · rename_i h
    simp at h; subst h; rfl

/-- Summary of `createListsOfMarkers` on line lists. -/
theorem lineMarkers {t : LTable} {a b : List α} {p : SeqPair} (hf : t.Filled false a b)
    (har : p.allowReplace = false) (hn : ∀ d, p.needFine d = true)
    (hm1 : p.markersFirst = []) (hm2 : p.markersSecond = []) :
    ∃ R1 R2, t.createListsOfMarkers p = Res.ok (markersOf R1, markersOf R2) ∧
      RangesFrom a.length 0 R1 ∧ RangesFrom b.length 0 R2 ∧
      outside R1 a = outside R2 b ∧
      rangesSize R1 + rangesSize R2 = D false a b a.length b.length := by
  unfold LTable.createListsOfMarkers
  rw [hf.ready.width, hf.ready.height]
  simp only [Nat.add_sub_cancel]
  rw [hf.val _ _ (Nat.le_refl _) (Nat.le_refl _)]
  simp only [Res.bind_ok, hn, hm1, hm2, har]
  rw [if_neg (by simp)]
  obtain ⟨s', o1, o2, r1, r2, e, hI, hz⟩ := walkLoop_inv hf (a.length + b.length + 1) ⟨a.length, b.length, [], []⟩
    (o1 := none) (o2 := none) (r1 := []) (r2 := [])
    ⟨by simp, by simp, ⟨by simp [markersOf], by simp [RangesFrom]⟩, Or.inl ⟨by simp [markersOf], by simp [RangesFrom]⟩,
      by simp [eff, unmarkedFrom], by simp [eff, rangesSize], by simp, by simp⟩ (by simp)
  rw [e]
  simp only [Res.bind_ok]
  -- both lists are closed at the exit
  have ho1 : o1 = none := by
    cases o1 with
    | none => rfl
    | some e =>
      have h1 := (hI.open1 e rfl).1
      have h2 := hI.h1.rng.1
      omega
  have ho2 : o2 = none := by
    cases o2 with
    | none => rfl
    | some e =>
      have h1 := hI.open2 e rfl
      rcases hI.h2 with h | h
      · have := h.rng.1; omega
      · simp at h
  subst ho1; subst ho2
  obtain ⟨R1, f1, f2, f3⟩ := hI.h1.finish hI.hx
  have hfin2 : ∃ R, (if s'.y ≠ 0 then (⟨.Start, 0⟩ :: ⟨.End, s'.y⟩ :: s'.ms : List Marker) else s'.ms) = markersOf R ∧
      RangesFrom b.length 0 R ∧ R = (if s'.y ≠ 0 then (0, s'.y) :: r2 else r2) := by
    rcases hI.h2 with h | ⟨hy0, _, hms, hrng⟩
    · exact h.finish hI.hy
    · refine ⟨r2, ?_, hrng, ?_⟩ <;> simp [hy0, hms]
  obtain ⟨R2, g1, g2, g3⟩ := hfin2
  refine ⟨R1, R2, by rw [f1, g1], f2, g2, ?_, ?_⟩
  · rw [f3, g3, outside_finish a hI.hx, outside_finish b hI.hy]
    simpa [eff] using hI.kept
  · have hs := hI.size
    simp only [eff] at hs
    have hD : D false a b s'.x s'.y = s'.x + s'.y := by
      rcases hz with h | h <;> rw [h] <;> simp
    have e1 : rangesSize R1 = s'.x + rangesSize r1 := by
      rw [f3]; split <;> simp [rangesSize]; omega
    have e2 : rangesSize R2 = s'.y + rangesSize r2 := by
      rw [g3]; split <;> simp [rangesSize]; omega
    omega

end KompareDiff2
