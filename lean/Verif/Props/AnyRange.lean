import Verif.Props.AnyOrder
import Verif.Props.Overflow
/-
C61 for the models of every text the parser accepts, in any order of the lines.
-/
namespace KompareDiff2
open Spec

theorem filter_growth_bounds (p : Diff → Bool) (ds : List Diff) :
    ((ds.filter p).map (fun e => (e.dlc : Int) - e.slc)).sum ≤ ((ds.map Diff.dlc).sum : Nat) ∧
    -((ds.map Diff.slc).sum : Nat) ≤ ((ds.filter p).map (fun e => (e.dlc : Int) - e.slc)).sum := by
  induction ds with
  | nil => simp
  | cons x xs ih =>
    obtain ⟨h1, h2⟩ := ih
    rw [List.filter_cons]
    split <;> simp only [List.map_cons, List.sum_cons] <;> omega

theorem filter_growth_own (p : Diff → Bool) {ds : List Diff} {d : Diff} (hd : d ∈ ds) (hp : p d = false) :
    ((ds.filter p).map (fun e => (e.dlc : Int) - e.slc)).sum + d.dlc ≤ ((ds.map Diff.dlc).sum : Nat) := by
  induction ds with
  | nil => cases hd
  | cons x xs ih =>
    rw [List.filter_cons]
    rcases List.mem_cons.1 hd with rfl | hd
    · rw [hp]
      have := (filter_growth_bounds p xs).1
      simp only [Bool.false_eq_true, if_false, List.map_cons, List.sum_cons]
      omega
    · have := ih hd
      split <;> simp only [List.map_cons, List.sum_cons] <;> omega

/-- **C61.** Any text, any order of the lines, differences applied one at a time: no tracking line number leaves the range of `int`, provided
the source line of every difference plus all lines the diff adds does not. -/
theorem C61_any_order {win : Bool} {cmp : Str → Str → Int} {heap : Heap} {lines : List Str} {r : ParseResult} {ms : List DModel} {m : DModel}
    (hr : parse win cmp heap lines = Res.ok r) (hms : r.models = some ms) (hm : m ∈ ms)
    {ops : List MOp} (hops : MOp.Own (m, r.heap) ops) (hall : ∀ b, MOp.applyAll b ∉ ops) {s' : DModel × Heap}
    (h : runOps ops (m, r.heap) = Res.ok s')
    (low : ((m.differences.map (fun i => (r.heap.cell i).slc)).sum : Nat) ≤ 2147483648)
    (fit : ∀ i ∈ m.differences, 0 ≤ (r.heap.cell i).sourceLineNo ∧
      (r.heap.cell i).sourceLineNo + ((m.differences.map (fun i => (r.heap.cell i).dlc)).sum : Nat) ≤ maxInt) :
    ∀ i ∈ s'.1.differences, -2147483648 ≤ (s'.2.cell i).tracking ∧ (s'.2.cell i).tracking ≤ maxInt ∧ (s'.2.cell i).trackingEnd ≤ maxInt := by
  have t := C10_any_order hr hms hm hops hall h
  obtain ⟨e, same⟩ : s'.1.differences = m.differences ∧ ∀ i, Diff.Same (r.heap.cell i) (s'.2.cell i) := ⟨diffs_run h, same_run h⟩
  intro i hi
  have hd : s'.2.cell i ∈ s'.1.differences.map s'.2.cell := List.mem_map.2 ⟨i, hi, rfl⟩
  have t := t _ hd
  have e1 : (s'.1.differences.map s'.2.cell).map Diff.dlc = m.differences.map (fun i => (r.heap.cell i).dlc) := by
    rw [e, List.map_map]
    exact List.map_congr_left (fun j _ => by simp only [Function.comp, Diff.dlc, (same j).dest])
  have e2 : (s'.1.differences.map s'.2.cell).map Diff.slc = m.differences.map (fun i => (r.heap.cell i).slc) := by
    rw [e, List.map_map]
    exact List.map_congr_left (fun j _ => by simp only [Function.comp, Diff.slc, (same j).source])
  have b1 := filter_growth_own (fun x => x.applied && decide (x.destLineNo < (s'.2.cell i).destLineNo)) hd (by simp)
  have b2 := (filter_growth_bounds (fun x => x.applied && decide (x.destLineNo < (s'.2.cell i).destLineNo)) (s'.1.differences.map s'.2.cell)).2
  rw [e1] at b1
  rw [e2] at b2
  have hf := fit i (e ▸ hi)
  rw [← (same i).sourceLineNo] at hf
  unfold Diff.trackingEnd
  rw [t]
  omega

/-- Apply all differences at once and take the two back one by one. -/
def driftRound (i j : Nat) : List MOp := [.applyAll true, .direct i false, .direct j false]

theorem drift_round {m : DModel} {h : Heap} {i j : Nat} {a b : Int} (hd : m.differences = [i, j]) (hij : i ≠ j) (ci : i ∈ m.connected) (cj : j ∈ m.connected)
    (hi : (h.cell i).destLineNo = 9 ∧ (h.cell i).slc = 0 ∧ (h.cell i).dlc = 1 ∧ (h.cell i).applied = false ∧ (h.cell i).tracking = a)
    (hj : (h.cell j).destLineNo = 1 ∧ (h.cell j).slc = 0 ∧ (h.cell j).dlc = 1 ∧ (h.cell j).applied = false ∧ (h.cell j).tracking = b) :
    ∃ h', runOps (driftRound i j) (m, h) = Res.ok ({ m with appliedCount := 2 }, h') ∧
      ((h'.cell i).destLineNo = 9 ∧ (h'.cell i).slc = 0 ∧ (h'.cell i).dlc = 1 ∧ (h'.cell i).applied = false ∧ (h'.cell i).tracking = a - 1) ∧
      ((h'.cell j).destLineNo = 1 ∧ (h'.cell j).slc = 0 ∧ (h'.cell j).dlc = 1 ∧ (h'.cell j).applied = false ∧ (h'.cell j).tracking = b + 1) := by
  have hji : j ≠ i := fun q => hij q.symm
  refine ⟨{ m with appliedCount := 2 }.applyDirect ({ m with appliedCount := 2 }.applyDirect (applyAllLoop true h 0 [i, j]) i false) j false, ?_, ?_, ?_⟩
  · simp [driftRound, runOps, MOp.run, DModel.applyAllDifferences, hd]
  all_goals
    obtain ⟨i1, i2, i3, i4, i5⟩ := hi
    obtain ⟨j1, j2, j3, j4, j5⟩ := hj
    simp only [Diff.slc, Diff.dlc] at i2 i3 j2 j3
    simp [DModel.applyDirect, DModel.slotDifferenceApplied, applyAllLoop, Heap.modifyAll, Diff.apply, Diff.applyQuietly, Diff.delta, Diff.slc, Diff.dlc, hd, ci, cj, hij, hji,
      i1, i2, i3, i4, i5, j1, j2, j3, j4, j5]
    try omega

theorem drift_rounds {m : DModel} {h : Heap} {i j : Nat} (hd : m.differences = [i, j]) (hij : i ≠ j) (ci : i ∈ m.connected) (cj : j ∈ m.connected) (n : Nat) :
    ∀ {c : Int} {h : Heap} {a b : Int}, ((h.cell i).destLineNo = 9 ∧ (h.cell i).slc = 0 ∧ (h.cell i).dlc = 1 ∧ (h.cell i).applied = false ∧ (h.cell i).tracking = a) →
    ((h.cell j).destLineNo = 1 ∧ (h.cell j).slc = 0 ∧ (h.cell j).dlc = 1 ∧ (h.cell j).applied = false ∧ (h.cell j).tracking = b) →
    ∃ s', runOps (List.replicate n (driftRound i j)).flatten ({ m with appliedCount := c }, h) = Res.ok s' ∧
      ((s'.2.cell i).applied = false ∧ (s'.2.cell i).tracking = a - n) ∧ ((s'.2.cell j).applied = false ∧ (s'.2.cell j).tracking = b + n) := by
  induction n with
  | zero =>
    intro c h a b hi hj
    exact ⟨_, rfl, ⟨hi.2.2.2.1, by rw [hi.2.2.2.2]; simp⟩, ⟨hj.2.2.2.1, by rw [hj.2.2.2.2]; simp⟩⟩
  | succ n ih =>
    intro c h a b hi hj
    obtain ⟨h', e, hi', hj'⟩ := drift_round (m := { m with appliedCount := c }) hd hij ci cj hi hj
    obtain ⟨s', e', ⟨k1, k2⟩, k3, k4⟩ := ih (c := 2) hi' hj'
    refine ⟨s', ?_, ⟨k1, by rw [k2]; omega⟩, k3, by rw [k4]; omega⟩
    rw [List.replicate_succ, List.flatten_cons, runOps_append, e]
    exact e'

/-- **C61, defect** (and C10 for one-call and one-by-one operations mixed). When the destination lines of a diff do not ascend, applying all
differences in one call and taking them back one by one does not restore the tracking line numbers: with every repetition they move on, one
up and one down, so that they leave every range although nothing is applied. -/
theorem C61_drift_defect (win : Bool) (cmp : Str → Str → Int) (heap : Heap) (n : Nat) : ∃ r m i j s',
    parse win cmp heap (split descendingDiff.render.flatten) = Res.ok r ∧ r.models = some [m] ∧ m.differences = [i, j] ∧
    runOps (List.replicate n (driftRound i j)).flatten (m, r.heap) = Res.ok s' ∧
    ((s'.2.cell i).applied = false ∧ (s'.2.cell i).tracking = 9 - n) ∧ ((s'.2.cell j).applied = false ∧ (s'.2.cell j).tracking = 1 + n) := by
  obtain ⟨m, h', i, j, hr, hd, hij, hi1, hi2, hi3, hi4, hj1, hj2, hj3, hj4⟩ := descendingDiff_parsed win cmp heap
  have hu := parsed_untouched hr rfl (List.mem_singleton.2 rfl)
  have mi : i ∈ m.differences := by rw [hd]; simp
  have mj : j ∈ m.differences := by rw [hd]; simp
  obtain ⟨a1, _, a2⟩ := hu.state i mi
  obtain ⟨b1, _, b2⟩ := hu.state j mj
  dsimp only at a1 a2 b1 b2
  obtain ⟨s', e, k⟩ := drift_rounds (c := m.appliedCount) (h := h') hd hij (hu.connected i mi) (hu.connected j mj) n
    ⟨hi2, hi3, hi4, a1, a2.trans hi1⟩ ⟨hj2, hj3, hj4, b1, b2.trans hj1⟩
  exact ⟨_, m, i, j, s', hr, rfl, hd, e, k⟩

/-- The hypotheses of `C61_any_order` are met by this diff. -/
example (win : Bool) (cmp : Str → Str → Int) (heap : Heap) : ∃ r m i s', parse win cmp heap (split descendingDiff.render.flatten) = Res.ok r ∧
    r.models = some [m] ∧ i ∈ m.differences ∧ runOps [.direct i true] (m, r.heap) = Res.ok s' ∧
    ∀ i ∈ s'.1.differences, -2147483648 ≤ (s'.2.cell i).tracking ∧ (s'.2.cell i).tracking ≤ maxInt ∧ (s'.2.cell i).trackingEnd ≤ maxInt := by
  obtain ⟨m, h', i, j, hr, hd, hij, hi1, hi2, hi3, hi4, hj1, hj2, hj3, hj4⟩ := descendingDiff_parsed win cmp heap
  have mi : i ∈ m.differences := by rw [hd]; simp
  refine ⟨_, m, i, _, hr, rfl, mi, rfl, C61_any_order hr rfl (List.mem_singleton.2 rfl) (ops := [.direct i true]) ?_ (by simp) rfl ?_ ?_⟩
  · intro k b hk
    simp only [List.mem_singleton, MOp.direct.injEq] at hk
    rw [hk.1]; exact mi
  · rw [hd]; simp [hi3, hj3]
  · rw [hd]; simp [hi1, hi4, hj1, hj4, maxInt]

end KompareDiff2
