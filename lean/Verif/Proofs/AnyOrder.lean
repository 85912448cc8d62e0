import Verif.Proofs.Opening
import Verif.Props.Difference
/-
Tracking line numbers when the destination line numbers of the differences are in any order.
-/
namespace KompareDiff2
open Spec

theorem sum_toggle (f g : Nat → Int) (ids : List Nat) (hn : ids.Nodup) (i : Nat) (hi : i ∈ ids) (h : ∀ j ∈ ids, j ≠ i → g j = f j) :
    (ids.map g).sum = (ids.map f).sum + (g i - f i) := by
  induction ids with
  | nil => cases hi
  | cons k ks ih =>
    rw [List.nodup_cons] at hn
    simp only [List.map_cons, List.sum_cons]
    by_cases hk : k = i
    · subst hk
      have : ks.map g = ks.map f := List.map_congr_left (fun j hj => h j (by simp [hj]) (fun e => hn.1 (e ▸ hj)))
      rw [this]; omega
    · have := ih hn.2 (by simpa [Ne.symm hk] using hi) (fun j hj => h j (by simp [hj]))
      rw [this, h k (by simp) hk]; omega

/-- The growth a difference contributes to those that start below line `n` of the destination. -/
def growthAbove (n : Int) (d : Diff) : Int := if d.applied ∧ d.destLineNo < n then (d.dlc : Int) - d.slc else 0

theorem growthAbove_sum (n : Int) (ds : List Diff) : (ds.map (growthAbove n)).sum =
    ((ds.filter (fun d => d.applied && decide (d.destLineNo < n))).map (fun d => (d.dlc : Int) - d.slc)).sum := by
  induction ds with
  | nil => rfl
  | cons d ds ih =>
    by_cases h : d.applied = true ∧ d.destLineNo < n
    · rw [List.filter_cons_of_pos (by simp [h])]
      simp only [List.map_cons, List.sum_cons, ih, growthAbove, if_pos h]
    · rw [List.filter_cons_of_neg (by simpa using h)]
      simp only [List.map_cons, List.sum_cons, ih, growthAbove, if_neg h]; omega

/-- The law of the tracking numbers when differences are applied one at a time. -/
def TracksAbove (s : DModel × Heap) : Prop := ∀ i ∈ s.1.differences,
  (s.2.cell i).tracking = (s.2.cell i).sourceLineNo + (s.1.differences.map (fun j => growthAbove (s.2.cell i).destLineNo (s.2.cell j))).sum

theorem tracking_direct {m : DModel} {h : Heap} {i : Nat} {b : Bool} (hn : m.differences.Nodup) (hc : i ∈ m.connected)
    (hb : (h.cell i).applied ≠ b) {j : Nat} (hj : j ∈ m.differences) :
    ((m.applyDirect h i b).cell j).tracking = (h.cell j).tracking +
      (if (h.cell i).destLineNo < (h.cell j).destLineNo then (if b then ((h.cell i).dlc : Int) - (h.cell i).slc else (h.cell i).slc - (h.cell i).dlc) else 0) := by
  have h1 : (h.cell i).apply b = ({ h.cell i with applied := b, unsaved := !(h.cell i).unsaved }, true) := by
    unfold Diff.apply; rw [if_neg (fun e => hb e.symm)]
  unfold DModel.applyDirect
  rw [h1]
  simp only [hc, and_self, if_true, DModel.slotDifferenceApplied, Heap.set_cell]
  rw [Heap.modifyAll_cell _ _ _ hn, if_pos hj]
  simp only [Heap.set_cell]
  by_cases hji : j = i
  · subst hji; simp
  · simp only [if_neg hji, Diff.delta, Diff.dlc, Diff.slc]
    by_cases hl : (h.cell i).destLineNo < (h.cell j).destLineNo
    · simp only [gt_iff_lt, hl, if_true]
      cases b <;> simp <;> omega
    · simp only [gt_iff_lt, hl, if_false]; omega

theorem tracksAbove_direct {m : DModel} {h : Heap} {i : Nat} (b : Bool) (hn : m.differences.Nodup) (hi : i ∈ m.differences)
    (hc : i ∈ m.connected) (ht : TracksAbove (m, h)) : TracksAbove (m, m.applyDirect h i b) := by
  by_cases hb : (h.cell i).applied = b
  · have h1 : (h.cell i).apply b = (h.cell i, false) := by simp [Diff.apply, hb]
    have h2 : (m.applyDirect h i b).cell = h.cell := by
      funext j
      simp only [DModel.applyDirect, h1]
      simp; intro hj; rw [hj]
    unfold TracksAbove at ht ⊢
    simp only at ht ⊢
    rw [h2]; exact ht
  · intro j hj
    simp only
    rw [tracking_direct hn hc hb hj]
    have same : ∀ k, Diff.Same (h.cell k) ((m.applyDirect h i b).cell k) := fun k => (toggled_direct m h i k b).1
    rw [(same j).sourceLineNo, (same j).destLineNo]
    have hs := sum_toggle (fun k => growthAbove (h.cell j).destLineNo (h.cell k))
      (fun k => growthAbove (h.cell j).destLineNo ((m.applyDirect h i b).cell k)) m.differences hn i hi (by
        intro k _ hk
        simp only [growthAbove, applied_direct, if_neg hk, Diff.dlc, Diff.slc, (same k).dest, (same k).source, (same k).destLineNo])
    rw [hs, ht j hj]
    simp only [growthAbove, applied_direct, if_true, Diff.dlc, Diff.slc, (same i).dest, (same i).source, (same i).destLineNo]
    have : (h.cell i).applied = !b := by revert hb; cases (h.cell i).applied <;> cases b <;> simp
    rw [this]
    by_cases hl : (h.cell i).destLineNo < (h.cell j).destLineNo
    · cases b <;> simp [hl] <;> omega
    · simp [hl]

theorem tracksAbove_of_heap {m m' : DModel} {h : Heap} (hd : m'.differences = m.differences) (ht : TracksAbove (m, h)) : TracksAbove (m', h) := by
  unfold TracksAbove at ht ⊢
  simp only [hd] at ht ⊢; exact ht

theorem tracksAbove_op {op : MOp} {s s' : DModel × Heap} (hn : s.1.differences.Nodup) (hc : ∀ i ∈ s.1.differences, i ∈ s.1.connected)
    (hsel : s.1.SelOk) (hop : ∀ i b, op = .direct i b → i ∈ s.1.differences) (hall : ∀ b, op ≠ .applyAll b)
    (h : op.run s = Res.ok s') (ht : TracksAbove s) : TracksAbove s' := by
  have hd := (diffs_op h).1
  obtain ⟨m, hp⟩ := s
  obtain ⟨m', hp'⟩ := s'
  simp only at hd
  cases op with
  | first =>
    simp only [MOp.run, Res.bind_eq_ok] at h
    obtain ⟨r, _, h2⟩ := h; cases h2
    exact tracksAbove_of_heap hd ht
  | last =>
    simp only [MOp.run, Res.bind_eq_ok] at h
    obtain ⟨r, _, h2⟩ := h; cases h2
    exact tracksAbove_of_heap hd ht
  | next =>
    simp only [MOp.run, Res.bind_eq_ok] at h
    obtain ⟨r, _, h2⟩ := h; cases h2
    exact tracksAbove_of_heap hd ht
  | prev =>
    simp only [MOp.run, Res.bind_eq_ok] at h
    obtain ⟨r, _, h2⟩ := h; cases h2
    exact tracksAbove_of_heap hd ht
  | select p =>
    simp only [MOp.run] at h; cases h
    exact tracksAbove_of_heap hd ht
  | apply b =>
    simp only [MOp.run, DModel.applyDifference] at h
    cases hs : m.selected with
    | none => simp only [hs] at h; cases h
    | some i =>
      simp only [hs] at h
      have hi := hsel.mem hs
      split at h
      · cases h; exact ht
      · cases h
        exact tracksAbove_of_heap (m := m) rfl (tracksAbove_direct b hn hi (hc i hi) ht)
  | applyAll b => exact absurd rfl (hall b)
  | direct i b =>
    simp only [MOp.run] at h; cases h
    have hi := hop i b rfl
    exact tracksAbove_direct b hn hi (hc i hi) ht
  | save =>
    simp only [MOp.run] at h; cases h
    intro i hi
    have key : ∀ j ∈ m.differences, (hp.modifyAll (fun d => d.setUnsaved false) m.differences).cell j = (hp.cell j).setUnsaved false :=
      fun j hj => by rw [Heap.modifyAll_cell _ _ _ hn, if_pos hj]
    have := ht i hi
    simp only at hi this ⊢
    have e : m.differences.map (fun j => growthAbove ((hp.modifyAll (fun d => d.setUnsaved false) m.differences).cell i).destLineNo
        ((hp.modifyAll (fun d => d.setUnsaved false) m.differences).cell j)) =
        m.differences.map (fun j => growthAbove (hp.cell i).destLineNo (hp.cell j)) := by
      apply List.map_congr_left
      intro j hj
      rw [key i hi, key j hj]; rfl
    rw [e, key i hi]
    exact this

theorem tracksAbove_run {ops : List MOp} {s s' : DModel × Heap} (hn : s.1.differences.Nodup)
    (hc : ∀ i ∈ s.1.differences, i ∈ s.1.connected) (hsel : s.1.SelOk) (hop : ∀ i b, MOp.direct i b ∈ ops → i ∈ s.1.differences)
    (hall : ∀ b, MOp.applyAll b ∉ ops) (h : runOps ops s = Res.ok s') (ht : TracksAbove s) : TracksAbove s' := by
  induction ops generalizing s with
  | nil => simp only [runOps] at h; cases h; exact ht
  | cons op ops ih =>
    simp only [runOps, Res.bind_eq_ok] at h
    obtain ⟨s1, h1, h2⟩ := h
    obtain ⟨hd, hc'⟩ := diffs_op h1
    refine ih (by rw [hd]; exact hn) (by rw [hd, hc']; exact hc) (selOk_op h1 hsel) (by rw [hd]; exact fun i b hi => hop i b (by simp [hi]))
      (fun b hb => hall b (by simp [hb])) h2
      (tracksAbove_op hn hc hsel (fun i b e => hop i b (by simp [e])) (fun b e => hall b (by simp [e])) h1 ht)

theorem tracksAbove_untouched {s : DModel × Heap} (hs : DModel.Untouched s) : TracksAbove s := by
  intro i hi
  rw [(hs.state i hi).2.2]
  have : s.1.differences.map (fun j => growthAbove (s.2.cell i).destLineNo (s.2.cell j)) = s.1.differences.map (fun _ => 0) := by
    apply List.map_congr_left
    intro j hj
    simp [growthAbove, (hs.state j hj).1]
  rw [this]
  have hz : ∀ l : List Nat, (l.map (fun _ => (0 : Int))).sum = 0 := by
    intro l; induction l with
    | nil => rfl
    | cons _ _ ih => simp only [List.map_cons, List.sum_cons, ih]; rfl
  rw [hz]; omega

/-- Every model returned by the parser is untouched, whatever the text. -/
theorem parsed_untouched {win : Bool} {cmp : Str → Str → Int} {heap : Heap} {lines : List Str} {r : ParseResult}
    (h : parse win cmp heap lines = Res.ok r) {ms : List DModel} (hm : r.models = some ms) {m : DModel} (hmem : m ∈ ms) :
    DModel.Untouched (m, r.heap) := by
  have p := (((parse_models h).2 ms hm).2.each m hmem).1
  refine ⟨?_, ?_, ?_, p.initial.1, p.initial.2.2.1⟩
  · rw [p.differences]; exact p.nodup.filter _
  · intro i hi; rw [p.connected]; exact hi
  · intro i hi
    have := p.sub hi
    unfold DModel.hunkIds at this
    obtain ⟨k, hk, hdk⟩ := List.mem_flatMap.1 this
    have := p.hunks k hk (r.heap.cell i).view (List.mem_map.2 ⟨i, hdk, rfl⟩)
    exact ⟨this.1, this.2.1, this.2.2.2⟩

end KompareDiff2
