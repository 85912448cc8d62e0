import Verif.Proofs.LinesChanged
import Verif.Proofs.DiffModel
/-
Lifting `linesChanged` from lists of difference values to pointers.
-/
namespace KompareDiff2
open Spec

theorem Heap.allocAll_next (ds : List Diff) (h : Heap) : (h.allocAll ds).2.next = h.next + ds.length := by
  induction ds generalizing h with
  | nil => rfl
  | cons d ds ih => simp only [allocAll]; rw [ih]; simp; omega

theorem Heap.allocAll_ids (ds : List Diff) (h : Heap) : (h.allocAll ds).1 = List.range' h.next ds.length := by
  induction ds generalizing h with
  | nil => rfl
  | cons d ds ih => simp only [allocAll]; rw [ih]; simp [List.range'_succ]

theorem Heap.allocAll_old (ds : List Diff) (h : Heap) (i : Nat) (hi : i < h.next) :
    (h.allocAll ds).2.cell i = h.cell i := by
  induction ds generalizing h with
  | nil => rfl
  | cons d ds ih =>
    simp only [allocAll]
    rw [ih _ (by simp; omega)]
    simp; omega

theorem Heap.allocAll_new (ds : List Diff) (h : Heap) : (h.allocAll ds).1.map (h.allocAll ds).2.cell = ds := by
  induction ds generalizing h with
  | nil => rfl
  | cons d ds ih =>
    simp only [allocAll, List.map_cons]
    rw [ih, Heap.allocAll_old _ _ _ (by simp)]
    simp

theorem Heap.allocAll_length (ds : List Diff) (h : Heap) : (h.allocAll ds).1.length = ds.length := by
  rw [allocAll_ids]; simp

/-- The pointers of a model are pairwise different and point to allocated objects. -/
structure DModel.Valid (m : DModel) (h : Heap) : Prop where
  nodup : m.differences.Nodup
  alloc : ∀ i ∈ m.differences, i < h.next

/-- Shape of every defined result of `linesChanged` on values. -/
theorem linesChanged_shape {hash : Str → Nat} {ds : List Diff} {old new : List Str} {e : Int} {r : LCResult}
    (hr : linesChanged hash ds old new e = Res.ok r) :
    ∃ post, ds = r.pre ++ (r.removed ++ post) ∧ r.post = post.map (shiftBy ((new.length : Int) - old.length)) := by
  unfold linesChanged at hr
  split at hr
  · rename_i h
    cases hr
    exact ⟨[], by simp, by simp⟩
  · simp only [Res.bind_eq_ok] at hr
    obtain ⟨b, _, i, _, hr⟩ := hr
    cases hr
    refine ⟨(ds.dropWhile (lcBefore e)).dropWhile (lcInside (e + old.length)), ?_, rfl⟩
    simp [List.takeWhile_append_dropWhile]

theorem DModel.linesChanged_heap {hash : Str → Nat} {m : DModel} {h : Heap} {old new : List Str} {e : Int} {r : LCResult}
    (hv : m.Valid h) (hr : KompareDiff2.linesChanged hash (m.differences.map h.cell) old new e = Res.ok r) :
    ∃ m' h' ins rem pre post, m.linesChanged hash h old new e = Res.ok (m', h', ins, rem) ∧
      m.differences = pre ++ (rem ++ post) ∧ m'.differences = pre ++ (ins ++ post) ∧
      m' = { m with differences := pre ++ (ins ++ post) } ∧
      ins = List.range' h.next ins.length ∧ h'.next = h.next + ins.length ∧
      (∀ i ∈ post, h'.cell i = shiftBy ((new.length : Int) - old.length) (h.cell i)) ∧
      (∀ i < h.next, i ∉ post → h'.cell i = h.cell i) ∧
      m'.Valid h' ∧ pre.map h.cell = r.pre ∧ rem.map h.cell = r.removed ∧ ins.map h'.cell = r.inserted ∧
      m'.differences.map h'.cell = r.list := by
  obtain ⟨post, s1, s2⟩ := linesChanged_shape hr
  have hd : m.differences = m.differences.take r.pre.length ++
      ((m.differences.drop r.pre.length).take r.removed.length ++ m.differences.drop (r.pre.length + r.removed.length)) := by
    rw [← List.drop_drop, List.take_append_drop, List.take_append_drop]
  generalize hpre : m.differences.take r.pre.length = pre at hd
  generalize hrem : (m.differences.drop r.pre.length).take r.removed.length = rem at hd
  generalize hpost : m.differences.drop (r.pre.length + r.removed.length) = pst at hd
  have hlen : m.differences.length = r.pre.length + r.removed.length + post.length := by
    have := congrArg List.length s1
    simpa [Nat.add_assoc] using this
  have e1 : pre.map h.cell = r.pre := by
    rw [← hpre, List.map_take, s1]; simp
  have e2 : rem.map h.cell = r.removed := by
    rw [← hrem, List.map_take, List.map_drop, s1]; simp
  have e3 : pst.map h.cell = post := by
    rw [← hpost, List.map_drop, s1]
    rw [← List.drop_drop]; simp
  have hn := hv.nodup
  have ha := hv.alloc
  rw [hd] at hn ha
  rw [List.nodup_append, List.nodup_append] at hn
  have hlt : ∀ i ∈ pst, i < h.next := fun i hi => ha i (by simp [hi])
  have hltp : ∀ i ∈ pre, i < h.next := fun i hi => ha i (by simp [hi])
  have hinsge : ∀ i ∈ (h.allocAll r.inserted).1, h.next ≤ i ∧ i < h.next + r.inserted.length := by
    intro i hi
    rw [Heap.allocAll_ids, List.mem_range'_1] at hi
    exact hi
  have hfin : ∀ j, ((h.allocAll r.inserted).2.modifyAll (shiftBy ((new.length : Int) - old.length)) pst).cell j =
      if j ∈ pst then shiftBy ((new.length : Int) - old.length) ((h.allocAll r.inserted).2.cell j)
      else (h.allocAll r.inserted).2.cell j := fun j => Heap.modifyAll_cell _ _ _ hn.2.1.2.1 j
  refine ⟨{ m with differences := pre ++ ((h.allocAll r.inserted).1 ++ pst) },
    (h.allocAll r.inserted).2.modifyAll (shiftBy ((new.length : Int) - old.length)) pst,
    (h.allocAll r.inserted).1, rem, pre, pst, ?_, hd, rfl, rfl, ?_, ?_, ?_, ?_, ?_, e1, e2, ?_, ?_⟩
  · unfold DModel.linesChanged
    rw [hr]
    simp only [Res.bind_ok, hpre, hrem, hpost, List.append_assoc]
    rfl
  · rw [Heap.allocAll_ids]; simp
  · rw [Heap.modifyAll_next, Heap.allocAll_next, Heap.allocAll_length]
  · intro i hi
    rw [hfin, if_pos hi, Heap.allocAll_old _ _ _ (hlt i hi)]
  · intro i hi hni
    rw [hfin, if_neg hni, Heap.allocAll_old _ _ _ hi]
  · constructor
    · rw [List.nodup_append, List.nodup_append]
      refine ⟨hn.1, ⟨?_, hn.2.1.2.1, ?_⟩, ?_⟩
      · rw [Heap.allocAll_ids]; exact List.nodup_range'
      · intro a ha' b hb
        have := hinsge a ha'
        have := hlt b hb
        omega
      · intro a ha' b hb
        rcases List.mem_append.1 hb with hb | hb
        · have := hinsge b hb
          have := hltp a ha'
          omega
        · exact hn.2.2 a ha' b (by simp [hb])
    · intro i hi
      rw [Heap.modifyAll_next, Heap.allocAll_next]
      simp only [List.mem_append] at hi
      rcases hi with hi | hi | hi
      · have := hltp i hi; omega
      · exact (hinsge i hi).2
      · have := hlt i hi; omega
  · conv => rhs; rw [← Heap.allocAll_new r.inserted h]
    apply List.map_congr_left
    intro i hi
    rw [hfin, if_neg]
    intro hc
    have := hinsge i hi
    have := hlt i hc
    omega
  · simp only [List.map_append, LCResult.list, List.append_assoc]
    congr 1
    · rw [← e1]
      apply List.map_congr_left
      intro i hi
      rw [hfin, if_neg, Heap.allocAll_old _ _ _ (hltp i hi)]
      intro hc
      exact hn.2.2 i hi i (by simp [hc]) rfl
    congr 1
    · conv => rhs; rw [← Heap.allocAll_new r.inserted h]
      apply List.map_congr_left
      intro i hi
      rw [hfin, if_neg]
      intro hc
      have := hinsge i hi
      have := hlt i hc
      omega
    · rw [s2, ← e3, List.map_map]
      apply List.map_congr_left
      intro i hi
      rw [hfin, if_pos hi, Heap.allocAll_old _ _ _ (hlt i hi)]
      rfl

end KompareDiff2
