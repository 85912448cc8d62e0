import Verif.Model.Blend32
import Verif.Spec.Within
import Verif.Proofs.Int32
import Verif.Proofs.Blend
/-
Strict blending agrees with `Model/Blend.lean` exactly if no hunk reaches beyond the end of the file.
-/
namespace KompareDiff2
open Spec

/-! ### The same or undefined -/

theorem blendFill32_below (limit : Int) (d : Diff) (src dst : Int) (ls : List Str) :
    Below (blendFill32 limit d src dst ls) (Res.ok (blendFill limit d src dst ls)) := by
  induction ls generalizing d src dst with
  | nil => exact Below.rfl
  | cons l ls ih =>
    unfold blendFill32 blendFill
    split
    · rcases int32_cases (src + 1) with e | e
      · rw [e]; exact .inl rfl
      · rw [e, Res.bind_ok]
        rcases int32_cases (dst + 1) with e | e
        · rw [e]; exact .inl rfl
        · rw [e, Res.bind_ok]; exact ih ..
    · exact Below.rfl

theorem blendBefore32_below (k : Hunk Nat) (s : BlendState) : Below (blendBefore32 k s) (Res.ok (blendBefore k s)) := by
  unfold blendBefore32 blendBefore
  split
  · rcases blendFill32_below k.sourceLine (Diff.new s.src s.dst .Unchanged) s.src s.dst s.lines with e | e
    · rw [e]; exact .inl rfl
    · rw [e]; exact Below.rfl
  · exact Below.rfl

theorem advance_below (n : Nat) (ls : List Str) : Below (advance n ls) (Res.ok (ls.drop n)) := by
  unfold advance
  split
  · exact Below.rfl
  · exact .inl rfl

theorem blendLoop32_below (ks : List (Hunk Nat)) (s : BlendState) : Below (blendLoop32 ks s) (Res.ok (blendLoop ks s)) := by
  induction ks generalizing s with
  | nil => exact Below.rfl
  | cons k ks ih =>
    unfold blendLoop32 blendLoop
    rcases blendBefore32_below k s with e | e
    · rw [e]; exact .inl rfl
    rw [e, Res.bind_ok]
    generalize blendBefore k s = t
    rcases int32_cases ((k.slcOn t.heap : Nat) : Int) with e | e
    · rw [e]; exact .inl rfl
    rw [e, Res.bind_ok]
    rcases advance_below (k.slcOn t.heap) t.lines with e | e
    · rw [e]; exact .inl rfl
    rw [e, Res.bind_ok]
    rcases int32_cases (t.src + (k.slcOn t.heap : Nat)) with e | e
    · rw [e]; exact .inl rfl
    rw [e, Res.bind_ok]
    rcases int32_cases ((k.dlcOn t.heap : Nat) : Int) with e | e
    · rw [e]; exact .inl rfl
    rw [e, Res.bind_ok]
    rcases int32_cases (t.dst + (k.dlcOn t.heap : Nat)) with e | e
    · rw [e]; exact .inl rfl
    rw [e, Res.bind_ok]
    exact ih _

theorem blend32_below (m : DModel) (h : Heap) (c : Str) : Below (m.blend32 h c) (Res.ok (m.blend h c)) := by
  unfold DModel.blend32 DModel.blend
  rcases blendLoop32_below m.hunks { heap := h, hunks := [], src := 1, dst := 1, lines := split c } with e | e
  · rw [e]; exact .inl rfl
  · rw [e]; exact Below.rfl

/-! ### Exactly -/

/-- The lines the loop takes. -/
theorem blendFill32_ok {limit : Int} {d : Diff} {src dst : Int} {ls : List Str} (h1 : 0 ≤ src) (h2 : src + ls.length ≤ maxInt) (h3 : 0 ≤ dst)
    (h4 : dst + ls.length ≤ maxInt) : blendFill32 limit d src dst ls = Res.ok (blendFill limit d src dst ls) := by
  induction ls generalizing d src dst with
  | nil => rfl
  | cons l ls ih =>
    simp only [List.length_cons] at h2 h4
    unfold blendFill32 blendFill
    split
    · rw [int32_ok (by omega) (by omega), Res.bind_ok, int32_ok (by omega) (by omega), Res.bind_ok]
      exact ih (by omega) (by omega) (by omega) (by omega)
    · rfl

theorem blendFill_count (limit : Int) (d : Diff) (src dst : Int) (ls : List Str) (h : src ≤ limit) :
    ∃ n : Nat, n ≤ ls.length ∧ (blendFill limit d src dst ls).2.1 = src + n ∧ (blendFill limit d src dst ls).2.2.1 = dst + n ∧
      (blendFill limit d src dst ls).2.2.2 = ls.drop n ∧ src + n ≤ limit ∧ (n = ls.length ∨ src + n = limit) := by
  induction ls generalizing d src dst with
  | nil => exact ⟨0, by simp, by simp [blendFill], by simp [blendFill], by simp [blendFill], by simpa using h, .inl rfl⟩
  | cons l ls ih =>
    unfold blendFill
    split
    · rename_i hc
      obtain ⟨n, e1, e2, e3, e4, e5, e6⟩ := ih ((d.addSource l).addDest l) (src + 1) (dst + 1) (by omega)
      refine ⟨n + 1, by simp; omega, ?_, ?_, ?_, ?_, ?_⟩
      · rw [e2]; push_cast; omega
      · rw [e3]; push_cast; omega
      · rw [e4]; rfl
      · push_cast; omega
      · simp only [List.length_cons]; push_cast; omega
    · exact ⟨0, by simp, by simp, by simp, by simp, by simpa using h, .inr (by simp only [Int.natCast_zero]; omega)⟩

/-- What is done before a hunk: some lines are taken, up to the hunk or to the end of the file. -/
theorem blendBefore32_ok {k : Hunk Nat} {s : BlendState} (h0 : s.src ≤ k.sourceLine) (h1 : 0 ≤ s.src) (h2 : s.src + s.lines.length ≤ maxInt) (h3 : 0 ≤ s.dst)
    (h4 : s.dst + s.lines.length ≤ maxInt) :
    blendBefore32 k s = Res.ok (blendBefore k s) ∧ s.heap.Ext (blendBefore k s).heap ∧
    ∃ n : Nat, n ≤ s.lines.length ∧ (blendBefore k s).src = s.src + n ∧ (blendBefore k s).dst = s.dst + n ∧
      (blendBefore k s).lines = s.lines.drop n ∧ s.src + n ≤ k.sourceLine ∧ (n = s.lines.length ∨ s.src + n = k.sourceLine) := by
  unfold blendBefore32 blendBefore
  split
  · rw [blendFill32_ok h1 h2 h3 h4]
    exact ⟨rfl, Heap.allocAll_ext _ _, blendFill_count _ _ _ _ _ h0⟩
  · exact ⟨rfl, Heap.Ext.refl _, 0, by simp, by simp, by simp, by simp, by simpa using h0, .inr (by simp only [Int.natCast_zero]; omega)⟩

theorem blendLoop32_exact (N : Nat) (ks : List (Hunk Nat)) (s : BlendState) (vs : List HView) (hv : vs = ks.map (Hunk.view s.heap))
    (ha : ∀ k ∈ ks, ∀ i ∈ k.diffs, i < s.heap.next) (hp : ∃ p : Nat, s.src = (p : Int) + 1 ∧ s.lines.length + p = N)
    (first : ∀ v ∈ vs, s.src ≤ v.srcLine) (asc : vs.Pairwise (fun k k' : HView => k.srcLine + (k.old.length : Int) ≤ k'.srcLine))
    (hN : (N : Int) < maxInt) (hd : 0 ≤ s.dst ∧ s.dst + s.lines.length + ((vs.map (fun k => k.new.length)).sum : Nat) ≤ maxInt) :
    ((∀ v ∈ vs, v.Within N) → blendLoop32 ks s = Res.ok (blendLoop ks s)) ∧ (¬ (∀ v ∈ vs, v.Within N) → blendLoop32 ks s = Res.ub) := by
  have hM : maxInt = 2147483647 := rfl
  induction ks generalizing s vs with
  | nil =>
    subst hv
    exact ⟨fun _ => rfl, fun h => absurd (fun v hv => by cases hv) h⟩
  | cons k ks ih =>
    subst hv
    obtain ⟨p, hp1, hp2⟩ := hp
    have hk := first (k.view s.heap) (by simp)
    have ek : (k.view s.heap).srcLine = k.sourceLine := rfl
    rw [ek] at hk
    simp only [List.map_cons, List.sum_cons] at hd
    rw [List.map_cons, List.pairwise_cons] at asc
    obtain ⟨b1, b2, n, n1, n2, n3, n4, n5, n6⟩ := blendBefore32_ok (k := k) (s := s) hk (by omega) (by omega) (by omega) (by omega)
    unfold blendLoop32 blendLoop
    rw [b1, Res.bind_ok]
    generalize ht : blendBefore k s = t at *
    have hvk : k.view t.heap = k.view s.heap := by
      have := hunks_view_ext b2 (ks := [k]) (fun k' hk' i hi => ha k' (by simp only [List.mem_singleton] at hk'; subst hk'; simp) i hi)
      simpa using this
    have hvs : ks.map (Hunk.view t.heap) = ks.map (Hunk.view s.heap) :=
      hunks_view_ext b2 (ks := ks) (fun k' hk' i hi => ha k' (List.mem_cons_of_mem _ hk') i hi)
    have es : k.slcOn t.heap = (k.view s.heap).old.length := by rw [slcOn_view, hvk]
    have ed : k.dlcOn t.heap = (k.view s.heap).new.length := by rw [dlcOn_view, hvk]
    dsimp only
    rw [es, ed]
    have hlen : t.lines.length = s.lines.length - n := by rw [n4]; simp
    by_cases hw : (k.view s.heap).old.length ≤ t.lines.length
    · have hwithin : (k.view s.heap).Within N := by
        by_cases hz : (k.view s.heap).old = []
        · exact .inl hz
        · right
          have := List.length_pos_iff.2 hz
          rw [ek]
          omega
      rw [int32_ok (by omega) (by omega), Res.bind_ok]
      unfold advance
      rw [if_pos hw, Res.bind_ok, int32_ok (by omega) (by omega), Res.bind_ok, int32_ok (by omega) (by omega), Res.bind_ok,
        int32_ok (by omega) (by omega), Res.bind_ok]
      obtain ⟨i1, i2⟩ := ih { t with
          hunks := t.hunks ++ [k]
          lines := t.lines.drop (k.view s.heap).old.length
          src := t.src + ((k.view s.heap).old.length : Nat)
          dst := t.dst + ((k.view s.heap).new.length : Nat) } (ks.map (Hunk.view s.heap)) hvs.symm
        (fun k' hk' i hi => Nat.lt_of_lt_of_le (ha k' (List.mem_cons_of_mem _ hk') i hi) b2.1)
        ⟨p + n + (k.view s.heap).old.length, by simp only; push_cast; omega, by simp only [List.length_drop]; omega⟩
        (by
          intro v hv
          have h1 := asc.1 v hv
          rw [ek] at h1
          simp only
          omega) asc.2
        (by
          simp only [List.length_drop]
          omega)
      constructor
      · intro hall
        exact i1 (fun v hv => hall v (List.mem_cons_of_mem _ hv))
      · intro hnot
        exact i2 (fun hall => hnot (fun v hv => by
          rcases List.mem_cons.1 hv with rfl | hv
          · exact hwithin
          · exact hall v hv))
    · refine ⟨fun hall => ?_, fun _ => ?_⟩
      · exfalso
        rcases hall (k.view s.heap) (by simp) with h | h
        · rw [h] at hw; simp at hw
        · rw [ek] at h
          omega
      · unfold advance
        rw [if_neg hw]
        cases int32_cases ((k.view s.heap).old.length : Int) with
        | inl e => rw [e]; rfl
        | inr e => rw [e]; rfl

theorem blend32_exact {m : DModel} {h : Heap} {c : Str} (ha : ∀ i ∈ m.hunkIds, i < h.next) (asc : Ascending (m.hunks.map (Hunk.view h)))
    (hc : Countable (split c).length (m.hunks.map (Hunk.view h))) :
    ((∀ v ∈ m.hunks.map (Hunk.view h), v.Within (split c).length) → m.blend32 h c = Res.ok (m.blend h c)) ∧
    (¬ (∀ v ∈ m.hunks.map (Hunk.view h), v.Within (split c).length) → m.blend32 h c = Res.ub) := by
  unfold Countable at hc
  obtain ⟨h1, h2⟩ := blendLoop32_exact (split c).length m.hunks { heap := h, hunks := [], src := 1, dst := 1, lines := split c } _ rfl
    (fun k hk i hi => ha i (by rw [DModel.hunkIds, List.mem_flatMap]; exact ⟨k, hk, hi⟩)) ⟨0, by simp, by simp⟩ asc.1 asc.2 (by omega)
    ⟨by simp, by simp only; omega⟩
  unfold DModel.blend32 DModel.blend
  exact ⟨fun h => by rw [h1 h]; rfl, fun h => by rw [h2 h]; rfl⟩

/-- Hunks that fit a file are ascending and within it. -/
theorem patches_within {a : Nat} {ks : List HView} {file out : List Str} (h : Patches a (ks.map HView.edit) file out) :
    (∀ k ∈ ks, (a : Int) + 1 ≤ k.srcLine) ∧ ks.Pairwise (fun k k' : HView => k.srcLine + (k.old.length : Int) ≤ k'.srcLine) ∧ ∀ k ∈ ks, k.Within (a + file.length) := by
  induction ks generalizing a file out with
  | nil => exact ⟨by simp, .nil, by simp⟩
  | cons k ks ih =>
    rw [List.map_cons] at h
    cases h with
    | edit _ _ _ keep file out hl hp =>
      have hl : k.srcLine = ((a + keep.length + 1 : Nat) : Int) := hl
      obtain ⟨i1, i2, i3⟩ := ih hp
      have eo : k.edit.old = k.old := rfl
      rw [eo] at i1 i3
      refine ⟨?_, List.pairwise_cons.2 ⟨?_, i2⟩, ?_⟩
      · intro k' hk'
        rcases List.mem_cons.1 hk' with rfl | hk'
        · omega
        · have := i1 k' hk'; push_cast at this; omega
      · intro k' hk'
        have := i1 k' hk'
        push_cast at this hl
        omega
      · intro k' hk'
        rcases List.mem_cons.1 hk' with rfl | hk'
        · right
          simp only [List.length_append, eo]
          push_cast at hl ⊢
          omega
        · rcases i3 k' hk' with h | h
          · exact .inl h
          · right
            simp only [List.length_append, eo]
            push_cast at h ⊢
            omega

end KompareDiff2
