import Verif.Proofs.Blend
/-
Proofs about the text saved for a blended model.
-/
namespace KompareDiff2
open Spec

theorem unified_coherent {k : HView} (h : k.UnifiedOk) : k.Coherent := by
  refine ⟨h.2.1, fun v hv ht => ?_⟩
  have := (h.2.2 v hv).2
  unfold DView.SidesAgree at this
  rw [ht] at this
  exact this.1

theorem context_coherent {k : HView} (h : k.ContextOk) : k.Coherent := by
  refine ⟨h.2.1, fun v hv ht => ?_⟩
  have := (h.2.2 v hv).2
  unfold DView.SidesAgreeContext at this
  rw [ht] at this
  exact this.1

theorem normal_coherent {k : HView} (h : k.NormalOk) : k.Coherent := by
  obtain ⟨_, v, hv, h1, h2, _, h3, _⟩ := h
  rw [Spec.HView.Coherent, hv]
  refine ⟨⟨h1, h2, trivial⟩, fun w hw ht => ?_⟩
  simp only [List.mem_singleton] at hw
  subst hw
  exact absurd ht h3


/-- A model that shows the whole file `S` and its changed version `T`. -/
structure Ready (h : Heap) (m : DModel) (S T : List Str) : Prop where
  contig : SrcContig 1 (m.hunkIds.map (fun i => (h.cell i).view))
  same : ∀ i ∈ m.hunkIds, (h.cell i).type = .Unchanged → (h.cell i).srcText = (h.cell i).dstText
  old : (m.hunkIds.map (fun i => (h.cell i).view)).flatMap DView.src = S
  new : (m.hunkIds.map (fun i => (h.cell i).view)).flatMap DView.dst = T
  cover : ∀ i ∈ m.hunkIds, (h.cell i).type ≠ .Unchanged → i ∈ m.differences
  alloc : ∀ i ∈ m.hunkIds, i < h.next

theorem Ready.frame {h h' : Heap} {m m' : DModel} {S T : List Str} (r : Ready h m S T) (h1 : m'.hunks = m.hunks) (h2 : m'.differences = m.differences)
    (h3 : ∀ j, Diff.Same (h.cell j) (h'.cell j)) (h4 : h.next ≤ h'.next) : Ready h' m' S T := by
  have hid : m'.hunkIds = m.hunkIds := by unfold DModel.hunkIds; rw [h1]
  refine ⟨?_, ?_, ?_, ?_, ?_, ?_⟩ <;> rw [hid]
  · exact srcContig_same h3 r.contig
  · intro i hi ht
    have := r.same i hi ((h3 i).type.symm.trans ht)
    simp only [Diff.srcText, Diff.dstText] at this ⊢
    rw [(h3 i).source, (h3 i).dest]; exact this
  · rw [src_same h3]; exact r.old
  · rw [dst_same h3]; exact r.new
  · intro i hi ht
    rw [h2]
    exact r.cover i hi (fun q => ht ((h3 i).type.trans q))
  · exact fun i hi => Nat.lt_of_lt_of_le (r.alloc i hi) h4

theorem Ready.ext {h h' : Heap} {m m' : DModel} {S T : List Str} (r : Ready h m S T) (h1 : m'.hunks = m.hunks) (h2 : m'.differences = m.differences)
    (h3 : h.Ext h') : Ready h' m' S T := by
  have hid : m'.hunkIds = m.hunkIds := by unfold DModel.hunkIds; rw [h1]
  have hv : ∀ i ∈ m.hunkIds, h'.cell i = h.cell i := fun i hi => h3.2 i (r.alloc i hi)
  have hm : m.hunkIds.map (fun i => (h'.cell i).view) = m.hunkIds.map (fun i => (h.cell i).view) :=
    List.map_congr_left (fun i hi => by rw [hv i hi])
  refine ⟨?_, ?_, ?_, ?_, ?_, ?_⟩ <;> rw [hid]
  · rw [hm]; exact r.contig
  · intro i hi ht; rw [hv i hi] at ht ⊢; exact r.same i hi ht
  · rw [hm]; exact r.old
  · rw [hm]; exact r.new
  · intro i hi ht; rw [hv i hi] at ht; rw [h2]; exact r.cover i hi ht
  · exact fun i hi => Nat.lt_of_lt_of_le (r.alloc i hi) h3.1

/-- What is saved. -/
theorem Ready.saved {h : Heap} {m : DModel} {S T : List Str} (r : Ready h m S T) :
    ∃ out, Patches 0 ((pending (m.hunks.map (Hunk.view h))).map DView.edit) S out ∧ m.savedText h = out.flatten := by
  refine ⟨_, ?_, savedText_view m h⟩
  unfold pending
  rw [view_diffs, ← r.old]
  refine patches_saved (a := 0) (by simpa using r.contig) ?_
  intro d hd ht
  rw [List.mem_map] at hd
  obtain ⟨i, hi, rfl⟩ := hd
  exact r.same i hi ht

theorem Ready.all {h : Heap} {m : DModel} {S T : List Str} (r : Ready h m S T) (b : Bool) (hb : ∀ d ∈ m.differences, (h.cell d).applied = b) :
    m.savedText h = (if b then S else T).flatten := by
  rw [savedText_view]
  congr 1
  have : ∀ i ∈ m.hunkIds, DView.saved (h.cell i).view = if b then ((h.cell i).view).src else ((h.cell i).view).dst := by
    intro i hi
    by_cases ht : (h.cell i).type = .Unchanged
    · have e : ((h.cell i).view).src = ((h.cell i).view).dst := r.same i hi ht
      unfold Spec.DView.saved
      rw [e]; simp
    · have e : ((h.cell i).view).applied = b := hb i (r.cover i hi ht)
      unfold Spec.DView.saved
      rw [e]; cases b <;> rfl
  have h2 : (m.hunkIds.map (fun i => (h.cell i).view)).flatMap DView.saved = m.hunkIds.flatMap (fun i => if b then ((h.cell i).view).src else ((h.cell i).view).dst) := by
    rw [List.flatMap_map]
    simp only [List.flatMap]
    congr 1
    exact List.map_congr_left this
  rw [h2]
  cases b
  · rw [← r.new, List.flatMap_map]; simp
  · rw [← r.old, List.flatMap_map]; simp

theorem mem_blendLoop {ks : List (Hunk Nat)} {s : BlendState} {k : Hunk Nat} (h : k ∈ (blendLoop ks s).hunks) :
    k ∈ s.hunks ∨ k ∈ ks ∨ k.type = .AddedByBlend := by
  induction ks generalizing s with
  | nil => exact .inl h
  | cons x ks ih =>
    simp only [blendLoop] at h
    rcases ih h with h | h | h
    · simp only [List.mem_append, List.mem_singleton] at h
      rcases h with h | rfl
      · unfold blendBefore at h
        split at h
        · simp only [List.mem_append, List.mem_singleton] at h
          rcases h with h | rfl
          · exact .inl h
          · exact .inr (.inr rfl)
        · exact .inl h
      · exact .inr (.inl (by simp))
    · exact .inr (.inl (List.mem_cons_of_mem _ h))
    · exact .inr (.inr h)

theorem mem_blend {m : DModel} {h : Heap} {c : Str} {k : Hunk Nat} (hk : k ∈ (m.blend h c).1.hunks) : k ∈ m.hunks ∨ k.type = .AddedByBlend := by
  have key : ∀ s : BlendState, k ∈ (blendTail s).hunks → k ∈ s.hunks ∨ k.type = .AddedByBlend := by
    intro s h
    unfold blendTail at h
    split at h
    · exact .inl h
    · simp only [List.mem_append, List.mem_singleton] at h
      rcases h with h | rfl
      · exact .inl h
      · exact .inr rfl
  have hk' : k ∈ (blendTail (blendLoop m.hunks { heap := h, hunks := [], src := 1, dst := 1, lines := split c })).hunks := hk
  rcases key _ hk' with h | h
  · rcases mem_blendLoop h with h | h | h
    · simp at h
    · exact .inl h
    · exact .inr h
  · exact .inr h

/-- Blending makes a model ready. -/
theorem blend_ready {m : DModel} {h : Heap} {c : Str} {T : List Str} (ha : ∀ i ∈ m.hunkIds, i < h.next)
    (hn : ∀ k ∈ m.hunks, k.type ≠ .AddedByBlend) (hc : ∀ k ∈ m.hunks, (k.view h).Coherent)
    (hcov : ∀ i ∈ m.hunkIds, (h.cell i).type ≠ .Unchanged → i ∈ m.differences)
    (hp : Patches 0 ((m.hunks.map (Hunk.view h)).map HView.edit) (split c) T) :
    Ready (m.blend h c).2 (m.blend h c).1 (split c) T := by
  obtain ⟨hb, hal⟩ := blend_blended ha (located_of_patches hp)
  obtain ⟨hl, hl2⟩ := blended_lines hb hp
  have hn' : ∀ k ∈ m.hunks.map (Hunk.view h), k.type ≠ .AddedByBlend := by
    intro k hk
    rw [List.mem_map] at hk
    obtain ⟨k, hk, rfl⟩ := hk
    exact hn k hk
  have hext := blend_ext m h c
  have hmem : ∀ i ∈ (m.blend h c).1.hunkIds, (i ∈ m.hunkIds ∧ ∃ k ∈ m.hunks, i ∈ k.diffs) ∨
      (((m.blend h c).2.cell i).type = .Unchanged ∧ ((m.blend h c).2.cell i).srcText = ((m.blend h c).2.cell i).dstText) := by
    intro i hi
    rw [DModel.hunkIds, List.mem_flatMap] at hi
    obtain ⟨k, hk, hi⟩ := hi
    rcases mem_blend hk with hk' | hk'
    · exact .inl ⟨by rw [DModel.hunkIds, List.mem_flatMap]; exact ⟨k, hk', hi⟩, k, hk', hi⟩
    · right
      obtain ⟨a, b, ls, hne, he⟩ := blended_added hb hn' (k := k.view (m.blend h c).2) (List.mem_map.2 ⟨k, hk, rfl⟩) hk'
      have hd : (k.view (m.blend h c).2).diffs = k.diffs.map (fun i => ((m.blend h c).2.cell i).view) := rfl
      have : ((m.blend h c).2.cell i).view ∈ (fillView a b ls).diffs := by rw [← he, hd]; exact List.mem_map.2 ⟨i, hi, rfl⟩
      simp only [fillView, List.mem_singleton] at this
      refine ⟨?_, ?_⟩
      · have q := congrArg DView.type this; exact q
      · have q1 := congrArg DView.src this
        have q2 := congrArg DView.dst this
        exact (q1.trans q2.symm)
  have hd := blended_diffs hb (by
    intro k hk
    rw [List.mem_map] at hk
    obtain ⟨k, hk, rfl⟩ := hk
    exact (hc k hk).1)
  rw [view_diffs] at hd
  refine ⟨by simpa using hd, ?_, ?_, ?_, ?_, hal⟩
  · intro i hi ht
    rcases hmem i hi with ⟨h1, k, hk, hik⟩ | h1
    · have e := hext.2 i (ha i h1)
      rw [e] at ht ⊢
      exact (hc k hk).2 (h.cell i).view (List.mem_map.2 ⟨i, hik, rfl⟩) ht
    · exact h1.2
  · rw [← view_diffs, List.flatMap_assoc]; exact hl
  · rw [← view_diffs, List.flatMap_assoc]; exact hl2
  · intro i hi ht
    rcases hmem i hi with ⟨h1, _⟩ | h1
    · rw [hext.2 i (ha i h1)] at ht
      exact hcov i h1 ht
    · exact absurd h1.1 ht

end KompareDiff2
