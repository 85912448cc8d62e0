import Verif.Proofs.EndToEnd
import Verif.Spec.Overlay
/-
Blending any model with any file: proofs.
-/
namespace KompareDiff2
open Spec

/-- A hunk added by blending that shows the lines `ls`. -/
structure Fill (h : Heap) (k : Hunk Nat) (ls : List Str) : Prop where
  type : k.type = .AddedByBlend
  cell : ∃ i, k.diffs = [i] ∧ (h.cell i).type = .Unchanged ∧ (h.cell i).srcText = ls ∧ (h.cell i).dstText = ls

/-- The hunks `out` are the hunks `ks` with the lines of the file between them. -/
inductive Blent (h : Heap) : Int → List (Hunk Nat) → List Str → List (Hunk Nat) → Prop where
  | done (line : Int) : Blent h line [] [] []
  | tail (line : Int) (k : Hunk Nat) (ls : List Str) : Fill h k ls → Blent h line [] ls [k]
  | gap (line : Int) (k : Hunk Nat) (ks : List (Hunk Nat)) (f : Hunk Nat) (file : List Str) (out : List (Hunk Nat)) : line < k.sourceLine →
      Fill h f (file.take (k.sourceLine - line).toNat) →
      Blent h (line + (file.take (k.sourceLine - line).toNat).length + (k.view h).old.length) ks
        ((file.drop (file.take (k.sourceLine - line).toNat).length).drop (k.view h).old.length) out →
      Blent h line (k :: ks) file (f :: k :: out)
  | hunk (line : Int) (k : Hunk Nat) (ks : List (Hunk Nat)) (file : List Str) (out : List (Hunk Nat)) : ¬ line < k.sourceLine →
      Blent h (line + (k.view h).old.length) ks (file.drop (k.view h).old.length) out →
      Blent h line (k :: ks) file (k :: out)

theorem blendFill_take (file : List Str) (d : Diff) (src dst limit : Int) :
    blendFill limit d src dst file =
      ((file.take (limit - src).toNat).foldl (fun d l => (d.addSource l).addDest l) d, src + (file.take (limit - src).toNat).length,
        dst + (file.take (limit - src).toNat).length, file.drop (file.take (limit - src).toNat).length) := by
  induction file generalizing d src dst with
  | nil => simp [blendFill]
  | cons l ls ih =>
    unfold blendFill
    split
    · rename_i hlt
      rw [ih]
      have e : (limit - src).toNat = (limit - (src + 1)).toNat + 1 := by omega
      rw [e, List.take_succ_cons]
      simp only [List.foldl_cons, List.length_cons, List.drop_succ_cons, Prod.mk.injEq, true_and, and_true]
      constructor <;> omega
    · rename_i hlt
      have e : (limit - src).toNat = 0 := by omega
      rw [e]; simp

/-- The new hunk. -/
theorem fill_alloc (h : Heap) (a b : Int) (ls : List Str) :
    Fill (h.allocAll [ls.foldl (fun d l => (d.addSource l).addDest l) (Diff.new a b .Unchanged)]).2
      { sourceLine := a, destLine := b, function := [], type := .AddedByBlend,
        diffs := (h.allocAll [ls.foldl (fun d l => (d.addSource l).addDest l) (Diff.new a b .Unchanged)]).1 } ls := by
  refine ⟨rfl, ?_⟩
  generalize hd : ls.foldl (fun d l => (d.addSource l).addDest l) (Diff.new a b .Unchanged) = d
  have hn := Heap.allocAll_new [d] h
  have hi := Heap.allocAll_ids [d] h
  simp only [List.length_singleton, List.range'_one] at hi
  rw [hi, List.map_cons, List.map_nil, List.cons.injEq] at hn
  refine ⟨h.next, hi, ?_⟩
  rw [hn.1, ← hd, foldl_addBoth]
  refine ⟨rfl, ?_, ?_⟩
  · simp only [Diff.srcText, Diff.new, List.nil_append, map_text_ofStr]
  · simp only [Diff.dstText, Diff.new, List.nil_append, map_text_ofStr]

theorem Fill.ext {h h' : Heap} {k : Hunk Nat} {ls : List Str} (f : Fill h k ls) (e : h.Ext h') (ha : ∀ i ∈ k.diffs, i < h.next) : Fill h' k ls := by
  obtain ⟨i, hi, h1, h2, h3⟩ := f.cell
  refine ⟨f.type, i, hi, ?_⟩
  rw [e.2 i (ha i (by rw [hi]; simp))]
  exact ⟨h1, h2, h3⟩

theorem Blent.ext {h h' : Heap} (e : h.Ext h') {line : Int} {ks out : List (Hunk Nat)} {file : List Str} (b : Blent h line ks file out)
    (ha : ∀ k ∈ out, ∀ i ∈ k.diffs, i < h.next) : Blent h' line ks file out := by
  induction b with
  | done line => exact .done _
  | tail line k ls f => exact .tail _ _ _ (f.ext e (ha k (by simp)))
  | gap line k ks f file out hl hf hb ih =>
    have hv : k.view h' = k.view h := Hunk.view_ext e k (ha k (by simp))
    refine .gap _ _ _ _ _ _ hl (hf.ext e (ha f (by simp))) ?_
    rw [hv]
    exact ih (fun x hx => ha x (by simp [hx]))
  | hunk line k ks file out hl hb ih =>
    have hv : k.view h' = k.view h := Hunk.view_ext e k (ha k (by simp))
    refine .hunk _ _ _ _ _ hl ?_
    rw [hv]
    exact ih (fun x hx => ha x (by simp [hx]))

theorem Blent.frame {h h' : Heap} (e : ∀ j, Diff.Same (h.cell j) (h'.cell j)) {line : Int} {ks out : List (Hunk Nat)} {file : List Str}
    (b : Blent h line ks file out) : Blent h' line ks file out := by
  have hf : ∀ k ls, Fill h k ls → Fill h' k ls := by
    intro k ls f
    obtain ⟨i, hi, h1, h2, h3⟩ := f.cell
    refine ⟨f.type, i, hi, ?_, ?_, ?_⟩
    · rw [(e i).type]; exact h1
    · rw [Diff.srcText, (e i).source]; exact h2
    · rw [Diff.dstText, (e i).dest]; exact h3
  have hv : ∀ k : Hunk Nat, (k.view h').old = (k.view h).old := fun k => src_same e k.diffs
  induction b with
  | done line => exact .done _
  | tail line k ls f => exact .tail _ _ _ (hf _ _ f)
  | gap line k ks f file out hl hff hb ih =>
    refine .gap _ _ _ _ _ _ hl (hf _ _ hff) ?_
    rw [hv]; exact ih
  | hunk line k ks file out hl hb ih =>
    refine .hunk _ _ _ _ _ hl ?_
    rw [hv]; exact ih

theorem blendLoop_blent (ks : List (Hunk Nat)) (s : BlendState) (hs : HunksAlloc s) (hk : ∀ k ∈ ks, ∀ i ∈ k.diffs, i < s.heap.next) :
    ∃ out, (blendTail (blendLoop ks s)).hunks = s.hunks ++ out ∧ Blent (blendTail (blendLoop ks s)).heap s.src ks s.lines out ∧
      (∀ k ∈ out, ∀ i ∈ k.diffs, i < (blendTail (blendLoop ks s)).heap.next) := by
  have htail : ∀ s : BlendState, HunksAlloc s → HunksAlloc (blendTail s) := by
    intro s h1
    unfold blendTail
    split
    · exact h1
    · exact h1.alloc _ _ _ _ _ _ _ _
  induction ks generalizing s with
  | nil =>
    simp only [blendLoop]
    have ha := htail s hs
    generalize hL : s.lines = L
    cases L with
    | nil =>
      have e : blendTail s = s := by unfold blendTail; rw [hL]
      rw [e]
      exact ⟨[], by simp, .done _, fun k hk => by cases hk⟩
    | cons l ls =>
      have e : blendTail s = { s with
          heap := (s.heap.allocAll [(l :: ls).foldl (fun d l => (d.addSource l).addDest l) (Diff.new s.src s.dst .Unchanged)]).2
          hunks := s.hunks ++ [{ sourceLine := s.src, destLine := s.dst, function := [], type := .AddedByBlend, diffs :=
            (s.heap.allocAll [(l :: ls).foldl (fun d l => (d.addSource l).addDest l) (Diff.new s.src s.dst .Unchanged)]).1 }]
          lines := [] } := by unfold blendTail; rw [hL]
      rw [e] at ha ⊢
      refine ⟨_, rfl, .tail _ _ _ (fill_alloc s.heap s.src s.dst (l :: ls)), ?_⟩
      intro k hk
      exact ha k (List.mem_append_right _ hk)
  | cons k ks ih =>
    simp only [blendLoop]
    have hx := blendBefore_ext k s
    have hk' : ∀ k' ∈ k :: ks, ∀ i ∈ k'.diffs, i < (blendBefore k s).heap.next := fun k' h' i hi => Nat.lt_of_lt_of_le (hk k' h' i hi) hx.1
    have hb : HunksAlloc (blendBefore k s) := by
      unfold blendBefore
      split
      · exact hs.alloc _ _ _ _ _ _ _ _
      · exact hs
    have hb2 : HunksAlloc { (blendBefore k s) with
        hunks := (blendBefore k s).hunks ++ [k]
        lines := (blendBefore k s).lines.drop (k.slcOn (blendBefore k s).heap)
        src := (blendBefore k s).src + k.slcOn (blendBefore k s).heap
        dst := (blendBefore k s).dst + k.dlcOn (blendBefore k s).heap } := by
      intro k' h' i hi
      simp only [List.mem_append, List.mem_singleton] at h'
      rcases h' with h' | rfl
      · exact hb k' h' i hi
      · exact hk' k' (by simp) i hi
    obtain ⟨out, h1, h2, h3⟩ := ih _ hb2 (fun k' h' => hk' k' (List.mem_cons_of_mem _ h'))
    dsimp only at h1 h2 h3
    generalize hT : blendTail (blendLoop ks _) = t at h1 h2 h3 ⊢
    have hext : (blendBefore k s).heap.Ext t.heap := by
      rw [← hT]
      exact Heap.Ext.trans (blendLoop_ext ks { (blendBefore k s) with
        hunks := (blendBefore k s).hunks ++ [k]
        lines := (blendBefore k s).lines.drop (k.slcOn (blendBefore k s).heap)
        src := (blendBefore k s).src + k.slcOn (blendBefore k s).heap
        dst := (blendBefore k s).dst + k.dlcOn (blendBefore k s).heap }) (blendTail_ext _)
    have hvk : k.slcOn (blendBefore k s).heap = (k.view t.heap).old.length := by
      rw [slcOn_view, Hunk.view_ext hext k (hk' k (by simp))]
    rw [hvk] at h2
    by_cases hlt : s.src < k.sourceLine
    · obtain ⟨r, hr⟩ : ∃ r, blendFill k.sourceLine (Diff.new s.src s.dst .Unchanged) s.src s.dst s.lines = r := ⟨_, rfl⟩
      have e : blendBefore k s = { heap := (s.heap.allocAll [r.1]).2
                                   hunks := s.hunks ++ [{ sourceLine := s.src, destLine := s.dst, function := [], type := .AddedByBlend, diffs := (s.heap.allocAll [r.1]).1 }]
                                   src := r.2.1, dst := r.2.2.1, lines := r.2.2.2 } := by
        unfold blendBefore; rw [if_pos hlt, hr]
      rw [e] at h1 h2 hext hb
      rw [blendFill_take] at hr
      subst hr
      dsimp only at h1 h2 hext hb
      refine ⟨_ :: k :: out, by rw [h1]; simp; rfl, ?_, ?_⟩
      · refine .gap _ _ _ _ _ _ hlt ((fill_alloc s.heap s.src s.dst _).ext hext ?_) h2
        exact fun i hi => hb _ (by simp) i hi
      · intro k' h' i hi
        simp only [List.mem_cons] at h'
        rcases h' with rfl | rfl | h'
        · exact Nat.lt_of_lt_of_le (hb _ (List.mem_append_right _ (List.mem_singleton.2 rfl)) i hi) hext.1
        · exact Nat.lt_of_lt_of_le (hk k' (by simp) i hi) (hx.trans (e ▸ hext)).1
        · exact h3 k' h' i hi
    · have e : blendBefore k s = s := by unfold blendBefore; rw [if_neg hlt]
      rw [e] at h1 h2 hext
      refine ⟨k :: out, by rw [h1]; simp, .hunk _ _ _ _ _ hlt h2, ?_⟩
      intro k' h' i hi
      simp only [List.mem_cons] at h'
      rcases h' with rfl | h'
      · exact Nat.lt_of_lt_of_le (hk k' (by simp) i hi) hext.1
      · exact h3 k' h' i hi

/-- The lines on one side. -/
theorem blent_overlay {h : Heap} (side : DView → List Str) (hside : ∀ d : Diff, d.type = .Unchanged → d.srcText = d.dstText → side d.view = d.srcText)
    {line : Int} {ks out : List (Hunk Nat)} {file : List Str} (b : Blent h line ks file out) :
    (out.map (Hunk.view h)).flatMap (fun k => k.diffs.flatMap side) =
      overlay (fun k => k.diffs.flatMap side) line (ks.map (Hunk.view h)) file := by
  have hf : ∀ k ls, Fill h k ls → (k.view h).diffs.flatMap side = ls := by
    intro k ls f
    obtain ⟨i, hi, h1, h2, h3⟩ := f.cell
    unfold Hunk.view
    rw [hi]
    simp only [List.map_cons, List.map_nil, List.flatMap_cons, List.flatMap_nil, List.append_nil]
    rw [hside _ h1 (h2.trans h3.symm), h2]
  induction b with
  | done line => rfl
  | tail line k ls f => simp [overlay, hf _ _ f]
  | gap line k ks f file out hl hff hb ih =>
    simp only [List.map_cons, List.flatMap_cons, hf _ _ hff, ih, overlay]
    simp only [List.append_assoc]
    rfl
  | hunk line k ks file out hl hb ih =>
    simp only [List.map_cons, List.flatMap_cons, ih, overlay]
    have e : ((k.view h).srcLine - line).toNat = 0 := by
      have : (k.view h).srcLine = k.sourceLine := rfl
      omega
    rw [e]
    simp

theorem blent_filter {h : Heap} {line : Int} {ks out : List (Hunk Nat)} {file : List Str} (b : Blent h line ks file out)
    (hn : ∀ k ∈ ks, k.type ≠ .AddedByBlend) : out.filter (fun k => decide (k.type ≠ .AddedByBlend)) = ks := by
  induction b with
  | done line => rfl
  | tail line k ls f => simp [f.type]
  | gap line k ks f file out hl hff hb ih =>
    have := hn k (by simp)
    simp only [List.filter_cons, hff.type, ne_eq, not_true, decide_false, Bool.false_eq_true, if_false, this, not_false_eq_true, decide_true, if_true, List.cons.injEq, true_and]
    simpa using ih (fun k hk => hn k (List.mem_cons_of_mem _ hk))
  | hunk line k ks file out hl hb ih =>
    have := hn k (by simp)
    simp only [List.filter_cons, ne_eq, this, not_false_eq_true, decide_true, if_true, List.cons.injEq, true_and]
    simpa using ih (fun k hk => hn k (List.mem_cons_of_mem _ hk))

/-! ### Models -/

/-- A model as it comes from the parser. -/
structure Raw (h : Heap) (m : DModel) : Prop where
  alloc : ∀ i ∈ m.hunkIds, i < h.next
  normal : ∀ k ∈ m.hunks, k.type ≠ .AddedByBlend
  same : ∀ i ∈ m.hunkIds, (h.cell i).type = .Unchanged → (h.cell i).srcText = (h.cell i).dstText
  cover : ∀ i ∈ m.hunkIds, (h.cell i).type ≠ .Unchanged → i ∈ m.differences

/-- A model with the hunks `ks`, blended with the text `c`. -/
structure Overlaid (h : Heap) (m : DModel) (ks : List (Hunk Nat)) (c : Str) : Prop where
  alloc : ∀ i ∈ m.hunkIds, i < h.next
  normal : ∀ k ∈ ks, k.type ≠ .AddedByBlend
  same : ∀ i ∈ ks.flatMap (fun k => k.diffs), (h.cell i).type = .Unchanged → (h.cell i).srcText = (h.cell i).dstText
  cover : ∀ i ∈ ks.flatMap (fun k => k.diffs), (h.cell i).type ≠ .Unchanged → i ∈ m.differences
  blent : Blent h 1 ks (split c) m.hunks

theorem Raw.ext {h h' : Heap} {m m' : DModel} (r : Raw h m) (h1 : m'.hunks = m.hunks) (h2 : m'.differences = m.differences) (h3 : h.Ext h') :
    Raw h' m' := by
  have hid : m'.hunkIds = m.hunkIds := by unfold DModel.hunkIds; rw [h1]
  refine ⟨?_, ?_, ?_, ?_⟩
  · rw [hid]; exact fun i hi => Nat.lt_of_lt_of_le (r.alloc i hi) h3.1
  · rw [h1]; exact r.normal
  · rw [hid]; intro i hi; rw [h3.2 i (r.alloc i hi)]; exact r.same i hi
  · rw [hid, h2]; intro i hi; rw [h3.2 i (r.alloc i hi)]; exact r.cover i hi

theorem blent_mem {h : Heap} {line : Int} {ks out : List (Hunk Nat)} {file : List Str} (b : Blent h line ks file out) : ∀ k ∈ ks, k ∈ out := by
  induction b with
  | done line => intro k hk; cases hk
  | tail line k ls f => intro k hk; cases hk
  | gap line k ks f file out hl hff hb ih =>
    intro x hx
    simp only [List.mem_cons] at hx ⊢
    rcases hx with rfl | hx
    · exact .inr (.inl rfl)
    · exact .inr (.inr (ih x hx))
  | hunk line k ks file out hl hb ih =>
    intro x hx
    simp only [List.mem_cons] at hx ⊢
    rcases hx with rfl | hx
    · exact .inl rfl
    · exact .inr (ih x hx)

theorem Overlaid.ids {h : Heap} {m : DModel} {ks : List (Hunk Nat)} {c : Str} (r : Overlaid h m ks c) :
    ∀ i ∈ ks.flatMap (fun k => k.diffs), i ∈ m.hunkIds := by
  intro i hi
  obtain ⟨k, hk, hi⟩ := List.mem_flatMap.1 hi
  exact List.mem_flatMap.2 ⟨k, blent_mem r.blent k hk, hi⟩

theorem Overlaid.ext {h h' : Heap} {m m' : DModel} {ks : List (Hunk Nat)} {c : Str} (r : Overlaid h m ks c) (h1 : m'.hunks = m.hunks)
    (h2 : m'.differences = m.differences) (h3 : h.Ext h') : Overlaid h' m' ks c := by
  have hid : m'.hunkIds = m.hunkIds := by unfold DModel.hunkIds; rw [h1]
  refine ⟨?_, r.normal, ?_, ?_, ?_⟩
  · rw [hid]; exact fun i hi => Nat.lt_of_lt_of_le (r.alloc i hi) h3.1
  · intro i hi; rw [h3.2 i (r.alloc i (r.ids i hi))]; exact r.same i hi
  · rw [h2]; intro i hi; rw [h3.2 i (r.alloc i (r.ids i hi))]; exact r.cover i hi
  · rw [h1]; exact r.blent.ext h3 (fun k hk i hi => r.alloc i (List.mem_flatMap.2 ⟨k, hk, hi⟩))

theorem Overlaid.frame {h h' : Heap} {m m' : DModel} {ks : List (Hunk Nat)} {c : Str} (r : Overlaid h m ks c) (h1 : m'.hunks = m.hunks)
    (h2 : m'.differences = m.differences) (h3 : ∀ j, Diff.Same (h.cell j) (h'.cell j)) (h4 : h.next ≤ h'.next) : Overlaid h' m' ks c := by
  have hid : m'.hunkIds = m.hunkIds := by unfold DModel.hunkIds; rw [h1]
  refine ⟨?_, r.normal, ?_, ?_, ?_⟩
  · rw [hid]; exact fun i hi => Nat.lt_of_lt_of_le (r.alloc i hi) h4
  · intro i hi ht
    have := r.same i hi ((h3 i).type.symm.trans ht)
    simp only [Diff.srcText, Diff.dstText] at this ⊢
    rw [(h3 i).source, (h3 i).dest]; exact this
  · rw [h2]; intro i hi ht; exact r.cover i hi (fun q => ht ((h3 i).type.trans q))
  · rw [h1]; exact r.blent.frame h3

theorem blend_overlaid {h : Heap} {m : DModel} (r : Raw h m) (c : Str) : Overlaid (m.blend h c).2 (m.blend h c).1 m.hunks c := by
  have hk : ∀ k ∈ m.hunks, ∀ i ∈ k.diffs, i < h.next := fun k hk i hi => r.alloc i (List.mem_flatMap.2 ⟨k, hk, hi⟩)
  obtain ⟨out, h1, h2, h3⟩ := blendLoop_blent m.hunks { heap := h, hunks := [], src := 1, dst := 1, lines := split c }
    (fun k hk => by cases hk) hk
  have e := blend_ext m h c
  rw [List.nil_append] at h1
  refine ⟨blend_alloc m h c r.alloc, r.normal, ?_, ?_, ?_⟩
  · intro i hi; rw [e.2 i (r.alloc i hi)]; exact r.same i hi
  · intro i hi ht; rw [e.2 i (r.alloc i hi)] at ht; exact r.cover i hi ht
  · have q : (m.blend h c).1.hunks = out := h1
    rw [q]; exact h2

/-! ### What is saved -/

theorem Overlaid.saved {h : Heap} {m : DModel} {ks : List (Hunk Nat)} {c : Str} (r : Overlaid h m ks c) :
    m.savedText h = (overlay HView.kept 1 (ks.map (Hunk.view h)) (split c)).flatten := by
  rw [savedText_view, ← view_diffs, List.flatMap_assoc]
  have hs : DView.saved = fun d : DView => if d.applied then d.src else d.dst := by
    funext d; unfold Spec.DView.saved; cases d.applied <;> rfl
  rw [hs, blent_overlay _ (fun d _ he => ?_) r.blent]
  · rfl
  · have e1 : d.view.src = d.srcText := rfl
    have e2 : d.view.dst = d.dstText := rfl
    rw [e1, e2, he]; simp

theorem overlay_congr {f g : HView → List Str} {ks : List HView} (hfg : ∀ k ∈ ks, f k = g k) (line : Int) (file : List Str) :
    overlay f line ks file = overlay g line ks file := by
  induction ks generalizing line file with
  | nil => rfl
  | cons k ks ih =>
    simp only [overlay]
    rw [hfg k (by simp), ih (fun x hx => hfg x (List.mem_cons_of_mem _ hx))]

theorem Overlaid.kept {h : Heap} {m : DModel} {ks : List (Hunk Nat)} {c : Str} (r : Overlaid h m ks c) (b : Bool)
    (hb : ∀ d ∈ m.differences, (h.cell d).applied = b) :
    ∀ k ∈ ks.map (Hunk.view h), k.kept = if b then k.old else k.new := by
  intro v hv
  obtain ⟨k, hk, rfl⟩ := List.mem_map.1 hv
  have : ∀ i ∈ k.diffs, (if ((h.cell i).view).applied then ((h.cell i).view).src else ((h.cell i).view).dst) =
      if b then ((h.cell i).view).src else ((h.cell i).view).dst := by
    intro i hi
    have hi' : i ∈ ks.flatMap (fun k => k.diffs) := List.mem_flatMap.2 ⟨k, hk, hi⟩
    by_cases ht : (h.cell i).type = .Unchanged
    · have e : ((h.cell i).view).src = ((h.cell i).view).dst := r.same i hi' ht
      rw [e]; simp
    · have e : ((h.cell i).view).applied = b := hb i (r.cover i hi' ht)
      rw [e]
  unfold HView.kept HView.old HView.new Hunk.view
  simp only [List.flatMap_map]
  cases b
  · simp only [Bool.false_eq_true, if_false] at this ⊢
    simp only [List.flatMap]
    congr 1
    exact List.map_congr_left this
  · simp only [if_true] at this ⊢
    simp only [List.flatMap]
    congr 1
    exact List.map_congr_left this

theorem Overlaid.all {h : Heap} {m : DModel} {ks : List (Hunk Nat)} {c : Str} (r : Overlaid h m ks c) (b : Bool)
    (hb : ∀ d ∈ m.differences, (h.cell d).applied = b) :
    m.savedText h = (overlay (if b then HView.old else HView.new) 1 (ks.map (Hunk.view h)) (split c)).flatten := by
  rw [r.saved]
  congr 1
  apply overlay_congr
  intro k hk
  rw [r.kept b hb k hk]
  cases b <;> rfl

theorem unmarked_old (k : HView) : k.unmarked.old = k.old := by
  unfold HView.old HView.unmarked; simp [List.flatMap_map]
theorem unmarked_new (k : HView) : k.unmarked.new = k.new := by
  unfold HView.new HView.unmarked; simp [List.flatMap_map]

theorem overlay_unmarked {f : HView → List Str} (hf : ∀ k, f k.unmarked = f k) (ks : List HView) (line : Int) (file : List Str) :
    overlay f line (ks.map HView.unmarked) file = overlay f line ks file := by
  induction ks generalizing line file with
  | nil => rfl
  | cons k ks ih =>
    simp only [List.map_cons, overlay, ih, hf, unmarked_old]
    rfl

theorem unmarked_same {h h' : Heap} (e : ∀ j, Diff.Same (h.cell j) (h'.cell j)) (k : Hunk Nat) : (k.view h').unmarked = (k.view h).unmarked := by
  unfold HView.unmarked Hunk.view
  simp only [List.map_map, HView.mk.injEq, true_and]
  apply List.map_congr_left
  intro i _
  simp only [Function.comp, Diff.view, Diff.srcText, Diff.dstText, (e i).type, (e i).sourceLineNo, (e i).destLineNo, (e i).source, (e i).dest, (e i).conflicts]

/-! ### Lists of models -/

theorem blendFile_overlaid {s : MLState} {ms : List Nat} (h : Opened s ms) (w : WF s) {m : Nat} (hm : m ∈ ms) {c : Str}
    (hB : Raw s.heap (s.store m)) :
    ∃ s', s.blendFile m c = Res.ok s' ∧ Opened s' ms ∧ WF s' ∧ Keep s s' ∧ Selected s' ms ∧ s.heap.Ext s'.heap ∧
      (∀ x, x ≠ m → (s'.store x).hunks = (s.store x).hunks) ∧ (∀ x, (s'.store x).source = (s.store x).source) ∧
      Overlaid s'.heap (s'.store m) (s.store m).hunks c := by
  obtain ⟨s', m0, d, h1, ho, hw, hk, ha, hot, hh, hhe, hsrc⟩ := blendFile_ok h w hm c
  refine ⟨s', h1, ho, hw, hk, ⟨0, 0, m0, d, ha⟩, ?_, ?_, hsrc, ?_⟩
  · rw [hhe]; exact blend_ext _ _ _
  · intro x hx; exact hot.hunks x (by simpa using hx)
  · rw [hhe]
    exact (blend_overlaid hB c).ext hh (hk.differences m) (.refl _)

theorem blendDirLoop_overlaid (e : Env) (dir : Str) (l : List Nat) {s : MLState} {ms : List Nat} (hl : ∀ m ∈ l, m ∈ ms) (hnd : l.Nodup)
    (h : Opened s ms) (w : WF s) (hs : Selected s ms) (b : Bool) (hB : ∀ m ∈ l, Raw s.heap (s.store m)) :
    ∃ s', MLState.blendDirLoop e dir l s b = Res.ok (s', if l = [] then b else true) ∧ Opened s' ms ∧ WF s' ∧ Keep s s' ∧ Selected s' ms ∧ s.heap.Ext s'.heap ∧
      (∀ x, x ∉ l → (s'.store x).hunks = (s.store x).hunks) ∧ (∀ x, (s'.store x).source = (s.store x).source) ∧
      (∀ m ∈ l, Overlaid s'.heap (s'.store m) (s.store m).hunks (dirOriginal e dir (s.store m).source)) := by
  induction l generalizing s b with
  | nil => exact ⟨s, rfl, h, w, .refl s, hs, .refl _, fun _ _ => rfl, fun _ => rfl, fun _ hx => by simp at hx⟩
  | cons m l ih =>
    obtain ⟨s1, h1, o1, w1, k1, sel1, e1, hu1, so1, r1⟩ := blendFile_overlaid h w (hl m (by simp)) (c := dirOriginal e dir (s.store m).source) (hB m (by simp))
    have hml : m ∉ l := (List.nodup_cons.1 hnd).1
    obtain ⟨s2, h2, o2, w2, k2, sel2, e2, hu2, so2, r2⟩ := ih (fun x hx => hl x (List.mem_cons_of_mem _ hx)) (List.nodup_cons.1 hnd).2 o1 w1 sel1 true
      (fun x hx => (hB x (List.mem_cons_of_mem _ hx)).ext (hu1 x (fun q => hml (q ▸ hx))) (k1.differences x) e1)
    refine ⟨s2, ?_, o2, w2, k1.trans k2, sel2, e1.trans e2, ?_, fun x => (so2 x).trans (so1 x), ?_⟩
    · simp only [MLState.blendDirLoop]
      unfold dirOriginal at h1
      rw [h.model (hl m (by simp)), Res.bind_ok, h1, Res.bind_ok, h2]
      simp
    · intro x hx
      rw [hu2 x (fun q => hx (List.mem_cons_of_mem _ q)), hu1 x (fun q => hx (by simp [q]))]
    · intro x hx
      simp only [List.mem_cons] at hx
      rcases hx with rfl | hx
      · exact r1.ext (hu2 x hml) (k2.differences x) e2
      · rw [← so1 x, ← hu1 x (fun q => hml (q ▸ hx))]; exact r2 x hx

theorem blendOriginal_overlaid (e : Env) {s : MLState} {ms : List Nat} (h : Opened s ms) (w : WF s) (hs : Selected s ms) (url : Str)
    (hu : e.isDir url = true ∨ (e.isDir url = false ∧ e.isFile url = true ∧ ms.length = 1))
    (hB : ∀ m ∈ ms, Raw s.heap (s.store m)) :
    ∃ s', s.blendOriginal e url = Res.ok (s', true) ∧ Opened s' ms ∧ WF s' ∧ Keep s s' ∧ Selected s' ms ∧ s.heap.Ext s'.heap ∧
      (∀ x, (s'.store x).source = (s.store x).source) ∧
      (∀ m ∈ ms, Overlaid s'.heap (s'.store m) (s.store m).hunks (original e url (s.store m).source)) := by
  unfold MLState.blendOriginal
  rcases hu with hu | ⟨hu, hf, hl⟩
  · rw [if_pos hu, h.list, Res.bind_ok]
    simp only [original_eq, hu, if_true]
    obtain ⟨s', h1, h2, h3, h4, h5, h6, h7, h8, h9⟩ := blendDirLoop_overlaid e url ms (fun _ h => h) h.nodup h w hs false hB
    rw [if_neg h.ne] at h1
    exact ⟨s', h1, h2, h3, h4, h5, h6, h8, h9⟩
  · rw [if_neg (by rw [hu]; simp), if_pos hf, h.list, Res.bind_ok]
    simp only [original_eq, hu, Bool.false_eq_true, if_false]
    obtain ⟨m, hm⟩ : ∃ m, ms = [m] := by
      cases ms with
      | nil => simp at hl
      | cons m ms =>
        cases ms with
        | nil => exact ⟨m, rfl⟩
        | cons _ _ => simp at hl
    subst hm
    rw [show atR [m] 0 = Res.ok m from rfl, Res.bind_ok]
    obtain ⟨s1, h1, o1, w1, k1, sel1, e1, _, so1, r1⟩ := blendFile_overlaid h w (m := m) (by simp) (c := e.contents url) (hB m (by simp))
    rw [h1, Res.bind_ok]
    refine ⟨s1, rfl, o1, w1, k1, sel1, e1, so1, ?_⟩
    intro x hx
    simp only [List.mem_singleton] at hx
    subst hx
    exact r1

end KompareDiff2
