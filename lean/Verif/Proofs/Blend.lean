import Verif.Spec.Blend
import Verif.Proofs.Opening
import Verif.Proofs.UnifiedHunk
/-
Proofs about blending.
-/
namespace KompareDiff2
open Spec

/-- The hunk inserted for the lines `ls`. -/
def fillView (a b : Nat) (ls : List Str) : HView :=
  { srcLine := (a + 1 : Nat), dstLine := (b + 1 : Nat), function := [], type := .AddedByBlend,
    diffs := [{ type := .Unchanged, srcLine := (a + 1 : Nat), dstLine := (b + 1 : Nat), tracking := (a + 1 : Nat), src := ls, dst := ls,
                applied := false, unsaved := false, conflicts := false }] }

/-- No hunk for no lines. -/
def fills (a b : Nat) (ls : List Str) : List HView := if ls = [] then [] else [fillView a b ls]

/-- What blending produces. -/
inductive Blended : Nat → Nat → List HView → List Str → List HView → Prop where
  | done (a b : Nat) (rest : List Str) : Blended a b [] rest (fills a b rest)
  | hunk (a b : Nat) (k : HView) (ks : List HView) (keep mid file : List Str) (hv : List HView) :
      k.srcLine = (a + keep.length + 1 : Nat) → mid.length = k.old.length →
      Blended (a + keep.length + k.old.length) (b + keep.length + k.new.length) ks file hv →
      Blended a b (k :: ks) (keep ++ mid ++ file) (fills a b keep ++ k :: hv)

theorem blendFill_eq (keep rest : List Str) (d : Diff) (src dst limit : Int) (h : limit = src + keep.length) :
    blendFill limit d src dst (keep ++ rest) =
      (keep.foldl (fun d l => (d.addSource l).addDest l) d, src + keep.length, dst + keep.length, rest) := by
  induction keep generalizing d src dst with
  | nil =>
    cases rest with
    | nil => simp [blendFill]
    | cons l ls =>
      have : ¬ src < limit := by simp at h; omega
      simp [blendFill, this]
  | cons l ls ih =>
    have h' : src < limit := by simp at h; omega
    simp only [List.cons_append, blendFill, if_pos h', List.foldl_cons]
    rw [ih _ (src + 1) (dst + 1) (by simp at h; omega)]
    simp only [List.length_cons, Prod.mk.injEq, true_and, and_true]
    constructor <;> omega

theorem map_text_ofStr (ls : List Str) : (ls.map (fun l => DStr.ofStr l)).map DStr.string = ls := by
  induction ls with
  | nil => rfl
  | cons l ls ih => simp only [List.map_cons, ih]; rfl

/-- The new hunk as seen by a client. -/
theorem fill_hunk_view (h : Heap) (a b : Nat) (ls : List Str) :
    (Hunk.view (h.allocAll [ls.foldl (fun d l => (d.addSource l).addDest l) (Diff.new ((a : Int) + 1) ((b : Int) + 1) .Unchanged)]).2
      { sourceLine := (a : Int) + 1, destLine := (b : Int) + 1, function := [], type := .AddedByBlend,
        diffs := (h.allocAll [ls.foldl (fun d l => (d.addSource l).addDest l) (Diff.new ((a : Int) + 1) ((b : Int) + 1) .Unchanged)]).1 }) =
      fillView a b ls := by
  have hn := Heap.allocAll_new [ls.foldl (fun d l => (d.addSource l).addDest l) (Diff.new ((a : Int) + 1) ((b : Int) + 1) .Unchanged)] h
  unfold Hunk.view
  have : ∀ (f : Diff → DView) (ids : List Nat) (hp : Heap), ids.map (fun i => f (hp.cell i)) = (ids.map hp.cell).map f := by
    intro f ids hp; simp
  simp only
  rw [this Diff.view, hn, foldl_addBoth]
  simp only [fillView, List.map_cons, List.map_nil, Diff.view, Diff.new, Diff.srcText, Diff.dstText, List.nil_append, map_text_ofStr]
  simp

theorem slcOn_view (h : Heap) (k : Hunk Nat) : k.slcOn h = (k.view h).old.length := by
  unfold Hunk.slcOn Hunk.slc HView.old Hunk.view
  simp only [List.length_flatMap, List.map_map]
  congr 1
  apply List.map_congr_left
  intro i _
  simp [Diff.slc, Diff.view, Diff.srcText]

theorem dlcOn_view (h : Heap) (k : Hunk Nat) : k.dlcOn h = (k.view h).new.length := by
  unfold Hunk.dlcOn Hunk.dlc HView.new Hunk.view
  simp only [List.length_flatMap, List.map_map]
  congr 1
  apply List.map_congr_left
  intro i _
  simp [Diff.dlc, Diff.view, Diff.dstText]

/-- Where the hunks sit in a file; their text is not looked at. -/
inductive Located : Nat → List HView → List Str → Prop where
  | done (a : Nat) (rest : List Str) : Located a [] rest
  | hunk (a : Nat) (k : HView) (ks : List HView) (keep mid file : List Str) :
      k.srcLine = (a + keep.length + 1 : Nat) → mid.length = k.old.length →
      Located (a + keep.length + k.old.length) ks file →
      Located a (k :: ks) (keep ++ mid ++ file)

theorem located_of_patches {a : Nat} {ks : List HView} {file out : List Str} (h : Patches a (ks.map HView.edit) file out) :
    Located a ks file := by
  induction ks generalizing a file out with
  | nil => exact .done _ _
  | cons k ks ih =>
    rw [List.map_cons] at h
    cases h with
    | edit _ _ _ keep file out hl h => exact .hunk _ _ _ _ _ _ hl rfl (ih h)

/-- Views of the hunks collected so far do not change when the heap grows. -/
theorem hunks_view_ext {h h' : Heap} (e : h.Ext h') {ks : List (Hunk Nat)} (ha : ∀ k ∈ ks, ∀ i ∈ k.diffs, i < h.next) :
    ks.map (Hunk.view h') = ks.map (Hunk.view h) := by
  apply List.map_congr_left
  intro k hk
  exact Hunk.view_ext e k (ha k hk)

theorem blendTail_view (s : BlendState) (a b : Nat) (hs : s.src = (a : Int) + 1) (hd : s.dst = (b : Int) + 1)
    (ha : ∀ k ∈ s.hunks, ∀ i ∈ k.diffs, i < s.heap.next) :
    (blendTail s).hunks.map (Hunk.view (blendTail s).heap) = s.hunks.map (Hunk.view s.heap) ++ fills a b s.lines ∧
      (∀ k ∈ (blendTail s).hunks, ∀ i ∈ k.diffs, i < (blendTail s).heap.next) := by
  unfold blendTail
  split
  · rename_i e; rw [e]; simp only [fills, if_true, List.append_nil]; exact ⟨trivial, ha⟩
  · rename_i l ls e
    rw [e]
    simp only [fills, reduceCtorEq, if_false]
    rw [hs, hd]
    constructor
    · rw [List.map_append, hunks_view_ext (Heap.allocAll_ext _ _) ha]
      simp only [List.map_cons, List.map_nil]
      rw [fill_hunk_view]
    · intro k hk i hi
      rw [Heap.allocAll_next]
      rw [List.mem_append] at hk
      rcases hk with hk | hk
      · have := ha k hk i hi; omega
      · simp only [List.mem_singleton] at hk
        subst hk
        simp only [Heap.allocAll_ids, List.mem_range'_1] at hi
        exact hi.2

theorem blendBefore_view (k : Hunk Nat) (s : BlendState) (a b : Nat) (keep file : List Str) (hs : s.src = (a : Int) + 1) (hd : s.dst = (b : Int) + 1)
    (hk : k.sourceLine = (a + keep.length + 1 : Nat)) (hl : s.lines = keep ++ file)
    (ha : ∀ k ∈ s.hunks, ∀ i ∈ k.diffs, i < s.heap.next) :
    (blendBefore k s).hunks.map (Hunk.view (blendBefore k s).heap) = s.hunks.map (Hunk.view s.heap) ++ fills a b keep ∧
      (∀ k' ∈ (blendBefore k s).hunks, ∀ i ∈ k'.diffs, i < (blendBefore k s).heap.next) ∧
      (blendBefore k s).src = ((a + keep.length : Nat) : Int) + 1 ∧ (blendBefore k s).dst = ((b + keep.length : Nat) : Int) + 1 ∧
      (blendBefore k s).lines = file := by
  unfold blendBefore
  split
  · rename_i hlt
    have hne : keep ≠ [] := by intro q; rw [q] at hk; simp at hk; omega
    have hf := blendFill_eq keep file (Diff.new s.src s.dst .Unchanged) s.src s.dst k.sourceLine (by omega)
    rw [← hl] at hf
    rw [hf]
    simp only [fills, if_neg hne]
    rw [hs, hd]
    refine ⟨?_, ?_, by omega, by omega, trivial⟩
    · rw [List.map_append, hunks_view_ext (Heap.allocAll_ext _ _) ha]
      simp only [List.map_cons, List.map_nil]
      rw [fill_hunk_view]
    · intro k' hk' i hi
      rw [Heap.allocAll_next]
      rw [List.mem_append] at hk'
      rcases hk' with hk' | hk'
      · have := ha k' hk' i hi; omega
      · simp only [List.mem_singleton] at hk'
        subst hk'
        simp only [Heap.allocAll_ids, List.mem_range'_1] at hi
        exact hi.2
  · rename_i hlt
    have hne : keep = [] := by
      apply List.length_eq_zero_iff.1
      omega
    subst hne
    simp only [fills, if_true, List.append_nil, List.length_nil, Nat.add_zero]
    exact ⟨trivial, ha, hs, hd, by simpa using hl⟩

theorem blendLoop_view (ks : List (Hunk Nat)) (s : BlendState) (a b : Nat) (hs : s.src = (a : Int) + 1) (hd : s.dst = (b : Int) + 1)
    (ha : ∀ k ∈ s.hunks, ∀ i ∈ k.diffs, i < s.heap.next) (hk : ∀ k ∈ ks, ∀ i ∈ k.diffs, i < s.heap.next)
    (hloc : Located a (ks.map (Hunk.view s.heap)) s.lines) :
    ∃ hv, Blended a b (ks.map (Hunk.view s.heap)) s.lines hv ∧
      (blendTail (blendLoop ks s)).hunks.map (Hunk.view (blendTail (blendLoop ks s)).heap) = s.hunks.map (Hunk.view s.heap) ++ hv ∧
      (∀ k ∈ (blendTail (blendLoop ks s)).hunks, ∀ i ∈ k.diffs, i < (blendTail (blendLoop ks s)).heap.next) := by
  induction ks generalizing s a b with
  | nil =>
    simp only [blendLoop, List.map_nil]
    obtain ⟨h1, h2⟩ := blendTail_view s a b hs hd ha
    exact ⟨_, .done _ _ _, h1, h2⟩
  | cons k ks ih =>
    rw [List.map_cons] at hloc
    generalize hL : s.lines = L at hloc
    cases hloc with
    | hunk _ _ _ keep mid file h1 h2 h3 =>
      rw [List.append_assoc] at hL
      obtain ⟨e1, e2, e3, e4, e5⟩ := blendBefore_view k s a b keep (mid ++ file) hs hd h1 hL ha
      have hext := blendBefore_ext k s
      have hv1 : k.view (blendBefore k s).heap = k.view s.heap := Hunk.view_ext hext k (hk k (by simp))
      have hvs : ks.map (Hunk.view (blendBefore k s).heap) = ks.map (Hunk.view s.heap) :=
        hunks_view_ext hext (fun k' hk' => hk k' (List.mem_cons_of_mem _ hk'))
      have hslc : k.slcOn (blendBefore k s).heap = (k.view s.heap).old.length := by rw [slcOn_view, hv1]
      have hdlc : k.dlcOn (blendBefore k s).heap = (k.view s.heap).new.length := by rw [dlcOn_view, hv1]
      simp only [blendLoop]
      rw [hslc, hdlc, e3, e4, e5, ← h2, List.drop_left]
      generalize blendBefore k s = t at *
      obtain ⟨hv, g1, g2, g3⟩ := ih ⟨t.heap, t.hunks ++ [k], ((a + keep.length : Nat) : Int) + 1 + mid.length,
          ((b + keep.length : Nat) : Int) + 1 + (k.view s.heap).new.length, file⟩
        (a + keep.length + (k.view s.heap).old.length) (b + keep.length + (k.view s.heap).new.length)
        (by simp only; rw [h2]; omega) (by simp only; omega)
        (by
          intro k' hk' i hi
          simp only [List.mem_append, List.mem_singleton] at hk'
          rcases hk' with hk' | rfl
          · exact e2 k' hk' i hi
          · exact Nat.lt_of_lt_of_le (hk k' (by simp) i hi) hext.1)
        (fun k' hk' i hi => Nat.lt_of_lt_of_le (hk k' (List.mem_cons_of_mem _ hk') i hi) hext.1)
        (by simp only; rw [hvs]; exact h3)
      simp only at g1 g2 g3
      refine ⟨fills a b keep ++ k.view s.heap :: hv, ?_, ?_, g3⟩
      · rw [List.map_cons]
        rw [hvs] at g1
        exact .hunk _ _ _ _ _ _ _ _ h1 h2 g1
      · rw [g2, List.map_append, List.map_cons, List.map_nil, e1, hv1]
        simp

/-- Blending a model whose hunks fit into the file. -/
theorem blend_blended {m : DModel} {h : Heap} {contents : Str} (ha : ∀ i ∈ m.hunkIds, i < h.next)
    (hloc : Located 0 (m.hunks.map (Hunk.view h)) (split contents)) :
    Blended 0 0 (m.hunks.map (Hunk.view h)) (split contents) ((m.blend h contents).1.hunks.map (Hunk.view (m.blend h contents).2)) ∧
      (∀ i ∈ (m.blend h contents).1.hunkIds, i < (m.blend h contents).2.next) := by
  obtain ⟨hv, h1, h2, h3⟩ := blendLoop_view m.hunks { heap := h, hunks := [], src := 1, dst := 1, lines := split contents } 0 0 rfl rfl
    (by intro k hk; simp at hk)
    (by
      intro k hk i hi
      exact ha i (by rw [DModel.hunkIds, List.mem_flatMap]; exact ⟨k, hk, hi⟩)) hloc
  simp only [List.map_nil, List.nil_append] at h1 h2 h3
  unfold DModel.blend
  simp only
  rw [h2]
  refine ⟨h1, ?_⟩
  intro i hi
  rw [DModel.hunkIds, List.mem_flatMap] at hi
  obtain ⟨k, hk, hi⟩ := hi
  exact h3 k hk i hi

/-! ### What follows from the shape -/

theorem fills_old (a b : Nat) (ls : List Str) : (fills a b ls).flatMap HView.old = ls := by
  unfold fills
  split
  · rename_i h; rw [h]; rfl
  · simp [fillView, HView.old]

theorem fills_new (a b : Nat) (ls : List Str) : (fills a b ls).flatMap HView.new = ls := by
  unfold fills
  split
  · rename_i h; rw [h]; rfl
  · simp [fillView, HView.new]

theorem fills_type {a b : Nat} {ls : List Str} {k : HView} (h : k ∈ fills a b ls) : k.type = .AddedByBlend := by
  unfold fills at h
  split at h
  · simp at h
  · simp only [List.mem_singleton] at h; subst h; rfl

theorem append_split {α} {a a' b b' : List α} (h : a ++ b = a' ++ b') (hl : a.length = a'.length) : a = a' ∧ b = b' :=
  List.append_inj h hl

theorem patches_unique {a : Nat} {es : List Edit} {file out out' : List Str} (h : Patches a es file out) (h' : Patches a es file out') :
    out = out' := by
  induction h generalizing out' with
  | done pos rest => cases h'; rfl
  | edit pos e es keep file out hl h ih =>
    generalize hF : keep ++ e.old ++ file = F at h'
    cases h' with
    | edit _ _ _ keep' file' out'' hl' h2 =>
      have hk : keep.length = keep'.length := by omega
      rw [List.append_assoc, List.append_assoc] at hF
      obtain ⟨rfl, h3⟩ := append_split hF hk
      obtain ⟨-, rfl⟩ := append_split h3 rfl
      rw [ih h2]

theorem blended_lines {a b : Nat} {ks hv : List HView} {file out : List Str} (h : Blended a b ks file hv)
    (hp : Patches a (ks.map HView.edit) file out) : hv.flatMap HView.old = file ∧ hv.flatMap HView.new = out := by
  induction h generalizing out with
  | done a b rest => cases hp; exact ⟨fills_old _ _ _, fills_new _ _ _⟩
  | hunk a b k ks keep mid file hv h1 h2 h3 ih =>
    rw [List.map_cons] at hp
    generalize hF : keep ++ mid ++ file = F at hp
    cases hp with
    | edit _ _ _ keep' file' out' hl' hp =>
      have hk : keep.length = keep'.length := by
        have : (k.edit).line = k.srcLine := rfl
        omega
      rw [List.append_assoc, List.append_assoc] at hF
      obtain ⟨rfl, h4⟩ := append_split hF hk
      obtain ⟨rfl, rfl⟩ := append_split h4 (by rw [h2]; rfl)
      obtain ⟨i1, i2⟩ := ih hp
      simp only [List.flatMap_append, List.flatMap_cons, fills_old, fills_new, i1, i2]
      exact ⟨(List.append_assoc _ _ _).symm, (List.append_assoc _ _ _).symm⟩

theorem blended_filter {a b : Nat} {ks hv : List HView} {file : List Str} (h : Blended a b ks file hv) (hn : ∀ k ∈ ks, k.type ≠ .AddedByBlend) :
    hv.filter (fun k => decide (k.type ≠ .AddedByBlend)) = ks := by
  have hf : ∀ a b ls, (fills a b ls).filter (fun k => decide (k.type ≠ .AddedByBlend)) = [] := by
    intro a b ls
    rw [List.filter_eq_nil_iff]
    intro k hk
    simp [fills_type hk]
  induction h with
  | done a b rest => exact hf _ _ _
  | hunk a b k ks keep mid file hv h1 h2 h3 ih =>
    rw [List.filter_append, hf, List.nil_append, List.filter_cons, if_pos (by simpa using hn k (by simp)), ih (fun k hk => hn k (List.mem_cons_of_mem _ hk))]

theorem blended_added {a b : Nat} {ks hv : List HView} {file : List Str} (h : Blended a b ks file hv) (hn : ∀ k ∈ ks, k.type ≠ .AddedByBlend)
    {k : HView} (hk : k ∈ hv) (ht : k.type = .AddedByBlend) : ∃ a b ls, ls ≠ [] ∧ k = fillView a b ls := by
  have hf : ∀ a b ls, k ∈ fills a b ls → ∃ a b ls, ls ≠ [] ∧ k = fillView a b ls := by
    intro a b ls h
    unfold fills at h
    split at h
    · simp at h
    · rename_i hne; simp only [List.mem_singleton] at h; exact ⟨a, b, ls, hne, h⟩
  induction h with
  | done a b rest => exact hf _ _ _ hk
  | hunk a b k' ks keep mid file hv h1 h2 h3 ih =>
    simp only [List.mem_append, List.mem_cons] at hk
    rcases hk with hk | rfl | hk
    · exact hf _ _ _ hk
    · exact absurd ht (hn _ (by simp))
    · exact ih (fun k hk => hn k (List.mem_cons_of_mem _ hk)) hk

/-- Every hunk stands where the hunks before it end. -/
def Placed : Nat → Nat → List HView → Prop
  | _, _, [] => True
  | a, b, k :: ks => k.srcLine = (a + 1 : Nat) ∧ (k.type = .AddedByBlend → k.dstLine = (b + 1 : Nat)) ∧
      Placed (a + k.old.length) (b + k.new.length) ks

theorem blended_placed {a b : Nat} {ks hv : List HView} {file : List Str} (h : Blended a b ks file hv) (hn : ∀ k ∈ ks, k.type ≠ .AddedByBlend) :
    Placed a b hv := by
  induction h with
  | done a b rest =>
    unfold fills; split
    · trivial
    · exact ⟨rfl, fun _ => rfl, trivial⟩
  | hunk a b k ks keep mid file hv h1 h2 h3 ih =>
    have hk := ih (fun k hk => hn k (List.mem_cons_of_mem _ hk))
    unfold fills; split
    · rename_i e; subst e
      exact ⟨h1, fun q => absurd q (hn _ (by simp)), hk⟩
    · have e1 : (fillView a b keep).old = keep := by simp [fillView, HView.old]
      have e2 : (fillView a b keep).new = keep := by simp [fillView, HView.new]
      refine ⟨rfl, fun _ => rfl, ?_⟩
      rw [e1, e2]
      exact ⟨h1, fun q => absurd q (hn _ (by simp)), hk⟩

theorem placed_split {a b : Nat} {hv : List HView} (h : Placed a b hv) : ∀ (pre : List HView) (k : HView) (post : List HView), hv = pre ++ k :: post →
    k.srcLine = ((a + (pre.flatMap HView.old).length + 1 : Nat) : Int) ∧
      (k.type = .AddedByBlend → k.dstLine = ((b + (pre.flatMap HView.new).length + 1 : Nat) : Int)) := by
  induction hv generalizing a b with
  | nil => intro pre k post e; simp at e
  | cons x hv ih =>
    intro pre k post e
    cases pre with
    | nil => simp only [List.nil_append, List.cons.injEq] at e; obtain ⟨rfl, rfl⟩ := e; exact ⟨h.1, h.2.1⟩
    | cons y pre =>
      simp only [List.cons_append, List.cons.injEq] at e
      obtain ⟨rfl, rfl⟩ := e
      obtain ⟨h1, h2⟩ := ih h.2.2 pre k post rfl
      simp only [List.flatMap_cons, List.length_append]
      refine ⟨by rw [h1]; congr 1; omega, fun q => by rw [h2 q]; congr 1; omega⟩

/-! ### The saved text -/

/-- The lines written for a difference. -/
def Spec.DView.saved (d : DView) : List Str := if d.applied = false then d.dst else d.src

/-- Source line numbers run through. -/
def SrcContig : Int → List DView → Prop
  | _, [] => True
  | a, v :: vs => v.srcLine = a ∧ SrcContig (a + v.src.length) vs

theorem srcContig_append {a : Int} {xs ys : List DView} :
    SrcContig a (xs ++ ys) ↔ SrcContig a xs ∧ SrcContig (a + (xs.flatMap DView.src).length) ys := by
  induction xs generalizing a with
  | nil => simp [SrcContig]
  | cons x xs ih =>
    simp only [List.cons_append, SrcContig, ih, List.flatMap_cons, List.length_append, and_assoc]
    rw [show a + (x.src.length : Int) + ((xs.flatMap DView.src).length : Int) = a + ((x.src.length + (xs.flatMap DView.src).length : Nat) : Int) by omega]

theorem contiguous_src {a b : Int} {vs : List DView} (h : Contiguous a b vs) : SrcContig a vs := by
  induction vs generalizing a b with
  | nil => trivial
  | cons v vs ih => exact ⟨h.1, ih h.2.2⟩

theorem patches_prepend {a b : Nat} {es : List Edit} {file out : List Str} (p : List Str) (hb : b = a + p.length) (h : Patches b es file out) :
    Patches a es (p ++ file) (p ++ out) := by
  subst hb
  cases h with
  | done => exact .done _ _
  | edit _ e es keep file out hl h =>
    have := Patches.edit a e es (p ++ keep) file out (by rw [hl]; simp; omega) (by
      rw [List.length_append, ← Nat.add_assoc]; exact h)
    simpa [List.append_assoc] using this

/-- Applying the changes that are not marked as applied gives what is saved. -/
theorem patches_saved {a : Nat} {ds : List DView} (h : SrcContig ((a : Int) + 1) ds) (hu : ∀ d ∈ ds, d.type = .Unchanged → d.src = d.dst) :
    Patches a ((ds.filter (fun d => decide (d.type ≠ .Unchanged ∧ d.applied = false))).map DView.edit) (ds.flatMap DView.src)
      (ds.flatMap DView.saved) := by
  induction ds generalizing a with
  | nil => exact .done _ _
  | cons d ds ih =>
    have h2 := ih (a := a + d.src.length) (by
      have := h.2
      rw [show ((a + d.src.length : Nat) : Int) + 1 = (a : Int) + 1 + d.src.length by omega]; exact this)
      (fun d hd => hu d (List.mem_cons_of_mem _ hd))
    simp only [List.flatMap_cons]
    rw [List.filter_cons]
    split
    · rename_i hc
      simp only [decide_eq_true_eq] at hc
      rw [List.map_cons]
      have hs : d.saved = d.dst := by simp [DView.saved, hc.2]
      rw [hs]
      have := Patches.edit a d.edit _ [] _ _ (by show d.srcLine = _; rw [h.1]; simp) (show Patches (a + 0 + d.src.length) _ _ _ from h2)
      exact this
    · rename_i hc
      simp only [decide_eq_true_eq, not_and] at hc
      have hs : d.saved = d.src := by
        unfold DView.saved
        split
        · rename_i ha
          exact (hu d (by simp) (by
            cases ht : d.type <;> first | rfl | exact absurd ha (hc (by simp [ht])))).symm
        · rfl
      rw [hs]
      exact patches_prepend _ rfl h2

theorem blended_diffs {a b : Nat} {ks hv : List HView} {file : List Str} (h : Blended a b ks file hv)
    (hk : ∀ k ∈ ks, Contiguous k.srcLine k.dstLine k.diffs) : SrcContig ((a : Int) + 1) (hv.flatMap HView.diffs) := by
  have hf : ∀ (a b : Nat) (ls : List Str), SrcContig ((a : Int) + 1) ((fills a b ls).flatMap HView.diffs) := by
    intro a b ls
    unfold fills; split
    · trivial
    · exact ⟨by simp, trivial⟩
  have hfl : ∀ (a b : Nat) (ls : List Str), (((fills a b ls).flatMap HView.diffs).flatMap DView.src) = ls := by
    intro a b ls
    have := fills_old a b ls
    rw [List.flatMap_assoc]
    exact this
  induction h with
  | done a b rest => exact hf _ _ _
  | hunk a b k ks keep mid file hv h1 h2 h3 ih =>
    rw [List.flatMap_append, List.flatMap_cons, srcContig_append, hfl, srcContig_append]
    have hc := contiguous_src (hk k (by simp))
    rw [h1] at hc
    refine ⟨hf _ _ _, ?_, ?_⟩
    · rw [show (a : Int) + 1 + keep.length = ((a + keep.length + 1 : Nat) : Int) by omega]; exact hc
    · have := ih (fun k hk' => hk k (List.mem_cons_of_mem _ hk'))
      rw [show (a : Int) + 1 + keep.length + (k.diffs.flatMap DView.src).length = ((a + keep.length + k.old.length : Nat) : Int) + 1 by
        simp only [HView.old]; omega]
      exact this

/-! ### The lines inside the hunks are not looked at -/

theorem blended_unchecked {a b : Nat} {ks hv hv' : List HView} {file file' out : List Str} {es' : List Edit} (h : Blended a b ks file hv)
    (h' : Blended a b ks file' hv') (he : es'.map (fun e => (e.line, e.old.length, e.new)) = ks.map (fun k => (k.edit.line, k.edit.old.length, k.edit.new)))
    (hp : Patches a (ks.map HView.edit) file out) (hp' : Patches a es' file' out) : hv = hv' := by
  induction h generalizing file' hv' out es' with
  | done a b rest =>
    cases h'
    cases hp
    rw [List.map_nil, List.map_eq_nil_iff] at he
    subst he
    cases hp'
    rfl
  | hunk a b k ks keep mid file hv h1 h2 h3 ih =>
    cases es' with
    | nil => simp at he
    | cons e' es' =>
      simp only [List.map_cons, List.cons.injEq, Prod.mk.injEq] at he
      obtain ⟨⟨e1, e2, e3⟩, he⟩ := he
      rw [List.map_cons] at hp
      generalize hF : keep ++ mid ++ file = F at hp
      generalize hO : out = O at hp'
      cases hp with
      | edit _ _ _ keepA fileA outA hlA hpA =>
        cases hp' with
        | edit _ _ _ keepB fileB outB hlB hpB =>
          have q1 : (k.edit).line = k.srcLine := rfl
          have q2 : (k.edit).old = k.old := rfl
          rw [List.append_assoc, List.append_assoc] at hF hO
          obtain ⟨rfl, hF2⟩ := append_split hF (by omega)
          obtain ⟨rfl, rfl⟩ := append_split hF2 (by rw [h2]; rfl)
          obtain ⟨rfl, hO2⟩ := append_split hO (by omega)
          obtain ⟨-, rfl⟩ := append_split hO2 (by rw [e3])
          generalize hG : keep ++ e'.old ++ fileB = G at h'
          cases h' with
          | hunk _ _ _ _ keepC midC fileC hvC g1 g2 g3 =>
            rw [List.append_assoc, List.append_assoc] at hG
            obtain ⟨rfl, hG2⟩ := append_split hG (by omega)
            obtain ⟨rfl, rfl⟩ := append_split hG2 (by rw [e2, g2, q2])
            rw [e2] at hpB
            rw [ih g3 he hpA hpB]

/-! ### Calls on the model -/

theorem run_same {ops : List MOp} {s s' : DModel × Heap} (h : runOps ops s = Res.ok s') :
    s'.1.hunks = s.1.hunks ∧ s'.1.differences = s.1.differences ∧ ∀ j, Diff.Same (s.2.cell j) (s'.2.cell j) := by
  induction ops generalizing s with
  | nil => simp only [runOps, Res.ok.injEq] at h; subst h; exact ⟨rfl, rfl, fun _ => .refl _⟩
  | cons op ops ih =>
    simp only [runOps, Res.bind_eq_ok] at h
    obtain ⟨t, h1, h2⟩ := h
    obtain ⟨i1, i2, i3⟩ := ih h2
    exact ⟨i1.trans (hunks_op h1), i2.trans (diffs_op h1).1, fun j => (same_op h1 j).trans (i3 j)⟩

/-- The differences of the hunks of a model. -/
theorem view_diffs (m : DModel) (h : Heap) : (m.hunks.map (Hunk.view h)).flatMap HView.diffs = m.hunkIds.map (fun i => (h.cell i).view) := by
  unfold DModel.hunkIds
  induction m.hunks with
  | nil => rfl
  | cons k ks ih => simp only [List.map_cons, List.flatMap_cons, ih, List.map_append, Hunk.view]

theorem savedText_view (m : DModel) (h : Heap) : m.savedText h = ((m.hunkIds.map (fun i => (h.cell i).view)).flatMap DView.saved).flatten := by
  unfold DModel.savedText
  rw [List.flatMap_map]
  rfl

/-- Everything a client sees of two differences except the marks. -/
theorem srcContig_same {h h' : Heap} (hs : ∀ j, Diff.Same (h.cell j) (h'.cell j)) {ids : List Nat} {a : Int}
    (hc : SrcContig a (ids.map (fun i => (h.cell i).view))) : SrcContig a (ids.map (fun i => (h'.cell i).view)) := by
  induction ids generalizing a with
  | nil => trivial
  | cons i is ih =>
    refine ⟨(hs i).sourceLineNo.trans hc.1, ?_⟩
    have e : ((h'.cell i).view).src = ((h.cell i).view).src := by simp [Diff.view, Diff.srcText, (hs i).source]
    simp only [] at hc ⊢
    rw [e]
    exact ih hc.2

theorem src_same {h h' : Heap} (hs : ∀ j, Diff.Same (h.cell j) (h'.cell j)) (ids : List Nat) :
    (ids.map (fun i => (h'.cell i).view)).flatMap DView.src = (ids.map (fun i => (h.cell i).view)).flatMap DView.src := by
  simp only [List.flatMap_map]
  congr 1
  funext i
  simp [Diff.view, Diff.srcText, (hs i).source]

theorem dst_same {h h' : Heap} (hs : ∀ j, Diff.Same (h.cell j) (h'.cell j)) (ids : List Nat) :
    (ids.map (fun i => (h'.cell i).view)).flatMap DView.dst = (ids.map (fun i => (h.cell i).view)).flatMap DView.dst := by
  simp only [List.flatMap_map]
  congr 1
  funext i
  simp [Diff.view, Diff.dstText, (hs i).dest]

end KompareDiff2
