import Verif.Proofs.UnifiedHunk
import Verif.Proofs.ParserHeap
import Verif.Proofs.NoHang
import Verif.Proofs.UnifiedDiff
import Verif.Spec.Parsed
/-
What the parser returns is well-structured, whatever the input.
-/
namespace KompareDiff2
open Spec

theorem inlineLoop_bare {t : LTable} {ss ds ss' ds' : List DStr} (h : inlineLoop t ss ds = Res.ok (ss', ds')) :
    ss'.map DStr.bare = ss.map DStr.bare ∧ ds'.map DStr.bare = ds.map DStr.bare := by
  induction ss generalizing t ds ss' ds' with
  | nil => simp only [inlineLoop, Res.ok.injEq, Prod.mk.injEq] at h; obtain ⟨rfl, rfl⟩ := h; exact ⟨rfl, rfl⟩
  | cons s ss ih =>
    cases ds with
    | nil => simp only [inlineLoop, Res.ok.injEq, Prod.mk.injEq] at h; obtain ⟨rfl, rfl⟩ := h; exact ⟨rfl, rfl⟩
    | cons d ds =>
      unfold inlineLoop at h
      obtain ⟨r, _, h⟩ := Res.bind_eq_ok.1 h
      simp only at h
      split at h
      all_goals
        obtain ⟨m, _, h⟩ := Res.bind_eq_ok.1 h
        obtain ⟨rest, hr, h⟩ := Res.bind_eq_ok.1 h
        simp only [Res.ok.injEq, Prod.mk.injEq] at h
        obtain ⟨rfl, rfl⟩ := h
        obtain ⟨h1, h2⟩ := ih (ss' := rest.1) (ds' := rest.2) hr
        exact ⟨by simp [DStr.bare, h1], by simp [DStr.bare, h2]⟩

theorem determineInline_view {d d' : Diff} (h : d.determineInline = Res.ok d') : d'.view = d.view := by
  unfold Diff.determineInline at h
  split at h
  · simp only [Res.ok.injEq] at h; rw [h]
  · split at h
    · simp only [Res.ok.injEq] at h; rw [h]
    · obtain ⟨r, hr, h⟩ := Res.bind_eq_ok.1 h
      simp only [Res.ok.injEq] at h
      obtain ⟨h1, h2⟩ := inlineLoop_bare (ss' := r.1) (ds' := r.2) hr
      apply bare_view
      rw [← h]
      simp [Diff.bare, h1, h2]

/-- View of a difference built by adding lines. -/
theorem built_view (a b : Int) (ty : DiffType) (ss ds : List Str) :
    Diff.view (ds.foldl Diff.addDest (ss.foldl Diff.addSource (Diff.new a b ty))) =
      { type := ty, srcLine := a, dstLine := b, tracking := a, src := ss, dst := ds, applied := false, unsaved := false, conflicts := false } := by
  rw [foldl_addDest, foldl_addSource]
  simp [Diff.view, Diff.new, Diff.srcText, Diff.dstText, DStr.ofStr, Function.comp_def]

theorem both_view (a b : Int) (ty : DiffType) (ss : List Str) :
    Diff.view (ss.foldl (fun d l => (d.addSource l).addDest l) (Diff.new a b ty)) =
      { type := ty, srcLine := a, dstLine := b, tracking := a, src := ss, dst := ss, applied := false, unsaved := false, conflicts := false } := by
  rw [foldl_addBoth]
  simp [Diff.view, Diff.new, Diff.srcText, Diff.dstText, DStr.ofStr, Function.comp_def]

theorem retype_view (d : Diff) (ty : DiffType) : Diff.view { d with type := ty } = { d.view with type := ty } := rfl

/-- The entries form a sound hunk starting at `a`, `b`. -/
def EntriesOk (S : DView → Prop) (a b : Int) (es : Entries) : Prop :=
  es.Flagged ∧ Contiguous a b (es.map (fun e => e.1.view)) ∧ ∀ e ∈ es, e.1.view.Fresh ∧ S e.1.view

theorem EntriesOk.nil (S : DView → Prop) (a b : Int) : EntriesOk S a b [] := ⟨by simp [Entries.Flagged], trivial, by simp⟩

theorem EntriesOk.cons {S : DView → Prop} {a b : Int} {e : Diff × Bool} {es : Entries}
    (hf : e.2 = decide (e.1.type ≠ .Unchanged)) (h1 : e.1.view.srcLine = a) (h2 : e.1.view.dstLine = b) (h3 : e.1.view.Fresh)
    (h4 : S e.1.view) (h : EntriesOk S (a + e.1.slc) (b + e.1.dlc) es) : EntriesOk S a b (e :: es) := by
  obtain ⟨i1, i2, i3⟩ := h
  refine ⟨?_, ?_, ?_⟩
  · intro x hx
    rcases List.mem_cons.1 hx with rfl | hx
    · exact hf
    · exact i1 x hx
  · simp only [List.map_cons, Contiguous]
    rw [view_slc, view_dlc]
    exact ⟨h1, h2, i2⟩
  · intro x hx
    rcases List.mem_cons.1 hx with rfl | hx
    · exact ⟨h3, h4⟩
    · exact i3 x hx

theorem takeRun_first {p : Char} {da db : Int} {l : Str} {ls : List Str} {a b : Int} (h : l.head? = some p) (hc : a ≠ 0 ∨ b ≠ 0) :
    (takeRun p da db (l :: ls) a b).1 ≠ [] := by
  unfold takeRun
  rw [if_pos ⟨h, hc⟩]
  simp

theorem takeRun_none {p : Char} {da db : Int} {l : Str} {ls : List Str} {a b : Int} (h : l.head? ≠ some p) :
    takeRun p da db (l :: ls) a b = ([], l :: ls, a, b) := by
  unfold takeRun
  rw [if_neg (fun x => h x.1)]

theorem unifiedType_view {d : Diff} : unifiedType d = if d.view.src = [] then .Insert else if d.view.dst = [] then .Delete else .Change := by
  unfold unifiedType
  rw [← view_slc, ← view_dlc]
  simp only [List.length_eq_zero_iff]

theorem unifiedStep_sound {l : Str} {ls : List Str} {a b ca cb : Int} {r} (hm : matchesUnifiedHunkLine l = Res.ok true)
    (hc : ca ≠ 0 ∨ cb ≠ 0) (h : unifiedStep l ls a b ca cb = Res.ok r) :
    r.1.2 = decide (r.1.1.type ≠ .Unchanged) ∧ r.1.1.view.srcLine = a ∧ r.1.1.view.dstLine = b ∧ r.1.1.view.Fresh ∧ r.1.1.view.SidesAgree := by
  unfold unifiedStep at h
  split at h
  · rename_i hsp
    simp only [Res.ok.injEq] at h
    rw [← h]
    unfold unifiedContext
    simp only
    have hv := both_view a b .Unchanged (takeRun ' ' 1 1 (l :: ls) ca cb).1
    have hne := takeRun_first (da := 1) (db := 1) (ls := ls) hsp hc
    have hv' : Diff.view (List.foldl (fun d l => (d.addSource l).addDest l) (Diff.new a b) (takeRun ' ' 1 1 (l :: ls) ca cb).1) = _ := hv
    refine ⟨?_, ?_, ?_, ?_, ?_⟩
    · have := congrArg DView.type hv'
      simp only [Diff.view] at this
      simp [this]
    · rw [hv']
    · rw [hv']
    · rw [hv']; exact ⟨rfl, rfl, rfl, rfl⟩
    · rw [hv']; exact ⟨rfl, hne⟩
  · rename_i hsp
    unfold unifiedChange at h
    simp only [Res.bind_eq_ok, Res.ok.injEq] at h
    obtain ⟨d', hd, h⟩ := h
    rw [← h]
    simp only
    have hv := (determineInline_view hd).trans (retype_view _ _)
    generalize hr1 : takeRun '-' 1 0 (l :: ls) ca cb = r1 at *
    generalize hr2 : takeRun '+' 0 1 r1.2.1 r1.2.2.1 r1.2.2.2 = r2 at *
    have hb : Diff.view (List.foldl Diff.addDest (List.foldl Diff.addSource (Diff.new a b) r1.1) r2.1) = _ := built_view a b .Unchanged r1.1 r2.1
    simp only [unifiedType_view, hb] at hv
    have hne : r1.1 ≠ [] ∨ r2.1 ≠ [] := by
      cases l with
      | nil => simp [matchesUnifiedHunkLine] at hm
      | cons c l' =>
        simp only [matchesUnifiedHunkLine, Res.ok.injEq, Bool.or_eq_true, decide_eq_true_eq] at hm
        simp only [List.head?_cons, Option.some.injEq] at hsp
        rcases hm with (hm | hm) | hm
        · exact absurd hm hsp
        · right
          have : takeRun '-' 1 0 ((c :: l') :: ls) ca cb = ([], (c :: l') :: ls, ca, cb) := takeRun_none (by simp [hm])
          rw [this] at hr1
          rw [← hr2, ← hr1]
          exact takeRun_first (by simp [hm]) hc
        · left
          rw [← hr1]
          exact takeRun_first (by simp [hm]) hc
    have hty : d'.type = d'.view.type := rfl
    refine ⟨?_, by rw [hv], by rw [hv], by rw [hv]; exact ⟨rfl, rfl, rfl, rfl⟩, ?_⟩
    · rw [hty, hv]
      simp only
      split
      · simp
      · split <;> simp
    · rw [hv]
      unfold DView.SidesAgree
      simp only
      by_cases h1 : r1.1 = []
      · rw [if_pos h1]
        exact ⟨h1, hne.resolve_left (fun h => h h1)⟩
      · rw [if_neg h1]
        by_cases h2 : r2.1 = []
        · rw [if_pos h2]; exact ⟨h1, h2⟩
        · rw [if_neg h2]; exact ⟨h1, h2⟩

theorem unifiedBody_sound {n : Nat} {ls : List Str} {a b ca cb : Int} {r} (h : unifiedBodyLoop n ls a b ca cb = Res.ok r) :
    EntriesOk DView.SidesAgree a b r.1 := by
  induction n generalizing ls a b ca cb r with
  | zero => simp [unifiedBodyLoop] at h
  | succ n ih =>
    cases ls with
    | nil => simp only [unifiedBodyLoop, Res.ok.injEq] at h; rw [← h]; exact EntriesOk.nil _ _ _
    | cons l ls =>
      simp only [unifiedBodyLoop] at h
      obtain ⟨mt, hm, h⟩ := Res.bind_eq_ok.1 h
      split at h
      · rename_i hc
        obtain ⟨s, hs, h⟩ := Res.bind_eq_ok.1 h
        obtain ⟨rest, hr, h⟩ := Res.bind_eq_ok.1 h
        simp only [Res.ok.injEq] at h
        rw [← h]
        obtain ⟨k1, k2, k3, k4, k5⟩ := unifiedStep_sound (hc.1 ▸ hm) hc.2 hs
        exact EntriesOk.cons k1 k2 k3 k4 k5 (ih hr)
      · simp only [Res.ok.injEq] at h; rw [← h]; exact EntriesOk.nil _ _ _

theorem startsRe_run {r : Re} {ls : List Str} (h : startsRe r ls = true) : (captureRun r ls).1 ≠ [] := by
  cases ls with
  | nil => simp [startsRe] at h
  | cons l ls =>
    simp only [startsRe] at h
    cases hr : r.full l with
    | none => rw [hr] at h; simp at h
    | some c => simp [captureRun, hr]

theorem contextUnchanged_ne {n : Nat} {os ns : List Str} (h1 : endOrContext os = true) (h2 : endOrContext ns = true) (h : os ≠ [] ∨ ns ≠ [])
    (hn : 0 < n) : (contextUnchanged n os ns).1 ≠ [] := by
  cases n with
  | zero => omega
  | succ n =>
    unfold contextUnchanged
    rw [if_pos ⟨h1, h2, h⟩]
    simp

theorem contextStep_sound {os ns : List Str} {a b : Int} {r} (hne : os ≠ [] ∨ ns ≠ []) (h : contextStep os ns a b = Res.ok (some r)) :
    r.1.2 = decide (r.1.1.type ≠ .Unchanged) ∧ r.1.1.view.srcLine = a ∧ r.1.1.view.dstLine = b ∧ r.1.1.view.Fresh ∧ r.1.1.view.SidesAgreeContext := by
  unfold contextStep at h
  split at h
  · rename_i h1
    simp only [Res.bind_eq_ok, Res.ok.injEq, Option.some.injEq] at h
    obtain ⟨d, hd, h⟩ := h
    rw [← h]
    have hv := determineInline_view hd
    have hb := built_view a b .Delete (captureRun reContextRemoved os).1 []
    rw [List.foldl_nil] at hb
    rw [hb] at hv
    have hty : d.type = d.view.type := rfl
    simp only
    rw [hty, hv]
    exact ⟨by simp, rfl, rfl, ⟨rfl, rfl, rfl, rfl⟩, ⟨startsRe_run h1, rfl⟩⟩
  · split at h
    · rename_i h1
      simp only [Res.bind_eq_ok, Res.ok.injEq, Option.some.injEq] at h
      obtain ⟨d, hd, h⟩ := h
      rw [← h]
      have hv := determineInline_view hd
      have hb := built_view a b .Insert [] (captureRun reContextAdded ns).1
      rw [List.foldl_nil] at hb
      rw [hb] at hv
      have hty : d.type = d.view.type := rfl
      simp only
      rw [hty, hv]
      exact ⟨by simp, rfl, rfl, ⟨rfl, rfl, rfl, rfl⟩, ⟨rfl, startsRe_run h1⟩⟩
    · split at h
      · rename_i h1
        simp only [Res.bind_eq_ok, Res.ok.injEq, Option.some.injEq] at h
        obtain ⟨d, hd, h⟩ := h
        rw [← h]
        have hv := determineInline_view hd
        have hb := both_view a b .Unchanged (contextUnchanged (os.length + ns.length) os ns).1
        rw [hb] at hv
        have hty : d.type = d.view.type := rfl
        simp only
        rw [hty, hv]
        refine ⟨by simp, rfl, rfl, ⟨rfl, rfl, rfl, rfl⟩, ⟨rfl, contextUnchanged_ne h1.1 h1.2 hne ?_⟩⟩
        rcases hne with h | h <;> have := List.length_pos_iff.2 h <;> omega
      · split at h
        · rename_i h1
          simp only [Res.bind_eq_ok, Res.ok.injEq, Option.some.injEq] at h
          obtain ⟨d, hd, h⟩ := h
          rw [← h]
          have hv := determineInline_view hd
          have hb := built_view a b .Change (captureRun reContextChanged os).1 (captureRun reContextChanged ns).1
          rw [hb] at hv
          have hty : d.type = d.view.type := rfl
          simp only
          rw [hty, hv]
          refine ⟨by simp, rfl, rfl, ⟨rfl, rfl, rfl, rfl⟩, ?_⟩
          rcases h1 with h1 | h1
          · exact .inl (startsRe_run h1)
          · exact .inr (startsRe_run h1)
        · simp at h

theorem contextBody_sound {n : Nat} {os ns : List Str} {a b : Int} {r} (h : contextBodyLoop n os ns a b = Res.ok r) :
    EntriesOk DView.SidesAgreeContext a b r.1 := by
  induction n generalizing os ns a b r with
  | zero => simp [contextBodyLoop] at h
  | succ n ih =>
    simp only [contextBodyLoop] at h
    split at h
    · simp only [Res.ok.injEq] at h; rw [← h]; exact EntriesOk.nil _ _ _
    · rename_i hne
      obtain ⟨s, hs, h⟩ := Res.bind_eq_ok.1 h
      cases s with
      | none => simp only [Res.ok.injEq] at h; rw [← h]; exact EntriesOk.nil _ _ _
      | some s =>
        obtain ⟨rest, hr, h⟩ := Res.bind_eq_ok.1 h
        simp only [Res.ok.injEq] at h
        rw [← h]
        have hne' : os ≠ [] ∨ ns ≠ [] := by
          by_cases h1 : os = []
          · exact .inr (fun h2 => hne ⟨h1, h2⟩)
          · exact .inl h1
        obtain ⟨k1, k2, k3, k4, k5⟩ := contextStep_sound hne' hs
        exact EntriesOk.cons k1 k2 k3 k4 k5 (ih hr)

theorem normalBody_sound (ty : DiffType) (hty : ty ≠ .Unchanged) (a b : Int) (ls : List Str) :
    ∃ ss ds, (normalHunkBody ty a b ls).1.view =
      { type := ty, srcLine := a, dstLine := b, tracking := a, src := ss, dst := ds, applied := false, unsaved := false, conflicts := false } ∧
      (ty = .Insert → ss = []) ∧ (ty = .Delete → ds = []) := by
  have key := fun ss : List Str => built_view a b ty ss []
  unfold normalHunkBody
  simp only
  generalize hx : (if ty = .Change ∨ ty = .Delete then captureRun reNormalBodyRemoved ls else ([], ls)) = r1
  have hr1 : ty = .Insert → r1.1 = [] := by
    intro h; rw [← hx, h]; rfl
  split
  · exact ⟨r1.1, [], key _, hr1, fun _ => rfl⟩
  · rename_i ls2 _
    refine ⟨r1.1, _, built_view a b ty r1.1 _, hr1, ?_⟩
    intro h; rw [h]; rfl

theorem normalHunkHeader_type {l : Str} {ty : DiffType} {a b : Int} (h : normalHunkHeader l = some (ty, a, b)) : ty ≠ .Unchanged := by
  unfold normalHunkHeader at h
  split at h
  · simp only [Option.some.injEq, Prod.mk.injEq] at h; rw [← h.1]; simp
  · split at h
    · simp only [Option.some.injEq, Prod.mk.injEq] at h; rw [← h.1]; simp
    · split at h
      · simp only [Option.some.injEq, Prod.mk.injEq] at h; rw [← h.1]; simp
      · simp at h

/-! ### The invariant of the loops -/

/-- The models found so far are sound; the current model is sound too and shares nothing with them. -/
structure Building (P : HView → Prop) (h0 : Heap) (st : PState) : Prop where
  ext : h0.Ext st.heap
  models : ∀ m ∈ st.models, Parsed P st.heap m ∧ m.differences ≠ [] ∧ ∀ i ∈ m.hunkIds, h0.next ≤ i
  cur : Parsed P st.heap st.cur ∧ ∀ i ∈ st.cur.hunkIds, h0.next ≤ i
  disjoint : (st.models.flatMap DModel.hunkIds ++ st.cur.hunkIds).Nodup

/-- The same without the current model. -/
structure FoundAll (P : HView → Prop) (h0 : Heap) (st : PState) : Prop where
  ext : h0.Ext st.heap
  models : ∀ m ∈ st.models, Parsed P st.heap m ∧ m.differences ≠ [] ∧ ∀ i ∈ m.hunkIds, h0.next ≤ i
  disjoint : (st.models.flatMap DModel.hunkIds).Nodup

theorem Building.congr {P : HView → Prop} {h0 : Heap} {st st' : PState} (b : Building P h0 st) (h1 : st'.heap = st.heap)
    (h2 : st'.models = st.models) (h3 : st'.cur = st.cur) : Building P h0 st' :=
  ⟨h1 ▸ b.ext, by rw [h1, h2]; exact b.models, by rw [h1, h3]; exact b.cur, by rw [h2, h3]; exact b.disjoint⟩

theorem FoundAll.congr {P : HView → Prop} {h0 : Heap} {st st' : PState} (b : FoundAll P h0 st) (h1 : st'.heap = st.heap)
    (h2 : st'.models = st.models) : FoundAll P h0 st' :=
  ⟨h1 ▸ b.ext, by rw [h1, h2]; exact b.models, by rw [h2]; exact b.disjoint⟩

theorem FoundAll.start {P : HView → Prop} {h0 : Heap} {st st' : PState} (b : FoundAll P h0 st) (h1 : st'.heap = st.heap)
    (h2 : st'.models = st.models) (hb : st'.cur.Blank) : Building P h0 st' := by
  have hi : st'.cur.hunkIds = [] := by simp [DModel.hunkIds, hb.hunks]
  refine ⟨h1 ▸ b.ext, by rw [h1, h2]; exact b.models, ⟨hb.parsed _, by simp [hi]⟩, ?_⟩
  rw [h2, hi, List.append_nil]; exact b.disjoint

theorem Building.addHunk {P : HView → Prop} {h0 : Heap} {st st' : PState} (b : Building P h0 st) (x y : Int) (f : Str) (es : Entries)
    (hf : es.Flagged) (hP : P (hunkView x y f es)) (h1 : st'.heap = (st.addHunk x y f es).heap)
    (h2 : st'.models = (st.addHunk x y f es).models) (h3 : st'.cur = (st.addHunk x y f es).cur) : Building P h0 st' := by
  apply Building.congr (st := st.addHunk x y f es) _ h1 h2 h3
  have hext := addHunk_ext st x y f es
  have hids := Heap.allocAll_ids (es.map Prod.fst) st.heap
  have hhunk : (st.addHunk x y f es).cur.hunkIds = st.cur.hunkIds ++ (st.heap.allocAll (es.map Prod.fst)).1 := by
    rw [addHunk_cur]; simp [DModel.hunkIds]
  have hmod : (st.addHunk x y f es).models = st.models := rfl
  refine ⟨b.ext.trans hext, ?_, ⟨addHunk_parsed st x y f es b.cur.1 hf hP, ?_⟩, ?_⟩
  · intro m hm
    rw [hmod] at hm
    obtain ⟨k1, k2, k3⟩ := b.models m hm
    exact ⟨k1.ext hext, k2, k3⟩
  · intro i hi
    rw [hhunk] at hi
    rcases List.mem_append.1 hi with hi | hi
    · exact b.cur.2 i hi
    · rw [hids] at hi
      have := (List.mem_range'_1.1 hi).1
      have := b.ext.1
      omega
  · rw [hmod, hhunk, ← List.append_assoc, List.nodup_append]
    refine ⟨b.disjoint, by rw [hids]; exact List.nodup_range', ?_⟩
    intro i hi j hj e
    subst e
    rw [hids] at hj
    have hge := (List.mem_range'_1.1 hj).1
    have hlt : i < st.heap.next := by
      rcases List.mem_append.1 hi with hi | hi
      · obtain ⟨m, hm, hi⟩ := List.mem_flatMap.1 hi
        exact (b.models m hm).1.alloc i hi
      · exact b.cur.1.alloc i hi
    omega

theorem Building.keep {P : HView → Prop} {h0 : Heap} {st st' : PState} (b : Building P h0 st) (h1 : st'.heap = st.keepModel.heap)
    (h2 : st'.models = st.keepModel.models) : FoundAll P h0 st' := by
  apply FoundAll.congr (st := st.keepModel) _ h1 h2
  unfold PState.keepModel
  split
  · rename_i hd
    refine ⟨b.ext, ?_, ?_⟩
    · intro m hm
      rcases List.mem_append.1 hm with hm | hm
      · exact b.models m hm
      · simp only [List.mem_singleton] at hm
        subst hm
        exact ⟨b.cur.1, fun e => by simp [e] at hd, b.cur.2⟩
    · simp only [List.flatMap_append, List.flatMap_cons, List.flatMap_nil, List.append_nil]
      exact b.disjoint
  · exact ⟨b.ext, b.models, (List.nodup_append.1 b.disjoint).1⟩

theorem checkHeader_same (r : Re) (st : PState) : (checkHeader r st).heap = st.heap ∧ (checkHeader r st).models = st.models ∧
    (checkHeader r st).cur = st.cur ∧ (checkHeader r st).single = st.single := by
  unfold checkHeader
  split
  · exact ⟨rfl, rfl, rfl, rfl⟩
  · split <;> exact ⟨rfl, rfl, rfl, rfl⟩

theorem keepModel_single (st : PState) : st.keepModel.single = st.single := by
  unfold PState.keepModel; split <;> rfl

/-- Loop rule with a separate condition for leaving the loop. -/
theorem fileLoop_rule {header : PState → Res (PState × Bool)} {hunks : PState → Res PState} {check : Re} {I J K : PState → Prop}
    (hH : ∀ st st', I st → header st = Res.ok (st', true) → J st')
    (hN : ∀ st st', I st → header st = Res.ok (st', false) → K st')
    (hB : ∀ st st', J st → hunks st = Res.ok st' → I (checkHeader check st'.keepModel)) :
    ∀ (n : Nat) (st st' : PState), I st → fileLoop header hunks check n st = Res.ok st' → K st' := by
  intro n
  induction n with
  | zero => intro st st' _ h; simp [fileLoop] at h
  | succ n ih =>
    intro st st' h0 h
    simp only [fileLoop] at h
    obtain ⟨⟨s1, b⟩, hr, h⟩ := Res.bind_eq_ok.1 h
    cases b with
    | false => simp only [if_true, Res.ok.injEq] at h; rw [← h]; exact hN st s1 h0 hr
    | true =>
      simp only [Bool.true_eq_false, if_false] at h
      obtain ⟨s2, h2, h⟩ := Res.bind_eq_ok.1 h
      exact ih _ st' (hB s1 s2 (hH st s1 h0 hr) h2) h

/-- A header only replaces the current model by a blank one and moves the position. -/
structure HeaderStep (st st' : PState) (found : Bool) : Prop where
  heap : st'.heap = st.heap
  models : st'.models = st.models
  single : found = true → st'.single = st.single
  lines : st'.lines = st.lines
  blank : found = true → st'.cur.Blank

theorem twoLineHeader_step {h1 h2 : Re} {mk : Caps → Caps → DModel} (hmk : ∀ c c', (mk c c').Blank) {st : PState} {ls : List Str} {st' : PState} {b : Bool}
    (h : twoLineHeader h1 h2 mk st ls = Res.ok (st', b)) : HeaderStep st st' b := by
  induction ls with
  | nil =>
    simp only [twoLineHeader, Res.ok.injEq, Prod.mk.injEq] at h
    obtain ⟨rfl, rfl⟩ := h
    exact ⟨rfl, rfl, by simp, rfl, by simp⟩
  | cons l ls ih =>
    simp only [twoLineHeader] at h
    split at h
    · exact ih h
    · split at h
      · simp at h
      · split at h
        · simp only [Res.ok.injEq, Prod.mk.injEq] at h
          obtain ⟨rfl, rfl⟩ := h
          exact ⟨rfl, rfl, fun _ => rfl, rfl, fun _ => hmk _ _⟩
        · simp only [Res.ok.injEq, Prod.mk.injEq] at h
          obtain ⟨rfl, rfl⟩ := h
          exact ⟨rfl, rfl, by simp, rfl, by simp⟩

theorem p4Header_step (st : PState) (ls : List Str) : HeaderStep st (p4Header st ls).1 (p4Header st ls).2 ∧
    (p4Header st ls).1.single = st.single := by
  induction ls with
  | nil => exact ⟨⟨rfl, rfl, by simp [p4Header], rfl, by simp [p4Header]⟩, rfl⟩
  | cons l ls ih =>
    unfold p4Header
    split
    · exact ⟨⟨rfl, rfl, fun _ => rfl, rfl, fun _ => new_blank _ _⟩, rfl⟩
    · exact ih

theorem unifiedHeader_step {win : Bool} {g : Generator} {st st' : PState} {b : Bool}
    (h : parseUnifiedDiffHeader win g st = Res.ok (st', b)) : HeaderStep st st' b := by
  unfold parseUnifiedDiffHeader at h
  split at h
  · simp only [Res.ok.injEq] at h
    have := (p4Header_step st st.rest).1
    rw [h] at this
    exact this
  · exact twoLineHeader_step (fun _ _ => newModel_blank _ _ _ _ _ _) h

theorem contextHeader_step {win : Bool} {g : Generator} {st st' : PState} {b : Bool}
    (h : parseContextDiffHeader win g st = Res.ok (st', b)) : HeaderStep st st' b := by
  unfold parseContextDiffHeader at h
  split at h
  · simp only [Res.ok.injEq] at h
    have := (p4Header_step st st.rest).1
    rw [h] at this
    exact this
  · exact twoLineHeader_step (fun _ _ => newModel_blank _ _ _ _ _ _) h

theorem normalHeaderLoop_blank {h : Re} {mk : Caps → DModel} (hmk : ∀ c, (mk c).Blank) {ls : List Str} {m : DModel} {r : List Str}
    (e : normalHeaderLoop h mk ls = some (m, r)) : m.Blank := by
  induction ls with
  | nil => simp [normalHeaderLoop] at e
  | cons l ls ih =>
    simp only [normalHeaderLoop] at e
    split at e
    · simp only [Option.some.injEq, Prod.mk.injEq] at e; rw [← e.1]; exact hmk _
    · exact ih e

theorem normalHeader_step {win : Bool} {g : Generator} {st st' : PState} {b : Bool}
    (h : parseNormalDiffHeader win g st = (st', b)) : HeaderStep st st' b ∧ (b = false → st'.single = st.single ∨ st'.cur.Blank) := by
  unfold parseNormalDiffHeader at h
  split at h
  · have := p4Header_step st st.rest
    rw [h] at this
    exact ⟨this.1, fun _ => .inl this.2⟩
  · simp only at h
    split at h
    · rename_i m ls hm
      simp only [Prod.mk.injEq] at h
      obtain ⟨rfl, rfl⟩ := h
      refine ⟨⟨rfl, rfl, fun _ => rfl, rfl, fun _ => normalHeaderLoop_blank (fun c => ?_) hm⟩, by simp⟩
      split <;> exact new_blank _ _
    · simp only [Prod.mk.injEq] at h
      obtain ⟨rfl, rfl⟩ := h
      exact ⟨⟨rfl, rfl, by simp, rfl, by simp⟩, fun _ => .inr empty_blank⟩

theorem parseUnifiedHunk_building {h0 : Heap} {st st' : PState} (b : Building HView.UnifiedOk h0 st)
    (h : parseUnifiedHunk st = Res.ok (some st')) : Building HView.UnifiedOk h0 st' := by
  unfold parseUnifiedHunk at h
  split at h
  · simp at h
  · split at h
    · simp at h
    · split at h
      · simp only [Res.ok.injEq, Option.some.injEq] at h
        rw [← h]; exact b.congr rfl rfl rfl
      · obtain ⟨r, hr, h⟩ := Res.bind_eq_ok.1 h
        simp only [Res.ok.injEq, Option.some.injEq] at h
        rw [← h]
        obtain ⟨k1, k2, k3⟩ := unifiedBody_sound hr
        refine b.addHunk _ _ _ r.1 k1 ⟨rfl, k2, ?_⟩ rfl rfl rfl
        intro v hv
        obtain ⟨e, he, rfl⟩ := List.mem_map.1 hv
        exact k3 e he

theorem parseNormalHunk_building {h0 : Heap} {st st' : PState} (b : Building HView.NormalOk h0 st)
    (h : parseNormalHunk st = Res.ok (some st')) : Building HView.NormalOk h0 st' := by
  unfold parseNormalHunk at h
  split at h
  · simp at h
  · split at h
    · simp at h
    · rename_i l ls _ _ ty x y hh
      simp only [Res.ok.injEq, Option.some.injEq] at h
      rw [← h]
      have hty := normalHunkHeader_type hh
      obtain ⟨ss, ds, hv, h1, h2⟩ := normalBody_sound ty hty x y ls
      refine b.addHunk _ _ _ [((normalHunkBody ty x y ls).1, true)] ?_ ?_ rfl rfl rfl
      · intro e he
        simp only [List.mem_singleton] at he
        subst he
        have : (normalHunkBody ty x y ls).1.type = ty := by
          have := congrArg DView.type hv; exact this
        simp [this, hty]
      · refine ⟨rfl, _, rfl, ?_⟩
        simp only
        rw [hv]
        exact ⟨rfl, rfl, ⟨rfl, rfl, rfl, rfl⟩, hty, h1, h2⟩

theorem parseContextHunk_building {h0 : Heap} {st : PState} {r} (b : Building HView.ContextOk h0 st)
    (h : parseContextHunk st = Res.ok r) :
    (∀ st', r.1 = some st' → Building HView.ContextOk h0 st') ∧ Building HView.ContextOk h0 r.2 := by
  unfold parseContextHunk at h
  split at h
  · simp only [Res.ok.injEq] at h
    rw [← h]
    exact ⟨by simp, b.congr rfl rfl rfl⟩
  · simp only at h
    split at h
    · simp at h
    · split at h
      · simp only [Res.ok.injEq] at h
        rw [← h]
        refine ⟨?_, b⟩
        intro st' e
        simp only [Option.some.injEq] at e
        rw [← e]; exact b.congr rfl rfl rfl
      · obtain ⟨s, hs, h⟩ := Res.bind_eq_ok.1 h
        simp only [Res.ok.injEq] at h
        rw [← h]
        refine ⟨?_, b⟩
        intro st' e
        simp only [Option.some.injEq] at e
        rw [← e]
        obtain ⟨k1, k2, k3⟩ := contextBody_sound hs
        refine b.addHunk _ _ _ s.1 k1 ⟨rfl, k2, ?_⟩ rfl rfl rfl
        intro v hv
        obtain ⟨e, he, rfl⟩ := List.mem_map.1 hv
        exact k3 e he

theorem contextHunks_building {h0 : Heap} {st st' : PState} (b : Building HView.ContextOk h0 st) (h : contextHunks st = Res.ok st') :
    Building HView.ContextOk h0 st' :=
  contextHunkLoop_inv (I := Building HView.ContextOk h0) (fun st st' st2 b h => (parseContextHunk_building b h).1 st' rfl)
    (fun st st2 b h => (parseContextHunk_building b h).2) _ _ _ b h

theorem hunk_single_unified {st st' : PState} (h : parseUnifiedHunk st = Res.ok (some st')) : st'.single = st.single := by
  unfold parseUnifiedHunk at h
  split at h
  · simp at h
  · split at h
    · simp at h
    · split at h
      · simp only [Res.ok.injEq, Option.some.injEq] at h; rw [← h]
      · obtain ⟨r, hr, h⟩ := Res.bind_eq_ok.1 h
        simp only [Res.ok.injEq, Option.some.injEq] at h
        rw [← h]; rfl

theorem hunk_single_normal {st st' : PState} (h : parseNormalHunk st = Res.ok (some st')) : st'.single = st.single := by
  unfold parseNormalHunk at h
  split at h
  · simp at h
  · split at h
    · simp at h
    · simp only [Res.ok.injEq, Option.some.injEq] at h
      rw [← h]; rfl

theorem unifiedFiles_found {win : Bool} {g : Generator} {h0 : Heap} {st st' : PState} (b : FoundAll HView.UnifiedOk h0 st)
    (h : unifiedFiles win g st = Res.ok st') : FoundAll HView.UnifiedOk h0 st' := by
  refine fileLoop_rule (I := FoundAll HView.UnifiedOk h0) (J := Building HView.UnifiedOk h0) (K := FoundAll HView.UnifiedOk h0) ?_ ?_ ?_ _ _ _ b h
  · intro s s' i e
    have := unifiedHeader_step e
    exact i.start this.heap this.models (this.blank rfl)
  · intro s s' i e
    have := unifiedHeader_step e
    exact i.congr this.heap this.models
  · intro s s' i e
    have := hunkLoop_inv (I := Building HView.UnifiedOk h0) (fun _ _ b h => parseUnifiedHunk_building b h) _ _ _ i e
    have hc := checkHeader_same (unifiedHeader1 g) s'.keepModel
    exact this.keep hc.1 hc.2.1

theorem contextFiles_found {win : Bool} {g : Generator} {h0 : Heap} {st st' : PState} (b : FoundAll HView.ContextOk h0 st)
    (h : contextFiles win g st = Res.ok st') : FoundAll HView.ContextOk h0 st' := by
  refine fileLoop_rule (I := FoundAll HView.ContextOk h0) (J := Building HView.ContextOk h0) (K := FoundAll HView.ContextOk h0) ?_ ?_ ?_ _ _ _ b h
  · intro s s' i e
    have := contextHeader_step e
    exact i.start this.heap this.models (this.blank rfl)
  · intro s s' i e
    have := contextHeader_step e
    exact i.congr this.heap this.models
  · intro s s' i e
    have := contextHunks_building i e
    have hc := checkHeader_same (contextHeader1 g) s'.keepModel
    exact this.keep hc.1 hc.2.1

theorem normalFiles_found {win : Bool} {g : Generator} {h0 : Heap} {st st' : PState} (b : FoundAll HView.NormalOk h0 st)
    (hs : st.single = false) (h : normalFiles win g st = Res.ok st') : FoundAll HView.NormalOk h0 st' := by
  unfold normalFiles at h
  obtain ⟨s1, h1, h⟩ := Res.bind_eq_ok.1 h
  have hk : FoundAll HView.NormalOk h0 s1 ∧ (s1.single = false ∨ s1.cur.Blank) := by
    refine fileLoop_rule (I := fun s => FoundAll HView.NormalOk h0 s ∧ s.single = false)
      (J := fun s => Building HView.NormalOk h0 s ∧ s.single = false)
      (K := fun s => FoundAll HView.NormalOk h0 s ∧ (s.single = false ∨ s.cur.Blank)) ?_ ?_ ?_ _ _ _ ⟨b, hs⟩ h1
    · intro s s' i e
      simp only [Res.ok.injEq] at e
      have := (normalHeader_step e).1
      exact ⟨i.1.start this.heap this.models (this.blank rfl), by rw [this.single rfl]; exact i.2⟩
    · intro s s' i e
      simp only [Res.ok.injEq] at e
      have := normalHeader_step e
      refine ⟨i.1.congr this.1.heap this.1.models, ?_⟩
      rcases this.2 rfl with h | h
      · left; rw [h]; exact i.2
      · exact .inr h
    · intro s s' i e
      have h2 := hunkLoop_inv (I := fun s => Building HView.NormalOk h0 s ∧ s.single = false)
        (fun _ _ b h => ⟨parseNormalHunk_building b.1 h, by rw [hunk_single_normal h]; exact b.2⟩) _ _ _ i e
      have hc := checkHeader_same (normalHeader g) s'.keepModel
      exact ⟨h2.1.keep hc.1 hc.2.1, by rw [hc.2.2.2, keepModel_single]; exact h2.2⟩
  split at h
  · rename_i hsing
    obtain ⟨s2, h2, h⟩ := Res.bind_eq_ok.1 h
    simp only [Res.ok.injEq] at h
    have hblank : s1.cur.Blank := by
      rcases hk.2 with h | h
      · rw [h] at hsing; exact absurd hsing (by simp)
      · exact h
    have := hunkLoop_inv (I := Building HView.NormalOk h0) (fun _ _ b h => parseNormalHunk_building b h) _ _ _
      (hk.1.start rfl rfl hblank) h2
    rw [← h]
    split
    · exact this.keep rfl rfl
    · exact this.keep rfl rfl
  · simp only [Res.ok.injEq] at h
    rw [← h]; exact hk.1

theorem FoundAll.result {P : HView → Prop} {h0 : Heap} {st : PState} (b : FoundAll P h0 st) (cmp : Str → Str → Int) (ms : List DModel)
    (h : (finishParse cmp st).models = some ms) : ParsedModels P h0 (finishParse cmp st).heap ms := by
  unfold finishParse at h
  simp only at h
  split at h
  · simp only [Option.some.injEq] at h
    have hp := sortModels_perm cmp st.models
    rw [h] at hp
    refine ⟨?_, ?_, ?_, ?_⟩
    · intro m hm
      obtain ⟨h1, h2, _⟩ := b.models m (hp.mem_iff.1 hm)
      exact ⟨h1, h2⟩
    · exact (hp.flatMap_right _).nodup_iff.2 b.disjoint
    · intro m hm
      exact (b.models m (hp.mem_iff.1 hm)).2.2
    · exact b.ext.2
  · simp at h

theorem ParsedModels.weaken {P Q : HView → Prop} {h0 h : Heap} {ms : List DModel} (p : ParsedModels P h0 h ms) (hPQ : ∀ v, P v → Q v) :
    ParsedModels Q h0 h ms :=
  ⟨fun m hm => ⟨⟨(p.each m hm).1.nodup, (p.each m hm).1.alloc, (p.each m hm).1.differences, (p.each m hm).1.connected,
    (p.each m hm).1.initial, fun k hk => hPQ _ ((p.each m hm).1.hunks k hk), (p.each m hm).1.paths⟩, (p.each m hm).2⟩, p.disjoint, p.fresh, p.kept⟩

/-- The soundness condition for the hunks of a format. -/
def formatOk : Format → HView → Prop
  | .Unified => HView.UnifiedOk
  | .Context => HView.ContextOk
  | .Normal => HView.NormalOk
  | _ => fun _ => False

theorem parseLines_sound {win : Bool} {cmp : Str → Str → Int} {g : Generator} {heap : Heap} {lines : List Str} {r : ParseResult}
    (h : parseLines win cmp g heap lines = Res.ok r) (ms : List DModel) (hm : r.models = some ms) :
    ParsedModels (formatOk (determineFormat g lines)) heap r.heap ms := by
  unfold parseLines at h
  have h0 : ∀ P, FoundAll P heap { lines := lines, rest := lines, heap := heap, cur := {}, models := [], single := false, malformed := false } :=
    fun P => ⟨Heap.Ext.refl _, by simp, by simp⟩
  simp only at h
  split at h
  · rename_i e
    obtain ⟨st, hs, h⟩ := Res.bind_eq_ok.1 h
    simp only [Res.ok.injEq] at h
    rw [e, ← h]
    exact (contextFiles_found (h0 _) hs).result cmp ms (h ▸ hm)
  · rename_i e
    obtain ⟨st, hs, h⟩ := Res.bind_eq_ok.1 h
    simp only [Res.ok.injEq] at h
    rw [e, ← h]
    exact (normalFiles_found (h0 _) rfl hs).result cmp ms (h ▸ hm)
  · rename_i e
    obtain ⟨st, hs, h⟩ := Res.bind_eq_ok.1 h
    simp only [Res.ok.injEq] at h
    rw [e, ← h]
    exact (unifiedFiles_found (h0 _) hs).result cmp ms (h ▸ hm)
  · simp only [Res.ok.injEq] at h
    rw [← h] at hm
    simp at hm

end KompareDiff2
