import Verif.Proofs.HeapEdit
import Verif.Proofs.UnifiedHunk
import Verif.Spec.Parsed
import Verif.Proofs.Path
/-
Adding parsed hunks to models on the heap.
-/
namespace KompareDiff2
open Spec

/-- The heap has only grown. -/
def Heap.Ext (h h' : Heap) : Prop := h.next ≤ h'.next ∧ ∀ i, i < h.next → h'.cell i = h.cell i

theorem Heap.Ext.refl (h : Heap) : h.Ext h := ⟨Nat.le_refl _, fun _ _ => rfl⟩
theorem Heap.Ext.trans {a b c : Heap} (h1 : a.Ext b) (h2 : b.Ext c) : a.Ext c :=
  ⟨Nat.le_trans h1.1 h2.1, fun i hi => (h2.2 i (Nat.lt_of_lt_of_le hi h1.1)).trans (h1.2 i hi)⟩

theorem Heap.allocAll_ext (h : Heap) (ds : List Diff) : h.Ext (h.allocAll ds).2 :=
  ⟨by rw [Heap.allocAll_next]; omega, fun i hi => Heap.allocAll_old ds h i hi⟩

theorem Hunk.view_ext {h h' : Heap} (e : h.Ext h') (k : Hunk Nat) (ha : ∀ i ∈ k.diffs, i < h.next) : k.view h' = k.view h := by
  unfold Hunk.view
  congr 1
  apply List.map_congr_left
  intro i hi
  rw [e.2 i (ha i hi)]

theorem Parsed.ext {P : HView → Prop} {h h' : Heap} {m : DModel} (p : Parsed P h m) (e : h.Ext h') : Parsed P h' m where
  nodup := p.nodup
  alloc := fun i hi => Nat.lt_of_lt_of_le (p.alloc i hi) e.1
  differences := by
    rw [p.differences]
    apply List.filter_congr
    intro i hi
    rw [e.2 i (p.alloc i hi)]
  connected := p.connected
  initial := p.initial
  hunks := by
    intro k hk
    rw [Hunk.view_ext e k (fun i hi => p.alloc i (List.mem_flatMap.2 ⟨k, hk, hi⟩))]
    exact p.hunks k hk
  paths := p.paths

theorem Parsed.view_ext {P : HView → Prop} {h h' : Heap} {m : DModel} (p : Parsed P h m) (e : h.Ext h') : m.view h' = m.view h := by
  unfold DModel.view
  have h1 : m.hunks.map (Hunk.view h') = m.hunks.map (Hunk.view h) := by
    apply List.map_congr_left
    intro k hk
    exact Hunk.view_ext e k (fun i hi => p.alloc i (List.mem_flatMap.2 ⟨k, hk, hi⟩))
  have h2 : m.differences.map (fun i => (h'.cell i).view) = m.differences.map (fun i => (h.cell i).view) := by
    apply List.map_congr_left
    intro i hi
    rw [p.differences] at hi
    rw [e.2 i (p.alloc i (List.mem_filter.1 hi).1)]
  rw [h1, h2]

theorem foldl_addDiff (is : List (Nat × Bool)) (m : DModel) :
    is.foldl (fun m p => m.addDiff p.1) m =
      { m with differences := m.differences ++ is.map Prod.fst, connected := m.connected ++ is.map Prod.fst } := by
  induction is generalizing m with
  | nil => simp
  | cons i is ih => rw [List.foldl_cons, ih]; simp [DModel.addDiff]

theorem zip_filter_map {es : Entries} {is : List Nat} (h : Heap) (hi : is.map h.cell = es.map Prod.fst)
    (hf : ∀ e ∈ es, e.2 = decide (e.1.type ≠ .Unchanged)) :
    ((is.zip (es.map Prod.snd)).filter (fun p => p.2)).map Prod.fst = is.filter (fun i => decide ((h.cell i).type ≠ .Unchanged)) := by
  induction es generalizing is with
  | nil =>
    have : is = [] := by simpa using hi
    subst this; rfl
  | cons e es ih =>
    cases is with
    | nil => simp at hi
    | cons i is =>
      simp only [List.map_cons, List.cons.injEq] at hi
      have h1 := ih hi.2 (fun e he => hf e (by simp [he]))
      have h2 := hf e (by simp)
      simp only [List.map_cons, List.zip_cons_cons, List.filter_cons]
      rw [h2, hi.1]
      split <;> simp [h1]

/-- The entries of a hunk: marked as changed exactly if they are not unchanged context. -/
def Entries.Flagged (es : Entries) : Prop := ∀ e ∈ es, e.2 = decide (e.1.type ≠ .Unchanged)

/-- The hunk that `addHunk` adds, as seen by a client. -/
def hunkView (a b : Int) (f : Str) (es : Entries) : HView :=
  { srcLine := a, dstLine := b, function := f, type := .Normal, diffs := es.map (fun e => e.1.view) }

theorem addHunk_cur (st : PState) (a b : Int) (f : Str) (es : Entries) :
    (st.addHunk a b f es).cur =
      { st.cur with
        hunks := st.cur.hunks ++ [{ sourceLine := a, destLine := b, function := f, diffs := (st.heap.allocAll (es.map Prod.fst)).1 }],
        differences := st.cur.differences ++
          (((st.heap.allocAll (es.map Prod.fst)).1.zip (es.map Prod.snd)).filter (fun p => p.2)).map Prod.fst,
        connected := st.cur.connected ++
          (((st.heap.allocAll (es.map Prod.fst)).1.zip (es.map Prod.snd)).filter (fun p => p.2)).map Prod.fst } := by
  simp only [PState.addHunk, foldl_addDiff, DModel.addHunk]

theorem addHunk_heap (st : PState) (a b : Int) (f : Str) (es : Entries) :
    (st.addHunk a b f es).heap = (st.heap.allocAll (es.map Prod.fst)).2 := rfl

theorem addHunk_ext (st : PState) (a b : Int) (f : Str) (es : Entries) : st.heap.Ext (st.addHunk a b f es).heap :=
  Heap.allocAll_ext _ _

theorem addHunk_hunkView (st : PState) (a b : Int) (f : Str) (es : Entries) :
    Hunk.view (st.heap.allocAll (es.map Prod.fst)).2
      { sourceLine := a, destLine := b, function := f, diffs := (st.heap.allocAll (es.map Prod.fst)).1 } = hunkView a b f es := by
  unfold Hunk.view hunkView
  have := Heap.allocAll_new (es.map Prod.fst) st.heap
  have h2 := congrArg (List.map Diff.view) this
  simp only [List.map_map] at h2
  simp only [HView.mk.injEq, true_and]
  exact h2

theorem addHunk_parsed {P : HView → Prop} (st : PState) (a b : Int) (f : Str) (es : Entries)
    (p : Parsed P st.heap st.cur) (hf : es.Flagged) (hP : P (hunkView a b f es)) :
    Parsed P (st.addHunk a b f es).heap (st.addHunk a b f es).cur := by
  have hids := Heap.allocAll_ids (es.map Prod.fst) st.heap
  have hnext := Heap.allocAll_next (es.map Prod.fst) st.heap
  have hext := Heap.allocAll_ext st.heap (es.map Prod.fst)
  have hnew := Heap.allocAll_new (es.map Prod.fst) st.heap
  have hreg := zip_filter_map (es := es) (st.heap.allocAll (es.map Prod.fst)).2 hnew hf
  have q := p.ext hext
  have hhunk : (st.addHunk a b f es).cur.hunkIds = st.cur.hunkIds ++ (st.heap.allocAll (es.map Prod.fst)).1 := by
    rw [addHunk_cur]; simp [DModel.hunkIds]
  refine ⟨?_, ?_, ?_, ?_, ?_, ?_, by rw [addHunk_cur]; exact p.paths⟩
  · rw [hhunk, hids]
    rw [List.nodup_append]
    refine ⟨p.nodup, List.nodup_range', ?_⟩
    intro i hi j hj
    have := p.alloc i hi
    have := (List.mem_range'_1.1 hj).1
    omega
  · intro i hi
    rw [hhunk, hids] at hi
    rw [addHunk_heap, hnext]
    rcases List.mem_append.1 hi with hi | hi
    · have := p.alloc i hi; omega
    · have := List.mem_range'_1.1 hi; omega
  · rw [hhunk, List.filter_append, addHunk_heap, ← q.differences, ← hreg, addHunk_cur]
  · rw [addHunk_cur]; simp only [p.connected]
  · rw [addHunk_cur]; exact p.initial
  · intro k hk
    rw [addHunk_cur] at hk
    simp only [List.mem_append, List.mem_singleton] at hk
    rw [addHunk_heap]
    rcases hk with hk | rfl
    · exact q.hunks k hk
    · rw [addHunk_hunkView]; exact hP

theorem addHunk_view {P : HView → Prop} (st : PState) (a b : Int) (f : Str) (es : Entries)
    (p : Parsed P st.heap st.cur) (hf : es.Flagged) :
    (st.addHunk a b f es).cur.view (st.addHunk a b f es).heap =
      { st.cur.view st.heap with
        hunks := (st.cur.view st.heap).hunks ++ [hunkView a b f es]
        differences := (st.cur.view st.heap).differences ++ (es.map (fun e => e.1.view)).filter (fun v => v.type ≠ .Unchanged) } := by
  have hext := Heap.allocAll_ext st.heap (es.map Prod.fst)
  have hnew := Heap.allocAll_new (es.map Prod.fst) st.heap
  have hreg := zip_filter_map (es := es) (st.heap.allocAll (es.map Prod.fst)).2 hnew hf
  have hv := p.view_ext hext
  rw [addHunk_cur, addHunk_heap, ← hv]
  unfold DModel.view
  simp only [List.map_append, List.map_cons, List.map_nil, addHunk_hunkView, hreg]
  congr 2
  have h2 : (st.heap.allocAll (es.map Prod.fst)).1.map (fun i => ((st.heap.allocAll (es.map Prod.fst)).2.cell i).view) =
      es.map (fun e => e.1.view) := by
    have := congrArg (List.map Diff.view) hnew
    rw [List.map_map, List.map_map] at this
    exact this
  rw [← h2, List.filter_map]
  rfl

/-- A model without hunks. -/
structure DModel.Blank (m : DModel) : Prop where
  hunks : m.hunks = []
  differences : m.differences = []
  connected : m.connected = []
  initial : m.appliedCount = 0 ∧ m.diffIndex = 0 ∧ m.selected = none ∧ m.blended = false
  paths : m.PathsFit

theorem DModel.Blank.parsed {P : HView → Prop} {m : DModel} (b : m.Blank) (h : Heap) : Parsed P h m where
  nodup := by simp [hunkIds, b.hunks]
  alloc := by simp [hunkIds, b.hunks]
  differences := by simp [hunkIds, b.hunks, b.differences]
  connected := by rw [b.connected, b.differences]
  initial := b.initial
  hunks := by simp [b.hunks]
  paths := b.paths

theorem split_of_new (p : Str) : Spec.SplitOf p (splitPath [] p).1 (splitPath [] p).2 := by
  by_cases h : '/' ∈ p
  · cases hl : lastIndexOf '/' p with
    | none => exact absurd h (lastIndexOf_none.1 hl)
    | some i =>
      obtain ⟨a, b, rfl, _, hb⟩ := lastIndexOf_some hl
      rw [splitPath_slash _ _ _ hb]
      exact ⟨by simp, hb, by simp⟩
  · rw [splitPath_noslash _ _ h]
    exact ⟨by simp, h, Or.inl rfl⟩

theorem paths_new (a b : Str) : (DModel.new a b).PathsFit := ⟨split_of_new a, split_of_new b⟩

theorem newModel_blank (a b c d e f : Str) : (newModel a b c d e f).Blank := ⟨rfl, rfl, rfl, ⟨rfl, rfl, rfl, rfl⟩, paths_new a b⟩
theorem new_blank (a b : Str) : (DModel.new a b).Blank := ⟨rfl, rfl, rfl, ⟨rfl, rfl, rfl, rfl⟩, paths_new a b⟩
theorem empty_blank : ({} : DModel).Blank := ⟨rfl, rfl, rfl, ⟨rfl, rfl, rfl, rfl⟩, ⟨rfl, by simp, .inl rfl⟩, ⟨rfl, by simp, .inl rfl⟩⟩

/-! ### Loop rules -/

theorem hunkLoop_inv {hunk : PState → Res (Option PState)} {I : PState → Prop}
    (hI : ∀ st st', I st → hunk st = Res.ok (some st') → I st') :
    ∀ (n : Nat) (st st' : PState), I st → hunkLoop hunk n st = Res.ok st' → I st' := by
  intro n
  induction n with
  | zero => intro st st' _ h; simp [hunkLoop] at h
  | succ n ih =>
    intro st st' h0 h
    simp only [hunkLoop] at h
    obtain ⟨r, hr, h⟩ := Res.bind_eq_ok.1 h
    cases r with
    | none => simp only [Res.ok.injEq] at h; rw [← h]; exact h0
    | some st1 => exact ih st1 st' (hI st st1 h0 hr) h

theorem contextHunkLoop_inv {I : PState → Prop}
    (hI : ∀ st st' st2, I st → parseContextHunk st = Res.ok (some st', st2) → I st')
    (hN : ∀ st st2, I st → parseContextHunk st = Res.ok (none, st2) → I st2) :
    ∀ (n : Nat) (st st' : PState), I st → contextHunkLoop n st = Res.ok st' → I st' := by
  intro n
  induction n with
  | zero => intro st st' _ h; simp [contextHunkLoop] at h
  | succ n ih =>
    intro st st' h0 h
    simp only [contextHunkLoop] at h
    obtain ⟨⟨r, r2⟩, hr, h⟩ := Res.bind_eq_ok.1 h
    cases r with
    | none => simp only [Res.ok.injEq] at h; rw [← h]; exact hN st r2 h0 hr
    | some st1 => exact ih st1 st' (hI st st1 r2 h0 hr) h

theorem fileLoop_inv {header : PState → Res (PState × Bool)} {hunks : PState → Res PState} {check : Re} {I J : PState → Prop}
    (hH : ∀ st st', I st → header st = Res.ok (st', true) → J st')
    (hN : ∀ st st', I st → header st = Res.ok (st', false) → I st')
    (hB : ∀ st st', J st → hunks st = Res.ok st' → I (checkHeader check st'.keepModel)) :
    ∀ (n : Nat) (st st' : PState), I st → fileLoop header hunks check n st = Res.ok st' → I st' := by
  intro n
  induction n with
  | zero => intro st st' _ h; simp [fileLoop] at h
  | succ n ih =>
    intro st st' h0 h
    simp only [fileLoop] at h
    obtain ⟨⟨s1, b⟩, hr, h⟩ := Res.bind_eq_ok.1 h
    cases b with
    | false => simp only [if_true, Res.ok.injEq] at h; rw [← h]; exact hN st s1 h0 hr
    | true =>
      simp only [Bool.true_eq_false, if_false] at h
      obtain ⟨s2, h2, h⟩ := Res.bind_eq_ok.1 h
      exact ih _ st' (hB s1 s2 (hH st s1 h0 hr) h2) h

end KompareDiff2
