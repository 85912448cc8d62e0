import Verif.Proofs.Structure
import Verif.Spec.InlineMarks
/-
The markers of the differences produced by the parser and by `linesChanged`.
-/
namespace KompareDiff2
open Spec

theorem script_zero_eq {α : Type} {ar : Bool} {a b : List α} {c : Nat} (h : Script ar a b c) : c = 0 → a = b := by
  induction h with
  | nil => intro _; rfl
  | keep x _ ih => intro h; rw [ih h]
  | delete x _ _ => intro h; omega
  | insert x _ _ => intro h; omega
  | replace x y _ _ _ => intro h; omega

theorem script_self {α : Type} (ar : Bool) (a : List α) : Script ar a a 0 := by
  induction a with
  | nil => exact .nil
  | cons x a ih => exact .keep x ih

theorem D_zero_iff (a b : Str) : D true a b a.length b.length = 0 ↔ a = b := by
  constructor
  · intro h
    exact script_zero_eq (isDistance_D true a b).1 h
  · rintro rfl
    have := (isDistance_D true a a).2 0 (script_self true a)
    omega

theorem createTable_big {t : LTable} {a b : Str} (ha : ShortLine a) (hb : ShortLine b) (mf ms)
    (h : ¬ (a.length + 1) * (b.length + 1) ≤ 2 ^ 24) :
    t.createTable (differenceStringPair ' ' a b mf ms) = Res.ok (0, t) := by
  have hlt := short_product ha hb
  unfold LTable.createTable LTable.setSize
  have hp := differenceStringPair_of ' ' a b mf ms
  rw [hp.lenF, hp.lenS]
  have hu : uintMod = 2 ^ 32 := rfl
  have h24 : (2:Nat)^24 = 256*256*256 := by decide
  rw [if_pos (by rw [hu, Nat.mod_eq_of_lt hlt]; omega)]

theorem inlineLoop_marked {t : LTable} (hv : t.Valid) (ss ds : List DStr) (h1 : FreshLines ss) (h2 : FreshLines ds)
    {ss' ds' : List DStr} (h : inlineLoop t ss ds = Res.ok (ss', ds')) (hlen : ss.length = ds.length) :
    ∀ p ∈ (shownLines ss').zip (shownLines ds'), PairMarked p.1.1 p.2.1 p.1.2 p.2.2 := by
  induction ss generalizing t ds ss' ds' with
  | nil => simp only [inlineLoop, Res.ok.injEq, Prod.mk.injEq] at h; rw [← h.1]; simp [shownLines]
  | cons sl ss ih =>
    cases ds with
    | nil => simp at hlen
    | cons dl ds =>
      obtain ⟨a1, a2⟩ := h1 sl (by simp)
      obtain ⟨b1, b2⟩ := h2 dl (by simp)
      have i1 : FreshLines ss := fun x hx => h1 x (by simp [hx])
      have i2 : FreshLines ds := fun x hx => h2 x (by simp [hx])
      have hlen' : ss.length = ds.length := by simpa using hlen
      unfold inlineLoop at h
      by_cases hsz : (sl.string.length + 1) * (dl.string.length + 1) ≤ 2 ^ 24
      · obtain ⟨t', e, hf⟩ := createTable_filled hv (differenceStringPair_of ' ' sl.string dl.string sl.markers dl.markers) hsz
        have e : t.createTable (differenceStringPair ' ' sl.string dl.string sl.markers dl.markers) =
          Res.ok (D true sl.string dl.string sl.string.length dl.string.length, t') := e
        obtain ⟨m1, m2, hm, hcoarse, hfine⟩ := inlineMarkers (p := differenceStringPair ' ' sl.string dl.string sl.markers dl.markers)
          hf rfl a1 b1
        simp only [e, Res.bind_ok] at h
        by_cases hz : D true sl.string dl.string sl.string.length dl.string.length = 0
        · simp only [hz, ne_eq, not_true_eq_false, if_false, Res.bind_ok] at h
          obtain ⟨rest, hr, h⟩ := Res.bind_eq_ok.1 h
          simp only [Res.ok.injEq, Prod.mk.injEq] at h
          obtain ⟨rfl, rfl⟩ := h
          simp only [shownLines, List.map_cons, List.zip_cons_cons, List.mem_cons]
          rintro p (rfl | hp)
          · unfold PairMarked
            rw [if_pos (.inr ((D_zero_iff _ _).1 hz))]
            exact ⟨a1, b1⟩
          · exact ih hf.ready.valid ds i1 i2 (ss' := rest.1) (ds' := rest.2) hr hlen' p hp
        · simp only [ne_eq, hz, not_false_eq_true, if_true, hm, Res.bind_ok] at h
          obtain ⟨rest, hr, h⟩ := Res.bind_eq_ok.1 h
          simp only [Res.ok.injEq, Prod.mk.injEq] at h
          obtain ⟨rfl, rfl⟩ := h
          simp only [shownLines, List.map_cons, List.zip_cons_cons, List.mem_cons]
          rintro p (rfl | hp)
          · unfold PairMarked
            rw [if_neg (by
              rintro (k | k)
              · simp only at k; omega
              · exact hz ((D_zero_iff _ _).2 k))]
            refine ⟨_, isDistance_D true _ _, ?_⟩
            split
            · rename_i hd
              exact hfine (by simp only [differenceStringPair, decide_eq_true_eq]; exact hd)
            · rename_i hd
              exact hcoarse (by simp only [differenceStringPair, decide_eq_false_iff_not]; exact hd)
          · exact ih hf.ready.valid ds i1 i2 (ss' := rest.1) (ds' := rest.2) hr hlen' p hp
      · have e := createTable_big (t := t) a2 b2 sl.markers dl.markers hsz
        simp only [e, Res.bind_ok, ne_eq, not_true_eq_false, if_false] at h
        obtain ⟨rest, hr, h⟩ := Res.bind_eq_ok.1 h
        simp only [Res.ok.injEq, Prod.mk.injEq] at h
        obtain ⟨rfl, rfl⟩ := h
        simp only [shownLines, List.map_cons, List.zip_cons_cons, List.mem_cons]
        rintro p (rfl | hp)
        · unfold PairMarked
          rw [if_pos (.inl (by simp only; omega))]
          exact ⟨a1, b1⟩
        · exact ih hv ds i1 i2 (ss' := rest.1) (ds' := rest.2) hr hlen' p hp

theorem shown_bare {l l' : List DStr} (h : l'.map DStr.bare = l.map DStr.bare) : l'.length = l.length ∧ l'.map DStr.string = l.map DStr.string :=
  ⟨by simpa using congrArg List.length h, bare_text h⟩

/-- No marks yet. -/
def Diff.Plain (d : Diff) : Prop := (∀ x ∈ d.source, x.markers = []) ∧ ∀ x ∈ d.dest, x.markers = []

theorem Diff.Plain.noMarks {d : Diff} (h : d.Plain) : NoMarks d := by
  intro x hx
  rcases List.mem_append.1 hx with hx | hx <;> obtain ⟨y, hy, rfl⟩ := List.mem_map.1 hx
  · exact h.1 y hy
  · exact h.2 y hy

theorem determineInline_marked {d d' : Diff} (hp : d.Plain) (h : d.determineInline = Res.ok d') : InlineMarked d' := by
  unfold Diff.determineInline at h
  split at h
  · rename_i ht
    simp only [Res.ok.injEq] at h
    subst h
    intro _
    unfold Marked
    rw [if_neg (fun k => ht k.1)]
    exact hp.noMarks
  · split at h
    · rename_i ht
      simp only [Res.ok.injEq] at h
      subst h
      intro _
      unfold Marked
      rw [if_neg (fun k => ht (by simpa [shownLines, Diff.slc, Diff.dlc] using k.2))]
      exact hp.noMarks
    · rename_i ht hl
      obtain ⟨r, hr, h⟩ := Res.bind_eq_ok.1 h
      simp only [Res.ok.injEq] at h
      subst h
      intro hs
      simp only at hs ⊢
      obtain ⟨k1, k2⟩ := inlineLoop_bare (ss' := r.1) (ds' := r.2) hr
      have f1 : FreshLines d.source := by
        intro x hx
        refine ⟨hp.1 x hx, ?_⟩
        have : x.string ∈ r.1.map DStr.string := by rw [bare_text k1]; exact List.mem_map.2 ⟨x, hx, rfl⟩
        obtain ⟨y, hy, e⟩ := List.mem_map.1 this
        rw [← e]; exact hs y (List.mem_append_left _ hy)
      have f2 : FreshLines d.dest := by
        intro x hx
        refine ⟨hp.2 x hx, ?_⟩
        have : x.string ∈ r.2.map DStr.string := by rw [bare_text k2]; exact List.mem_map.2 ⟨x, hx, rfl⟩
        obtain ⟨y, hy, e⟩ := List.mem_map.1 this
        rw [← e]; exact hs y (List.mem_append_right _ hy)
      have hlen : d.source.length = d.dest.length := by
        simp only [Decidable.not_not, Diff.slc, Diff.dlc] at hl
        exact hl
      have hm := inlineLoop_marked LTable.init_valid d.source d.dest f1 f2 (ss' := r.1) (ds' := r.2) hr hlen
      unfold Marked
      split
      · exact hm
      · rename_i hn
        refine absurd ⟨by simpa using ht, ?_⟩ hn
        simp [shownLines, (shown_bare k1).1, (shown_bare k2).1, hlen]

theorem Diff.Plain.new (a b : Int) (ty : DiffType) : (Diff.new a b ty).Plain := ⟨by simp [Diff.new], by simp [Diff.new]⟩

theorem Diff.Plain.sources {d : Diff} (h : d.Plain) (ls : List Str) : (ls.foldl Diff.addSource d).Plain := by
  rw [foldl_addSource]
  refine ⟨fun x hx => ?_, h.2⟩
  rcases List.mem_append.1 hx with hx | hx
  · exact h.1 x hx
  · obtain ⟨l, _, rfl⟩ := List.mem_map.1 hx; rfl

theorem Diff.Plain.dests {d : Diff} (h : d.Plain) (ls : List Str) : (ls.foldl Diff.addDest d).Plain := by
  rw [foldl_addDest]
  refine ⟨h.1, fun x hx => ?_⟩
  rcases List.mem_append.1 hx with hx | hx
  · exact h.2 x hx
  · obtain ⟨l, _, rfl⟩ := List.mem_map.1 hx; rfl

theorem Diff.Plain.both {d : Diff} (h : d.Plain) (ls : List Str) : (ls.foldl (fun d l => (d.addSource l).addDest l) d).Plain := by
  rw [foldl_addBoth]
  refine ⟨fun x hx => ?_, fun x hx => ?_⟩
  · rcases List.mem_append.1 hx with hx | hx
    · exact h.1 x hx
    · obtain ⟨l, _, rfl⟩ := List.mem_map.1 hx; rfl
  · rcases List.mem_append.1 hx with hx | hx
    · exact h.2 x hx
    · obtain ⟨l, _, rfl⟩ := List.mem_map.1 hx; rfl

theorem plain_unchanged {d : Diff} (h : d.Plain) (ht : d.type ≠ .Change) : InlineMarked d := by
  intro _
  unfold Marked
  rw [if_neg (fun k => ht k.1)]
  exact h.noMarks

theorem unifiedStep_marked {l : Str} {ls : List Str} {a b ca cb : Int} {r} (h : unifiedStep l ls a b ca cb = Res.ok r) : InlineMarked r.1.1 := by
  unfold unifiedStep at h
  split at h
  · simp only [Res.ok.injEq] at h
    rw [← h]
    refine plain_unchanged (Diff.Plain.both (Diff.Plain.new _ _ _) _) ?_
    show Diff.type (List.foldl _ _ _) ≠ _
    rw [foldl_addBoth]
    simp [Diff.new]
  · unfold unifiedChange at h
    simp only [Res.bind_eq_ok, Res.ok.injEq] at h
    obtain ⟨d', hd, h⟩ := h
    rw [← h]
    refine determineInline_marked ?_ hd
    exact (((Diff.Plain.new _ _ _).sources _).dests _ : Diff.Plain _)

theorem unifiedBody_marked {n : Nat} {ls : List Str} {a b ca cb : Int} {r} (h : unifiedBodyLoop n ls a b ca cb = Res.ok r) :
    ∀ e ∈ r.1, InlineMarked e.1 := by
  induction n generalizing ls a b ca cb r with
  | zero => simp [unifiedBodyLoop] at h
  | succ n ih =>
    cases ls with
    | nil => simp only [unifiedBodyLoop, Res.ok.injEq] at h; rw [← h]; simp
    | cons l ls =>
      simp only [unifiedBodyLoop] at h
      obtain ⟨mt, hm, h⟩ := Res.bind_eq_ok.1 h
      split at h
      · obtain ⟨s, hs, h⟩ := Res.bind_eq_ok.1 h
        obtain ⟨rest, hr, h⟩ := Res.bind_eq_ok.1 h
        simp only [Res.ok.injEq] at h
        rw [← h]
        intro e he
        rcases List.mem_cons.1 he with rfl | he
        · exact unifiedStep_marked hs
        · exact ih hr e he
      · simp only [Res.ok.injEq] at h; rw [← h]; simp

theorem contextStep_marked {os ns : List Str} {a b : Int} {r} (h : contextStep os ns a b = Res.ok (some r)) : InlineMarked r.1.1 := by
  have key : ∀ {d : Diff} {f : Diff → (Diff × Bool) × List Str × List Str}, d.Plain → (∀ d, (f d).1.1 = d) →
      (do let d ← d.determineInline; Res.ok (some (f d))) = Res.ok (some r) → InlineMarked r.1.1 := by
    intro d f hp hf e
    obtain ⟨d', hd, e⟩ := Res.bind_eq_ok.1 e
    simp only [Res.ok.injEq, Option.some.injEq] at e
    rw [← e, hf]
    exact determineInline_marked hp hd
  unfold contextStep at h
  split at h
  · exact key (f := fun d => ((d, true), _, _)) ((Diff.Plain.new _ _ _).sources _) (fun _ => rfl) h
  · split at h
    · exact key (f := fun d => ((d, true), _, _)) ((Diff.Plain.new _ _ _).dests _) (fun _ => rfl) h
    · split at h
      · exact key (f := fun d => ((d, false), _, _)) ((Diff.Plain.new _ _ _).both _) (fun _ => rfl) h
      · split at h
        · exact key (f := fun d => ((d, true), _, _)) (((Diff.Plain.new _ _ _).sources _).dests _) (fun _ => rfl) h
        · simp at h

theorem contextBody_marked {n : Nat} {os ns : List Str} {a b : Int} {r} (h : contextBodyLoop n os ns a b = Res.ok r) :
    ∀ e ∈ r.1, InlineMarked e.1 := by
  induction n generalizing os ns a b r with
  | zero => simp [contextBodyLoop] at h
  | succ n ih =>
    simp only [contextBodyLoop] at h
    split at h
    · simp only [Res.ok.injEq] at h; rw [← h]; simp
    · obtain ⟨s, hs, h⟩ := Res.bind_eq_ok.1 h
      cases s with
      | none => simp only [Res.ok.injEq] at h; rw [← h]; simp
      | some s =>
        obtain ⟨rest, hr, h⟩ := Res.bind_eq_ok.1 h
        simp only [Res.ok.injEq] at h
        rw [← h]
        intro e he
        rcases List.mem_cons.1 he with rfl | he
        · exact contextStep_marked hs
        · exact ih hr e he

theorem normalBody_plain (ty : DiffType) (a b : Int) (ls : List Str) : (normalHunkBody ty a b ls).1.Plain := by
  unfold normalHunkBody
  simp only
  generalize (if ty = .Change ∨ ty = .Delete then captureRun reNormalBodyRemoved ls else ([], ls)) = r1
  split
  · exact (Diff.Plain.new _ _ _).sources _
  · exact ((Diff.Plain.new _ _ _).sources _).dests _

/-- The differences created since `h0` satisfy `Q`. -/
def NewCells (Q : Diff → Prop) (h0 h : Heap) : Prop := h0.next ≤ h.next ∧ ∀ i, h0.next ≤ i → i < h.next → Q (h.cell i)

theorem NewCells.refl (Q : Diff → Prop) (h : Heap) : NewCells Q h h := ⟨Nat.le_refl _, fun i h1 h2 => by omega⟩

theorem NewCells.allocAll {Q : Diff → Prop} {h0 h : Heap} (n : NewCells Q h0 h) (ds : List Diff) (hq : ∀ d ∈ ds, Q d) :
    NewCells Q h0 (h.allocAll ds).2 := by
  obtain ⟨n1, n2⟩ := n
  refine ⟨by rw [Heap.allocAll_next]; omega, fun i h1 h2 => ?_⟩
  by_cases hi : i < h.next
  · rw [Heap.allocAll_old ds h i hi]; exact n2 i h1 hi
  · have hm : i ∈ (h.allocAll ds).1 := by
      rw [Heap.allocAll_ids, List.mem_range'_1]
      rw [Heap.allocAll_next] at h2
      omega
    have := List.mem_map_of_mem (f := (h.allocAll ds).2.cell) hm
    rw [Heap.allocAll_new] at this
    exact hq _ this

theorem NewCells.addHunk {Q : Diff → Prop} {h0 : Heap} {st : PState} (n : NewCells Q h0 st.heap) (x y : Int) (f : Str) (es : Entries)
    (hq : ∀ e ∈ es, Q e.1) : NewCells Q h0 (st.addHunk x y f es).heap := by
  refine n.allocAll _ ?_
  intro d hd
  obtain ⟨e, he, rfl⟩ := List.mem_map.1 hd
  exact hq e he

theorem keepModel_heap (st : PState) : st.keepModel.heap = st.heap := by
  unfold PState.keepModel; split <;> rfl

theorem fileLoop_cells {Q : Diff → Prop} {h0 : Heap} {header : PState → Res (PState × Bool)} {hunks : PState → Res PState} {check : Re}
    (hH : ∀ st st' b, header st = Res.ok (st', b) → st'.heap = st.heap)
    (hB : ∀ st st', NewCells Q h0 st.heap → hunks st = Res.ok st' → NewCells Q h0 st'.heap) (n : Nat) (st st' : PState)
    (h : fileLoop header hunks check n st = Res.ok st') (hs : NewCells Q h0 st.heap) : NewCells Q h0 st'.heap := by
  refine fileLoop_rule (I := fun s => NewCells Q h0 s.heap) (J := fun s => NewCells Q h0 s.heap) (K := fun s => NewCells Q h0 s.heap)
    ?_ ?_ ?_ n st st' hs h
  · intro s s' i e
    show NewCells Q h0 s'.heap
    rw [hH s s' _ e]; exact i
  · intro s s' i e
    show NewCells Q h0 s'.heap
    rw [hH s s' _ e]; exact i
  · intro s s' i e
    show NewCells Q h0 (checkHeader check s'.keepModel).heap
    rw [(checkHeader_same check s'.keepModel).1, keepModel_heap]
    exact hB s s' i e

theorem unifiedFiles_cells {win : Bool} {g : Generator} {h0 : Heap} {st st' : PState} (h : unifiedFiles win g st = Res.ok st')
    (hs : NewCells InlineMarked h0 st.heap) : NewCells InlineMarked h0 st'.heap := by
  refine fileLoop_cells (fun s s' b e => (unifiedHeader_step e).heap) ?_ _ _ _ h hs
  intro s s' i e
  refine hunkLoop_inv (I := fun s => NewCells InlineMarked h0 s.heap) ?_ _ _ _ i e
  intro s s' i e
  unfold parseUnifiedHunk at e
  split at e
  · simp at e
  · split at e
    · simp at e
    · split at e
      · simp only [Res.ok.injEq, Option.some.injEq] at e
        rw [← e]; exact i
      · obtain ⟨r, hr, e⟩ := Res.bind_eq_ok.1 e
        simp only [Res.ok.injEq, Option.some.injEq] at e
        rw [← e]
        exact NewCells.addHunk (st := s) i 0 0 [] _ (unifiedBody_marked hr)

theorem contextFiles_cells {win : Bool} {g : Generator} {h0 : Heap} {st st' : PState} (h : contextFiles win g st = Res.ok st')
    (hs : NewCells InlineMarked h0 st.heap) : NewCells InlineMarked h0 st'.heap := by
  refine fileLoop_cells (fun s s' b e => (contextHeader_step e).heap) ?_ _ _ _ h hs
  intro s s' i e
  have key : ∀ s r, NewCells InlineMarked h0 s.heap → parseContextHunk s = Res.ok r →
      (∀ s', r.1 = some s' → NewCells InlineMarked h0 s'.heap) ∧ NewCells InlineMarked h0 r.2.heap := by
    intro s r b h
    unfold parseContextHunk at h
    split at h
    · simp only [Res.ok.injEq] at h
      rw [← h]
      exact ⟨by simp, b⟩
    · simp only at h
      split at h
      · simp at h
      · split at h
        · simp only [Res.ok.injEq] at h
          rw [← h]
          refine ⟨?_, b⟩
          intro st' e
          simp only [Option.some.injEq] at e
          rw [← e]; exact b
        · obtain ⟨x, hx, h⟩ := Res.bind_eq_ok.1 h
          simp only [Res.ok.injEq] at h
          rw [← h]
          refine ⟨?_, b⟩
          intro st' e
          simp only [Option.some.injEq] at e
          rw [← e]
          exact NewCells.addHunk (st := s) b 0 0 [] _ (contextBody_marked hx)
  exact contextHunkLoop_inv (I := fun s => NewCells InlineMarked h0 s.heap) (fun st st' st2 b h => (key st _ b h).1 st' rfl)
    (fun st st2 b h => (key st _ b h).2) _ _ _ i e

theorem normalHunks_cells {h0 : Heap} {st st' : PState} (h : normalHunks st = Res.ok st')
    (hs : NewCells NoMarks h0 st.heap) : NewCells NoMarks h0 st'.heap := by
  refine hunkLoop_inv (I := fun s => NewCells NoMarks h0 s.heap) ?_ _ _ _ hs h
  intro s s' i e
  unfold parseNormalHunk at e
  split at e
  · simp at e
  · split at e
    · simp at e
    · simp only [Res.ok.injEq, Option.some.injEq] at e
      rw [← e]
      refine NewCells.addHunk (st := s) i 0 0 [] _ ?_
      intro x hx
      simp only [List.mem_singleton] at hx
      subst hx
      exact (normalBody_plain _ _ _ _).noMarks

theorem normalFiles_cells {win : Bool} {g : Generator} {h0 : Heap} {st st' : PState} (h : normalFiles win g st = Res.ok st')
    (hs : NewCells NoMarks h0 st.heap) : NewCells NoMarks h0 st'.heap := by
  unfold normalFiles at h
  obtain ⟨s1, h1, h⟩ := Res.bind_eq_ok.1 h
  have hk : NewCells NoMarks h0 s1.heap := by
    refine fileLoop_cells (fun s s' b e => ?_) (fun s s' i e => normalHunks_cells e i) _ _ _ h1 hs
    simp only [Res.ok.injEq] at e
    exact (normalHeader_step e).1.heap
  split at h
  · obtain ⟨s2, h2, h⟩ := Res.bind_eq_ok.1 h
    simp only [Res.ok.injEq] at h
    have := normalHunks_cells h2 hk
    rw [← h]
    split
    · show NewCells NoMarks h0 s2.keepModel.heap
      rw [keepModel_heap]; exact this
    · rw [keepModel_heap]; exact this
  · simp only [Res.ok.injEq] at h
    rw [← h]; exact hk

/-- What to expect of the markers, by format: only unified and context diffs are searched for inline differences. -/
def formatMarked : Format → Diff → Prop
  | .Normal => NoMarks
  | _ => InlineMarked

theorem parseLines_cells {win : Bool} {cmp : Str → Str → Int} {g : Generator} {heap : Heap} {lines : List Str} {r : ParseResult}
    (h : parseLines win cmp g heap lines = Res.ok r) : NewCells (formatMarked (determineFormat g lines)) heap r.heap := by
  unfold parseLines at h
  simp only at h
  split at h
  · rename_i e
    obtain ⟨st, hs, h⟩ := Res.bind_eq_ok.1 h
    simp only [Res.ok.injEq] at h
    rw [e, ← h]
    exact contextFiles_cells hs (NewCells.refl _ _)
  · rename_i e
    obtain ⟨st, hs, h⟩ := Res.bind_eq_ok.1 h
    simp only [Res.ok.injEq] at h
    rw [e, ← h]
    exact normalFiles_cells hs (NewCells.refl _ _)
  · rename_i e
    obtain ⟨st, hs, h⟩ := Res.bind_eq_ok.1 h
    simp only [Res.ok.injEq] at h
    rw [e, ← h]
    exact unifiedFiles_cells hs (NewCells.refl _ _)
  · simp only [Res.ok.injEq] at h
    rw [← h]
    exact NewCells.refl _ _

theorem applyQuietly_lines (d : Diff) (b : Bool) : (d.applyQuietly b).source = d.source ∧ (d.applyQuietly b).dest = d.dest ∧ (d.applyQuietly b).type = d.type := by
  unfold Diff.applyQuietly
  split <;> exact ⟨rfl, rfl, rfl⟩

theorem lcMarkerLoop_marked {src dst : List Str} {sNo dNo : Int} {n : Nat} {sm dm : List Marker} {cs cd : Int} {ds : List Diff}
    (h : lcMarkerLoop src dst sNo dNo n sm dm cs cd = Res.ok ds) : ∀ d ∈ ds, InlineMarked d := by
  induction n generalizing sm dm cs cd ds with
  | zero => simp [lcMarkerLoop] at h
  | succ n ih =>
    simp only [lcMarkerLoop] at h
    split at h
    · simp only [Res.ok.injEq] at h; rw [← h]; simp
    · obtain ⟨⟨sl, sm', cs'⟩, hs, h⟩ := Res.bind_eq_ok.1 h
      obtain ⟨⟨dl, dm', cd'⟩, hd, h⟩ := Res.bind_eq_ok.1 h
      obtain ⟨diff, hdiff, h⟩ := Res.bind_eq_ok.1 h
      obtain ⟨rest, hr, h⟩ := Res.bind_eq_ok.1 h
      simp only [Res.ok.injEq] at h
      rw [← h]
      intro d hd
      rcases List.mem_cons.1 hd with rfl | hd
      · have hpl : ((dl.foldl Diff.addDest (sl.foldl Diff.addSource (Diff.new (sNo + (cs + min (nextOffset dm (↑src.length + ↑dst.length + 1) - cd) (nextOffset sm (↑src.length + ↑dst.length + 1) - cs))) (dNo + (cd + min (nextOffset dm (↑src.length + ↑dst.length + 1) - cd) (nextOffset sm (↑src.length + ↑dst.length + 1) - cs))))))).Plain :=
          ((Diff.Plain.new _ _ _).sources _).dests _
        have key : InlineMarked diff := by
          unfold computeDiffStats at hdiff
          simp only at hdiff
          split at hdiff
          · refine determineInline_marked ?_ hdiff; exact hpl
          · split at hdiff
            · refine determineInline_marked ?_ hdiff; exact hpl
            · split at hdiff
              · refine determineInline_marked ?_ hdiff; exact hpl
              · exact determineInline_marked hpl hdiff
        obtain ⟨q1, q2, q3⟩ := applyQuietly_lines diff true
        unfold InlineMarked at key ⊢
        simp only [q1, q2, q3]
        exact key
      · exact ih hr d hd

end KompareDiff2
