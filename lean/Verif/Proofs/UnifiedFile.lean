import Verif.Proofs.ParserHeap
/-
The unified parser on well-formed files.
-/
namespace KompareDiff2
open Spec

theorem blockViews_changed (bs : List Block) (p q : Nat) :
    (blockViews p q bs).map (fun v => decide (v.type ≠ .Unchanged)) = bs.map Block.isChange := by
  induction bs generalizing p q with
  | nil => rfl
  | cons b bs ih =>
    simp only [blockViews, List.map_cons, ih]
    congr 1
    cases b with
    | context ls => simp [Block.view, Block.isChange]
    | change r a =>
      simp only [Block.view, Block.isChange]
      split
      · simp
      · split <;> simp

theorem flagged_of_blocks {es : Entries} {bs : List Block} {p q : Nat} (h1 : es.map (fun e => e.1.view) = blockViews p q bs)
    (h2 : es.map Prod.snd = bs.map Block.isChange) : es.Flagged := by
  have h3 := blockViews_changed bs p q
  rw [← h1, ← h2, List.map_map] at h3
  intro e he
  have := List.map_inj_left.1 h3 e he
  exact this.symm

/-- The hunk of the specification is the hunk added. -/
theorem hunkView_eq {es : Entries} (h : UHunk) (h1 : es.map (fun e => e.1.view) = blockViews h.srcLine h.dstLine h.blocks) :
    hunkView h.srcLine h.dstLine (h.function.getD []) es = h.view := by
  simp only [hunkView, UHunk.view, h1]

/-- A list that does not begin with an empty line or a hunk header. -/
structure AfterHunks (rest : List Str) : Prop where
  nonEmpty : rest.head? ≠ some []
  noHeader : ∀ l, rest.head? = some l → (str "@@ -").isPrefixOf l = false

theorem UHunk.header_prefix (h : UHunk) (s : List Str) : (h.clean ++ s).head? = some h.header ∧ h.header ≠ [] := by
  refine ⟨rfl, ?_⟩
  simp [UHunk.header, str]

/-- The differences in a list of hunks. -/
def hunkDiffs (hs : List UHunk) : List DView := (hs.flatMap (fun h => h.view.diffs)).filter (fun d => d.type ≠ .Unchanged)

theorem hunks_ok (hs : List UHunk) (ok : ∀ h ∈ hs, h.Ok) (rest : List Str) (hr : AfterHunks rest) (n : Nat) (hn : hs.length < n)
    (st : PState) (e : st.rest = hs.flatMap UHunk.clean ++ rest) (p : Parsed (fun _ => True) st.heap st.cur) :
    ∃ st', hunkLoop parseUnifiedHunk n st = Res.ok st' ∧ st'.rest = rest ∧ st'.models = st.models ∧ st'.malformed = st.malformed ∧
      st.heap.Ext st'.heap ∧ Parsed (fun _ => True) st'.heap st'.cur ∧
      st'.cur.view st'.heap = { st.cur.view st.heap with
        hunks := (st.cur.view st.heap).hunks ++ hs.map UHunk.view,
        differences := (st.cur.view st.heap).differences ++ hunkDiffs hs } := by
  induction hs generalizing n st with
  | nil =>
    cases n with
    | zero => simp at hn
    | succ n =>
      refine ⟨st, ?_, by simpa using e, rfl, rfl, Heap.Ext.refl _, p, by simp [hunkDiffs]⟩
      have : parseUnifiedHunk st = Res.ok none := by
        simp only [List.flatMap_nil, List.nil_append] at e
        unfold parseUnifiedHunk
        rw [e]
        cases rest with
        | nil => rfl
        | cons l rest => simp [unifiedHunkHeader_none (hr.noHeader l rfl)]
      simp [hunkLoop, this]
  | cons h hs ih =>
    cases n with
    | zero => simp at hn
    | succ n =>
      simp only [List.length_cons] at hn
      have hrest : (hs.flatMap UHunk.clean ++ rest).head? ≠ some [] := by
        cases hs with
        | nil => exact hr.nonEmpty
        | cons h' hs =>
          rw [List.flatMap_cons, List.append_assoc, (UHunk.header_prefix h' _).1]
          intro e; exact (UHunk.header_prefix h' []).2 (Option.some.inj e)
      obtain ⟨es, h1, h2, h3⟩ := parseUnifiedHunk_ok h (ok h (by simp)) st (hs.flatMap UHunk.clean ++ rest) hrest
        (by rw [e, List.flatMap_cons, List.append_assoc])
      have hf := flagged_of_blocks h2 h3
      have hp := addHunk_parsed st h.srcLine h.dstLine (h.function.getD []) es p hf trivial
      have hv := addHunk_view st h.srcLine h.dstLine (h.function.getD []) es p hf
      have hx := addHunk_ext st h.srcLine h.dstLine (h.function.getD []) es
      obtain ⟨st', g1, g2, g3, g4, g5, g6, g7⟩ := ih (fun h hh => ok h (by simp [hh])) n (by omega)
        { (st.addHunk h.srcLine h.dstLine (h.function.getD []) es) with rest := hs.flatMap UHunk.clean ++ rest } rfl hp
      refine ⟨st', ?_, g2, g3, g4, hx.trans g5, g6, ?_⟩
      · simp only [hunkLoop, h1, Res.bind_ok]
        exact g1
      · rw [g7]
        simp only [hv, hunkView_eq h h2, h2]
        simp [hunkDiffs, UHunk.view]

/-! ### Searching the file header -/

theorem twoLineHeader_skip (h1 h2 : Re) (mk : Caps → Caps → DModel) (st : PState) (pre ls : List Str)
    (hp : ∀ l ∈ pre, h1.full l = none) : twoLineHeader h1 h2 mk st (pre ++ ls) = twoLineHeader h1 h2 mk st ls := by
  induction pre with
  | nil => rfl
  | cons l pre ih =>
    simp only [List.cons_append, twoLineHeader]
    rw [hp l (by simp)]
    exact ih (fun l hl => hp l (by simp [hl]))

theorem prefix_newline {p t : Str} (hp : '\n' ∉ p) (h : p.isPrefixOf (t ++ ['\n']) = true) : p <+: t := by
  rw [List.isPrefixOf_iff_prefix, List.prefix_concat_iff] at h
  rcases h with h | h
  · exact absurd (h ▸ (by simp : '\n' ∈ t ++ ['\n'])) hp
  · exact h

theorem not_prefix_newline {p t : Str} (hp : '\n' ∉ p) (h : ¬ p <+: t) : p.isPrefixOf (t ++ ['\n']) = false := by
  cases e : p.isPrefixOf (t ++ ['\n']) with
  | false => rfl
  | true => exact absurd (prefix_newline hp e) h

theorem prefix_newline_iff {p t : Str} (hp : '\n' ∉ p) : p.isPrefixOf (t ++ ['\n']) = true ↔ p <+: t := by
  constructor
  · exact prefix_newline hp
  · intro h
    rw [List.isPrefixOf_iff_prefix]
    exact h.trans (List.prefix_append _ _)

/-- The lines of a file diff after folding. -/
def Spec.UFile.clean (f : UFile) : List Str :=
  f.preamble.map (· ++ ['\n']) ++ ((str "--- " ++ f.src.render) :: (str "+++ " ++ f.dst.render) :: f.hunks.flatMap UHunk.clean)

theorem header_ok (win : Bool) (g : Generator) (hg : g ≠ .Perforce) (f : UFile) (ok : f.Ok) (st : PState) (rest : List Str)
    (e : st.rest = f.clean ++ rest) :
    ∃ m : DModel, parseUnifiedDiffHeader win g st = Res.ok ({ st with rest := f.hunks.flatMap UHunk.clean ++ rest, cur := m }, true) ∧
      m.Blank ∧ m.source = unescapePath win f.src.name ∧ m.destination = unescapePath win f.dst.name ∧
      m.sourceTimestamp = f.src.stamp.getD [] ∧ m.destinationTimestamp = f.dst.stamp.getD [] ∧
      m.sourceRevision = [] ∧ m.destinationRevision = [] := by
  obtain ⟨c1, m1, a1, a2, a4⟩ := unifiedHeader1_match f.src ok.src
  obtain ⟨c2, m2, b1, b2, b4⟩ := unifiedHeader2_match f.dst ok.dst
  have hh : unifiedHeader1 g = reUnifiedHeader1 := by cases g <;> first | rfl | exact absurd rfl hg
  have hskip : ∀ l ∈ f.preamble.map (· ++ ['\n']), reUnifiedHeader1.full l = none := by
    intro l hl
    obtain ⟨t, ht, rfl⟩ := List.mem_map.1 hl
    exact unifiedHeader1_none (not_prefix_newline (by decide) (ok.between t ht).2.1)
  have key : parseUnifiedDiffHeader win g st = twoLineHeader reUnifiedHeader1 reUnifiedHeader2 (fun c1 c2 =>
      newModel (unescapePath win (c1.get 1)) (unescapePath win (c2.get 1)) (c1.get 2) (c1.get 4) (c2.get 2) (c2.get 4)) st st.rest := by
    cases g <;> first | rfl | exact absurd rfl hg
  refine ⟨newModel (unescapePath win (c1.get 1)) (unescapePath win (c2.get 1)) (c1.get 2) (c1.get 4) (c2.get 2) (c2.get 4),
    ?_, newModel_blank _ _ _ _ _ _, ?_⟩
  · rw [key, e]
    simp only [UFile.clean, List.append_assoc]
    rw [twoLineHeader_skip _ _ _ _ _ _ hskip]
    simp [twoLineHeader, m1, m2]
  · refine ⟨?_, ?_, ?_, ?_, ?_, ?_⟩ <;>
      simp [newModel, DModel.new, DModel.setSourceFile, DModel.setDestinationFile, a1, a2, a4, b1, b2, b4]

/-! ### Files -/

/-- What follows a file: another file, or the trailer. -/
structure AfterFile (rest : List Str) : Prop where
  after : AfterHunks rest
  check : ∀ st : PState, st.rest = rest → checkHeader reUnifiedHeader1 st = st

theorem changes_iff (f : UFile) : f.changes = decide (0 < (hunkDiffs f.hunks).length) := by
  have key : ∀ (bs : List Block) (p q : Nat), (0 < ((blockViews p q bs).filter (fun d => decide (d.type ≠ .Unchanged))).length ↔
      ∃ b ∈ bs, b.isChange = true) := by
    intro bs p q
    have := blockViews_changed bs p q
    constructor
    · intro h
      obtain ⟨v, hv⟩ := List.exists_mem_of_length_pos h
      obtain ⟨hv1, hv2⟩ := List.mem_filter.1 hv
      have : decide (v.type ≠ .Unchanged) ∈ bs.map Block.isChange := by rw [← this]; exact List.mem_map.2 ⟨v, hv1, rfl⟩
      rw [hv2] at this
      obtain ⟨b, hb, e⟩ := List.mem_map.1 this
      exact ⟨b, hb, e⟩
    · rintro ⟨b, hb, e⟩
      have h2 : true ∈ bs.map Block.isChange := by rw [← e]; exact List.mem_map.2 ⟨b, hb, rfl⟩
      rw [← this] at h2
      obtain ⟨v, hv, e⟩ := List.mem_map.1 h2
      exact List.length_pos_iff_exists_mem.2 ⟨v, List.mem_filter.2 ⟨hv, e⟩⟩
  rw [Bool.eq_iff_iff]
  simp only [UFile.changes, List.any_eq_true, decide_eq_true_eq]
  constructor
  · rintro ⟨h, hh, b, hb, hc⟩
    have := (key h.blocks h.srcLine h.dstLine).2 ⟨b, hb, hc⟩
    obtain ⟨v, hv⟩ := List.exists_mem_of_length_pos this
    obtain ⟨hv1, hv2⟩ := List.mem_filter.1 hv
    exact List.length_pos_iff_exists_mem.2 ⟨v, List.mem_filter.2 ⟨List.mem_flatMap.2 ⟨h, hh, hv1⟩, hv2⟩⟩
  · intro h
    obtain ⟨v, hv⟩ := List.exists_mem_of_length_pos h
    obtain ⟨hv1, hv2⟩ := List.mem_filter.1 hv
    obtain ⟨h, hh, hv3⟩ := List.mem_flatMap.1 hv1
    obtain ⟨b, hb, hc⟩ := (key h.blocks h.srcLine h.dstLine).1 (List.length_pos_iff_exists_mem.2 ⟨v, List.mem_filter.2 ⟨hv3, hv2⟩⟩)
    exact ⟨h, hh, b, hb, hc⟩

/-- The models found so far and what they look like. -/
structure FilesInv (st : PState) (views : List MView) : Prop where
  parsed : ∀ m ∈ st.models, Parsed (fun _ => True) st.heap m
  views : st.models.map (DModel.view st.heap) = views

theorem file_ok (win : Bool) (g : Generator) (hg : g ≠ .Perforce) (f : UFile) (ok : f.Ok) (st : PState) (rest : List Str)
    (hr : AfterFile rest) (e : st.rest = f.clean ++ rest) (vs : List MView) (inv : FilesInv st vs) :
    ∃ st1 st2, parseUnifiedDiffHeader win g st = Res.ok (st1, true) ∧ unifiedHunks st1 = Res.ok st2 ∧
      ∃ st3, checkHeader (unifiedHeader1 g) st2.keepModel = st3 ∧ st3.rest = rest ∧ st3.malformed = st.malformed ∧
        FilesInv st3 (vs ++ if f.changes then [f.view (unescapePath win)] else []) := by
  obtain ⟨m, h1, hb, s1, s2, s3, s4, s5, s6⟩ := header_ok win g hg f ok st rest e
  have hlen : f.hunks.length < (f.hunks.flatMap UHunk.clean ++ rest).length + 1 := by
    have : f.hunks.length ≤ (f.hunks.flatMap UHunk.clean).length := by
      induction f.hunks with
      | nil => simp
      | cons h hs ih => simp only [List.flatMap_cons, List.length_append, List.length_cons, UHunk.clean]; omega
    simp only [List.length_append]; omega
  obtain ⟨st2, g1, g2, g3, g4, g5, g6, g7⟩ := hunks_ok f.hunks ok.hunks rest hr.after _ hlen
    { st with rest := f.hunks.flatMap UHunk.clean ++ rest, cur := m } rfl (hb.parsed _)
  refine ⟨_, st2, h1, g1, st2.keepModel, ?_, ?_, ?_, ?_⟩
  · have hh : unifiedHeader1 g = reUnifiedHeader1 := by cases g <;> first | rfl | exact absurd rfl hg
    rw [hh]
    apply hr.check
    unfold PState.keepModel
    split <;> exact g2
  · unfold PState.keepModel
    split <;> exact g2
  · unfold PState.keepModel
    split <;> exact g4
  · have hview : st2.cur.view st2.heap = f.view (unescapePath win) := by
      rw [g7]
      simp only [DModel.view, UFile.view, s1, s2, s3, s4, s5, s6, hb.hunks, hb.differences, hb.initial.1, List.map_nil, List.nil_append]
      rfl
    have hcount : f.changes = decide (0 < st2.cur.differences.length) := by
      rw [changes_iff]
      have := congrArg (fun v => v.differences.length) hview
      simp only [DModel.view, UFile.view, List.length_map] at this
      rw [this]; rfl
    have hold : FilesInv st2 vs := by
      constructor
      · intro m hm
        rw [g3] at hm
        exact (inv.parsed m hm).ext g5
      · rw [g3, ← inv.views]
        apply List.map_congr_left
        intro m hm
        exact (inv.parsed m hm).view_ext g5
    unfold PState.keepModel
    rw [hcount]
    by_cases hc : 0 < st2.cur.differences.length
    · rw [if_pos hc]
      simp only [hc, decide_true, if_true]
      constructor
      · intro m hm
        simp only [List.mem_append, List.mem_singleton] at hm
        rcases hm with hm | rfl
        · exact hold.parsed m hm
        · exact g6
      · simp only [List.map_append, List.map_cons, List.map_nil, hold.views, hview]
    · rw [if_neg hc]
      simp only [hc, decide_false, Bool.false_eq_true, if_false, List.append_nil]
      exact hold

/-- Every file but the first is introduced by a separator line or directly by its header. -/
theorem afterFile_file (f : UFile) (ok : f.Ok) (hs : ∀ t ts, f.preamble = t :: ts → SeparatorLine t) (rest : List Str) :
    AfterFile (f.clean ++ rest) := by
  cases hp : f.preamble with
  | nil =>
    have e : f.clean ++ rest = (str "--- " ++ f.src.render) :: ((str "+++ " ++ f.dst.render) :: (f.hunks.flatMap UHunk.clean ++ rest)) := by
      simp [UFile.clean, hp]
    rw [e]
    refine ⟨⟨by simp [str], ?_⟩, ?_⟩
    · intro l hl
      simp only [List.head?_cons, Option.some.injEq] at hl
      subst hl; simp [str, List.isPrefixOf]
    · intro st hst
      obtain ⟨c1, m1, _⟩ := unifiedHeader1_match f.src ok.src
      simp [checkHeader, hst, m1]
  | cons t ts =>
    have e : f.clean ++ rest = (t ++ ['\n']) :: (ts.map (· ++ ['\n']) ++
        ((str "--- " ++ f.src.render) :: (str "+++ " ++ f.dst.render) :: f.hunks.flatMap UHunk.clean) ++ rest) := by
      simp [UFile.clean, hp]
    rw [e]
    have hsep := hs t ts hp
    refine ⟨⟨by simp, ?_⟩, ?_⟩
    · intro l hl
      simp only [List.head?_cons, Option.some.injEq] at hl
      subst hl
      apply not_prefix_newline (by decide)
      intro hpre
      rcases hsep with h | h | h <;>
      · obtain ⟨u, rfl⟩ := h
        obtain ⟨v, hv⟩ := hpre
        simp [str] at hv
    · intro st hst
      have h3 := hsep.imp (prefix_newline_iff (by decide)).2
        (fun h => h.imp (prefix_newline_iff (by decide)).2 (prefix_newline_iff (by decide)).2)
      simp only [checkHeader, hst]
      rw [if_pos (Or.inr h3)]

theorem afterFile_trailer (tr : List Str) (hs : ∀ t ts, tr = t :: ts → SeparatorLine t) : AfterFile (tr.map (· ++ ['\n'])) := by
  cases tr with
  | nil => exact ⟨⟨by simp, by simp⟩, fun st hst => by simp [checkHeader, hst]⟩
  | cons t ts =>
    have hsep := hs t ts rfl
    refine ⟨⟨by simp, ?_⟩, ?_⟩
    · intro l hl
      simp only [List.map_cons, List.head?_cons, Option.some.injEq] at hl
      subst hl
      apply not_prefix_newline (by decide)
      intro hpre
      rcases hsep with h | h | h <;>
      · obtain ⟨u, rfl⟩ := h
        obtain ⟨v, hv⟩ := hpre
        simp [str] at hv
    · intro st hst
      have h3 := hsep.imp (prefix_newline_iff (by decide)).2
        (fun h => h.imp (prefix_newline_iff (by decide)).2 (prefix_newline_iff (by decide)).2)
      simp only [checkHeader, hst, List.map_cons]
      rw [if_pos (Or.inr h3)]

theorem trailer_end (win : Bool) (g : Generator) (hg : g ≠ .Perforce) (tr : List Str) (ht : ∀ t ∈ tr, BetweenLine t) (st : PState)
    (e : st.rest = tr.map (· ++ ['\n'])) : parseUnifiedDiffHeader win g st = Res.ok ({ st with rest := [] }, false) := by
  have key : ∀ mk, twoLineHeader reUnifiedHeader1 reUnifiedHeader2 mk st (tr.map (· ++ ['\n'])) = Res.ok ({ st with rest := [] }, false) := by
    intro mk
    have := twoLineHeader_skip reUnifiedHeader1 reUnifiedHeader2 mk st (tr.map (· ++ ['\n'])) [] (by
      intro l hl
      obtain ⟨t, h, rfl⟩ := List.mem_map.1 hl
      exact unifiedHeader1_none (not_prefix_newline (by decide) (ht t h).2.1))
    rw [List.append_nil] at this
    rw [this]; rfl
  cases g with
  | Perforce => exact absurd rfl hg
  | Diff => simp only [parseUnifiedDiffHeader]; rw [e]; exact key _
  | CVSDiff => simp only [parseUnifiedDiffHeader]; rw [e]; exact key _

theorem files_ok (win : Bool) (g : Generator) (hg : g ≠ .Perforce) (fs : List UFile) (ok : ∀ f ∈ fs, f.Ok)
    (later : ∀ f fs', fs = f :: fs' → ∀ k ∈ fs', ∀ t ts, k.preamble = t :: ts → SeparatorLine t)
    (tr : List Str) (ht : ∀ t ∈ tr, BetweenLine t) (hts : ∀ t ts, tr = t :: ts → SeparatorLine t)
    (n : Nat) (hn : fs.length < n) (st : PState) (vs : List MView) (inv : FilesInv st vs)
    (e : st.rest = fs.flatMap UFile.clean ++ tr.map (· ++ ['\n'])) :
    ∃ st', fileLoop (parseUnifiedDiffHeader win g) unifiedHunks (unifiedHeader1 g) n st = Res.ok st' ∧
      st'.malformed = st.malformed ∧ st'.rest = [] ∧
      FilesInv st' (vs ++ (fs.filter UFile.changes).map (UFile.view (unescapePath win))) := by
  induction fs generalizing n st vs with
  | nil =>
    cases n with
    | zero => simp at hn
    | succ n =>
      simp only [List.flatMap_nil, List.nil_append] at e
      refine ⟨{ st with rest := [] }, ?_, rfl, rfl, ?_⟩
      · simp [fileLoop, trailer_end win g hg tr ht st e]
      · simp only [List.filter_nil, List.map_nil, List.append_nil]
        exact ⟨inv.parsed, inv.views⟩
  | cons f fs ih =>
    cases n with
    | zero => simp at hn
    | succ n =>
      simp only [List.length_cons] at hn
      have hafter : AfterFile (fs.flatMap UFile.clean ++ tr.map (· ++ ['\n'])) := by
        cases fs with
        | nil => simpa using afterFile_trailer tr hts
        | cons f' fs =>
          rw [List.flatMap_cons, List.append_assoc]
          exact afterFile_file f' (ok f' (by simp)) (later f _ rfl f' (by simp)) _
      obtain ⟨st1, st2, h1, h2, st3, h3, h4, h5, h6⟩ := file_ok win g hg f (ok f (by simp)) st _ hafter
        (by rw [e, List.flatMap_cons, List.append_assoc]) vs inv
      obtain ⟨st', g1, g2, g3, g4⟩ := ih (fun f hf => ok f (by simp [hf]))
        (by
          intro k ks hk k' hk' t ts ht
          exact later f fs rfl k' (by rw [hk]; simp [hk']) t ts ht) n (by omega) st3 _ h6 h4
      refine ⟨st', ?_, by rw [g2, h5], g3, ?_⟩
      · simp only [fileLoop, h1, Res.bind_ok, Bool.true_eq_false, if_false, h2, h3]
        exact g1
      · rw [List.append_assoc] at g4
        by_cases hc : f.changes
        · simpa [hc] using g4
        · simpa [hc] using g4

end KompareDiff2
