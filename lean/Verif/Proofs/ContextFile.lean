import Verif.Proofs.ContextHunk
import Verif.Proofs.UnifiedDiff
/-
The context parser on well-formed files.
-/
namespace KompareDiff2
open Spec Re

/-! ### File headers -/

theorem contextHeader_match (pre : String) (h : Header) (ok : h.Ok) (hx : h.extra = none) :
    ∃ c, (reContextDiffHeader pre).full (str pre ++ h.render) = some c ∧ c.get 1 = h.name ∧ c.get 3 = h.stamp.getD [] ∧ c.get 5 = [] := by
  obtain ⟨hne, htab, hnl⟩ := ok.name
  unfold reContextDiffHeader Re.full
  rw [m_cat_cons, m_text_append, m_cat_cons, m_grp]
  cases hs : h.stamp with
  | none =>
    have e : h.render = h.name ++ ['\n'] := by simp [Header.render, hs]
    rw [e]
    refine ⟨[(1, h.name)], ?_, rfl, rfl, rfl⟩
    refine m_noTab_newline _ _ _ _ hne htab ?_ ?_
    · simp
    · rw [take_len]; simp
  | some ts =>
    obtain ⟨h1, h2, h3⟩ := ok.stamp ts hs
    have e : h.render = h.name ++ '\t' :: (ts ++ ['\n']) := by simp [Header.render, hs, hx]
    rw [e]
    refine ⟨[(2, '\t' :: ts), (3, ts), (1, h.name)], ?_, rfl, rfl, rfl⟩
    refine m_noTab_tab _ _ _ _ _ hne htab ?_
    rw [take_len, m_cat_cons, m_opt, m_grp, m_seq, m_lit_cons, if_pos rfl, m_grp]
    rw [m_noTab_newline ts _ _ _ h1 h2]
    · rfl
    · simp
    · have e1 : (ts ++ ['\n']).take ((ts ++ ['\n']).length - ['\n'].length) = ts := take_len ts ['\n']
      have e2 : ('\t' :: (ts ++ ['\n'])).take (('\t' :: (ts ++ ['\n'])).length - ['\n'].length) = '\t' :: ts := take_len ('\t' :: ts) ['\n']
      rw [e1, e2]; rfl

theorem cvsHeader1_match (h : Header) (ok : h.Ok) (hs : h.stamp ≠ none) (hx : h.extra ≠ none) :
    ∃ c, reContextDiffHeader1Cvs.full (str "*** " ++ h.render) = some c ∧ c.get 1 = h.name ∧ c.get 3 = h.extra.getD [] ∧ c.get 5 = [] := by
  obtain ⟨hne, htab, hnl⟩ := ok.name
  cases hs' : h.stamp with
  | none => exact absurd hs' hs
  | some ts =>
    cases hx' : h.extra with
    | none => exact absurd hx' hx
    | some r =>
      obtain ⟨h1, h2, h3⟩ := ok.stamp ts hs'
      have e : h.render = h.name ++ '\t' :: (ts ++ '\t' :: (r ++ ['\n'])) := by simp [Header.render, hs', hx']
      rw [e]
      refine ⟨[(3, r), (2, ts), (1, h.name)], ?_, rfl, rfl, rfl⟩
      unfold reContextDiffHeader1Cvs Re.full
      rw [m_cat_cons, m_text_append, m_cat_cons, m_grp]
      refine m_noTab_tab _ _ _ _ _ hne htab ?_
      rw [take_len, m_cat_cons, m_lit_cons, if_pos rfl, m_cat_cons, m_grp]
      refine m_noTab_tab _ _ _ _ _ h1 h2 ?_
      rw [take_len, m_cat_cons, m_lit_cons, if_pos rfl, m_cat_cons]
      exact dotLit_newline 3 r _ (ok.extra r hx')

theorem cvsHeader2_match (h : Header) (ok : h.Ok) (hs : h.stamp ≠ none) :
    ∃ c, reContextDiffHeader2Cvs.full (str "--- " ++ h.render) = some c ∧ c.get 1 = h.name ∧
      c.get 3 = (match h.extra with | none => [] | some r => '\t' :: r) ∧ c.get 5 = [] := by
  obtain ⟨hne, htab, hnl⟩ := ok.name
  cases hs' : h.stamp with
  | none => exact absurd hs' hs
  | some ts =>
    obtain ⟨h1, h2, h3⟩ := ok.stamp ts hs'
    cases hx' : h.extra with
    | none =>
      have e : h.render = h.name ++ '\t' :: (ts ++ ['\n']) := by simp [Header.render, hs', hx']
      rw [e]
      refine ⟨[(3, []), (2, ts), (1, h.name)], ?_, rfl, rfl, rfl⟩
      unfold reContextDiffHeader2Cvs Re.full
      rw [m_cat_cons, m_text_append, m_cat_cons, m_grp]
      refine m_noTab_tab _ _ _ _ _ hne htab ?_
      rw [take_len, m_cat_cons, m_lit_cons, if_pos rfl, m_cat_cons, m_grp]
      refine m_noTab_newline _ _ _ _ h1 h2 ?_ ?_
      · simp [m_alt]
      · rw [take_len]; simp [m_alt]
    | some r =>
      have e : h.render = h.name ++ '\t' :: (ts ++ '\t' :: (r ++ ['\n'])) := by simp [Header.render, hs', hx']
      rw [e]
      refine ⟨[(3, '\t' :: r), (4, r), (2, ts), (1, h.name)], ?_, rfl, rfl, rfl⟩
      unfold reContextDiffHeader2Cvs Re.full
      rw [m_cat_cons, m_text_append, m_cat_cons, m_grp]
      refine m_noTab_tab _ _ _ _ _ hne htab ?_
      rw [take_len, m_cat_cons, m_lit_cons, if_pos rfl, m_cat_cons, m_grp]
      refine m_noTab_tab _ _ _ _ _ h1 h2 ?_
      rw [take_len, m_cat_cons, m_grp, m_alt, m_eps, m_cat_one, m_lit_cons, if_neg (by decide), m_seq, m_lit_cons, if_pos rfl, m_grp]
      simp only [Option.none_or]
      have hd := ok.extra r hx'
      rw [dot, m_many_chr]
      refine greedy_run (dot_ok hd) ?_ ?_
      · intro y hy; simp only [List.head?_cons, Option.some.injEq] at hy; subst hy; decide
      · have e1 : (r ++ ['\n']).take ((r ++ ['\n']).length - ['\n'].length) = r := take_len r ['\n']
        have e2 : ('\t' :: (r ++ ['\n'])).take (('\t' :: (r ++ ['\n'])).length - ['\n'].length) = '\t' :: r := take_len ('\t' :: r) ['\n']
        rw [e1, e2]; rfl

theorem contextHeader1_none (g : Generator) (hg : g ≠ .Perforce) {l : Str} (h : (str "*** ").isPrefixOf l = false) :
    (contextHeader1 g).full l = none := by
  cases g with
  | Perforce => exact absurd rfl hg
  | Diff => exact full_text_cat_none h
  | CVSDiff => exact full_text_cat_none h

/-- The generator a diff is taken to come from. -/
def genOf (cvs : Bool) : Generator := if cvs then .CVSDiff else .Diff

theorem genOf_ne (cvs : Bool) : genOf cvs ≠ .Perforce := by cases cvs <;> simp [genOf]

/-- Both header lines. -/
theorem contextHeaders_match (cvs : Bool) (src dst : Header) (os : src.Ok) (od : dst.Ok) (h : HeadersOk cvs src dst) :
    ∃ c1 c2, (contextHeader1 (genOf cvs)).full (str "*** " ++ src.render) = some c1 ∧
      (contextHeader2 (genOf cvs)).full (str "--- " ++ dst.render) = some c2 ∧
      c1.get 1 = src.name ∧ c2.get 1 = dst.name ∧ c1.get 3 = (shownStamps cvs src dst).1 ∧ c2.get 3 = (shownStamps cvs src dst).2 ∧
      c1.get 5 = [] ∧ c2.get 5 = [] := by
  cases cvs with
  | false =>
    obtain ⟨c1, a1, a2, a3, a4⟩ := contextHeader_match "*** " src os (h.1 rfl).1
    obtain ⟨c2, b1, b2, b3, b4⟩ := contextHeader_match "--- " dst od (h.1 rfl).2
    exact ⟨c1, c2, a1, b1, a2, b2, a3, b3, a4, b4⟩
  | true =>
    obtain ⟨h1, h2, h3⟩ := h.2 rfl
    obtain ⟨c1, a1, a2, a3, a4⟩ := cvsHeader1_match src os h1 h2
    obtain ⟨c2, b1, b2, b3, b4⟩ := cvsHeader2_match dst od h3
    exact ⟨c1, c2, a1, b1, a2, b2, a3, b3, a4, b4⟩

/-! ### Hunks -/

theorem cblockViews_changed (bs : List CBlock) (p q : Nat) :
    (cblockViews p q bs).map (fun v => decide (v.type ≠ .Unchanged)) = bs.map CBlock.isChange := by
  induction bs generalizing p q with
  | nil => rfl
  | cons b bs ih =>
    simp only [cblockViews, List.map_cons, ih]
    congr 1
    cases b <;> simp [CBlock.view, CBlock.isChange]

theorem flagged_of_cblocks {es : Entries} {bs : List CBlock} {p q : Nat} (h1 : es.map (fun e => e.1.view) = cblockViews p q bs)
    (h2 : es.map Prod.snd = bs.map CBlock.isChange) : es.Flagged := by
  have h3 := cblockViews_changed bs p q
  rw [← h1, ← h2, List.map_map] at h3
  intro e he
  exact (List.map_inj_left.1 h3 e he).symm

/-- A list of lines that ends the hunks: no section line, no star line. -/
structure CAfterHunks (rest : List Str) : Prop where
  noSection : ∀ l, rest.head? = some l → (reContextLine.full l).isSome = false
  noStars : ∀ l, rest.head? = some l → reContextHunkHeader1.full l = none

/-- The differences in a list of hunks. -/
def chunkDiffs (hs : List CHunk) : List DView := (hs.flatMap (fun h => h.view.diffs)).filter (fun d => d.type ≠ .Unchanged)

theorem section_none_of {l : Str} {c : Char} (h : ∃ d s, l = c :: d :: s ∧ d ≠ ' ') : (reContextLine.full l).isSome = false := by
  obtain ⟨d, s, rfl, hd⟩ := h
  cases hx : reContextLine.full (c :: d :: s) with
  | none => rfl
  | some k =>
    obtain ⟨x, t, _, _, e, _⟩ := reBody_full.1 hx
    simp only [List.cons_append, List.cons.injEq] at e
    exact absurd e.2.1 hd

theorem CHunk.stars_section (h : CHunk) : (reContextLine.full h.stars).isSome = false :=
  section_none_of ⟨'*', _, rfl, by decide⟩

theorem chunks_ok (hs : List CHunk) (ok : ∀ h ∈ hs, h.Ok) (rest : List Str) (hr : CAfterHunks rest) (n : Nat) (hn : hs.length < n)
    (st : PState) (e : st.rest = hs.flatMap CHunk.render ++ rest) (p : Parsed (fun _ => True) st.heap st.cur) :
    ∃ st', contextHunkLoop n st = Res.ok st' ∧ st'.rest = rest ∧ st'.models = st.models ∧ st'.malformed = st.malformed ∧
      st.heap.Ext st'.heap ∧ Parsed (fun _ => True) st'.heap st'.cur ∧
      st'.cur.view st'.heap = { st.cur.view st.heap with
        hunks := (st.cur.view st.heap).hunks ++ hs.map CHunk.view,
        differences := (st.cur.view st.heap).differences ++ chunkDiffs hs } := by
  induction hs generalizing n st with
  | nil =>
    cases n with
    | zero => simp at hn
    | succ n =>
      simp only [List.flatMap_nil, List.nil_append] at e
      have hh : contextHunkHeader st.rest = (none, st.rest) := by
        rw [e]
        cases rest with
        | nil => rfl
        | cons l rest => simp [contextHunkHeader, hr.noStars l rfl]
      refine ⟨{ st with rest := st.rest }, ?_, e, rfl, rfl, Heap.Ext.refl _, p, by simp [chunkDiffs]⟩
      simp [contextHunkLoop, parseContextHunk, hh]
  | cons h hs ih =>
    cases n with
    | zero => simp at hn
    | succ n =>
      simp only [List.length_cons] at hn
      have hrest : ∀ l, (hs.flatMap CHunk.render ++ rest).head? = some l → (reContextLine.full l).isSome = false := by
        cases hs with
        | nil => exact hr.noSection
        | cons h' hs =>
          intro l hl
          have : (h' :: hs).flatMap CHunk.render ++ rest = h'.stars :: ((h'.oldRange :: h'.oldSection ++ h'.newRange :: h'.newSection) ++
              (hs.flatMap CHunk.render ++ rest)) := by simp [CHunk.render]
          rw [this] at hl
          simp only [List.head?_cons, Option.some.injEq] at hl
          rw [← hl]; exact CHunk.stars_section h'
      obtain ⟨es, h1, h2, h3⟩ := parseContextHunk_ok h (ok h (by simp)) st (hs.flatMap CHunk.render ++ rest) hrest
        (by rw [e, List.flatMap_cons, List.append_assoc])
      have hf := flagged_of_cblocks h2 h3
      have hp := addHunk_parsed st h.srcLine h.dstLine (h.function.getD []) es p hf trivial
      have hv := addHunk_view st h.srcLine h.dstLine (h.function.getD []) es p hf
      have hx := addHunk_ext st h.srcLine h.dstLine (h.function.getD []) es
      obtain ⟨st', g1, g2, g3, g4, g5, g6, g7⟩ := ih (fun h hh => ok h (by simp [hh])) n (by omega)
        { (st.addHunk h.srcLine h.dstLine (h.function.getD []) es) with rest := hs.flatMap CHunk.render ++ rest } rfl hp
      refine ⟨st', ?_, g2, g3, g4, hx.trans g5, g6, ?_⟩
      · simp only [contextHunkLoop, h1, Res.bind_ok]
        exact g1
      · have hvw : hunkView h.srcLine h.dstLine (h.function.getD []) es = h.view := by simp only [hunkView, CHunk.view, h2]
        rw [g7]
        simp only [hv, hvw, h2]
        simp [chunkDiffs, CHunk.view]

/-! ### Files -/

theorem cheader_ok (win : Bool) (cvs : Bool) (f : CFile) (ok : f.Ok) (hh : HeadersOk cvs f.src f.dst) (st : PState) (rest : List Str)
    (e : st.rest = f.render ++ rest) :
    ∃ m : DModel, parseContextDiffHeader win (genOf cvs) st = Res.ok ({ st with rest := f.hunks.flatMap CHunk.render ++ rest, cur := m }, true) ∧
      m.Blank ∧ m.source = unescapePath win f.src.name ∧ m.destination = unescapePath win f.dst.name ∧
      m.sourceTimestamp = (shownStamps cvs f.src f.dst).1 ∧ m.destinationTimestamp = (shownStamps cvs f.src f.dst).2 ∧
      m.sourceRevision = [] ∧ m.destinationRevision = [] := by
  obtain ⟨c1, c2, m1, m2, a1, b1, a2, b2, a4, b4⟩ := contextHeaders_match cvs f.src f.dst ok.src ok.dst hh
  have hskip : ∀ l ∈ f.preamble.map (· ++ ['\n']), (contextHeader1 (genOf cvs)).full l = none := by
    intro l hl
    obtain ⟨t, ht, rfl⟩ := List.mem_map.1 hl
    exact contextHeader1_none _ (genOf_ne cvs) (not_prefix_newline (by decide) (ok.between t ht).2.1)
  have key : parseContextDiffHeader win (genOf cvs) st = twoLineHeader (contextHeader1 (genOf cvs)) (contextHeader2 (genOf cvs)) (fun c1 c2 =>
      newModel (unescapePath win (c1.get 1)) (unescapePath win (c2.get 1)) (c1.get 3) (c1.get 5) (c2.get 3) (c2.get 5)) st st.rest := by
    cases cvs <;> rfl
  refine ⟨newModel (unescapePath win (c1.get 1)) (unescapePath win (c2.get 1)) (c1.get 3) (c1.get 5) (c2.get 3) (c2.get 5),
    ?_, newModel_blank _ _ _ _ _ _, ?_⟩
  · rw [key, e]
    simp only [CFile.render, List.append_assoc]
    rw [twoLineHeader_skip _ _ _ _ _ _ hskip]
    simp [twoLineHeader, m1, m2]
  · refine ⟨?_, ?_, ?_, ?_, ?_, ?_⟩ <;>
      simp [newModel, DModel.new, DModel.setSourceFile, DModel.setDestinationFile, a1, a2, a4, b1, b2, b4]

/-- What follows a file: another file, or the trailer. -/
structure CAfterFile (cvs : Bool) (rest : List Str) : Prop where
  after : CAfterHunks rest
  check : ∀ st : PState, st.rest = rest → checkHeader (contextHeader1 (genOf cvs)) st = st

theorem CHunk.view_changes (h : CHunk) (ok : h.Ok) : ∃ v ∈ h.view.diffs, v.type ≠ .Unchanged := by
  obtain ⟨b, hb, hc⟩ := ok.changes
  have := cblockViews_changed h.blocks h.srcLine h.dstLine
  have h2 : true ∈ h.blocks.map CBlock.isChange := by rw [← hc]; exact List.mem_map.2 ⟨b, hb, rfl⟩
  rw [← this] at h2
  obtain ⟨v, hv, e⟩ := List.mem_map.1 h2
  exact ⟨v, hv, by simpa using e⟩

theorem chunkDiffs_pos (hs : List CHunk) (ok : ∀ h ∈ hs, h.Ok) : (0 < (chunkDiffs hs).length) ↔ hs ≠ [] := by
  constructor
  · rintro h rfl; simp [chunkDiffs] at h
  · intro h
    cases hs with
    | nil => exact absurd rfl h
    | cons k ks =>
      obtain ⟨v, hv, ht⟩ := CHunk.view_changes k (ok k (by simp))
      exact List.length_pos_iff_exists_mem.2 ⟨v, List.mem_filter.2 ⟨List.mem_flatMap.2 ⟨k, by simp, hv⟩, by simpa using ht⟩⟩

/-- The file has hunks. -/
def hasHunks (f : CFile) : Bool := decide (f.hunks ≠ [])

theorem cfile_run (win cvs : Bool) (f : CFile) (ok : f.Ok) (hh : HeadersOk cvs f.src f.dst) (st : PState) (rest : List Str)
    (hr : CAfterHunks rest) (e : st.rest = f.render ++ rest) (vs : List MView) (inv : FilesInv st vs) :
    ∃ st1 st2, parseContextDiffHeader win (genOf cvs) st = Res.ok (st1, true) ∧ contextHunks st1 = Res.ok st2 ∧
      st2.keepModel.rest = rest ∧ st2.keepModel.malformed = st.malformed ∧
        FilesInv st2.keepModel (vs ++ if hasHunks f then [f.view (unescapePath win) cvs] else []) := by
  obtain ⟨m, h1, hb, s1, s2, s3, s4, s5, s6⟩ := cheader_ok win cvs f ok hh st rest e
  have hlen : f.hunks.length < (f.hunks.flatMap CHunk.render ++ rest).length + 1 := by
    have : f.hunks.length ≤ (f.hunks.flatMap CHunk.render).length := by
      induction f.hunks with
      | nil => simp
      | cons h hs ih => simp only [List.flatMap_cons, List.length_append, List.length_cons, CHunk.render]; omega
    simp only [List.length_append]; omega
  obtain ⟨st2, g1, g2, g3, g4, g5, g6, g7⟩ := chunks_ok f.hunks ok.hunks rest hr _ hlen
    { st with rest := f.hunks.flatMap CHunk.render ++ rest, cur := m } rfl (hb.parsed _)
  refine ⟨_, st2, h1, g1, ?_, ?_, ?_⟩
  · unfold PState.keepModel
    split <;> exact g2
  · unfold PState.keepModel
    split <;> exact g4
  · have hview : st2.cur.view st2.heap = f.view (unescapePath win) cvs := by
      rw [g7]
      simp only [DModel.view, CFile.view, s1, s2, s3, s4, s5, s6, hb.hunks, hb.differences, hb.initial.1, List.map_nil, List.nil_append]
      rfl
    have hcount : hasHunks f = decide (0 < st2.cur.differences.length) := by
      have := congrArg (fun v => v.differences.length) hview
      simp only [DModel.view, CFile.view, List.length_map] at this
      unfold hasHunks
      rw [this]
      have := chunkDiffs_pos f.hunks ok.hunks
      rw [decide_eq_decide, ← this]
      rfl
    have hold : FilesInv st2 vs := by
      constructor
      · intro m hm
        rw [g3] at hm
        exact (inv.parsed m hm).ext g5
      · rw [g3, ← inv.views]
        apply List.map_congr_left
        intro m hm
        exact (inv.parsed m hm).view_ext g5
    unfold PState.keepModel
    rw [hcount]
    by_cases hc : 0 < st2.cur.differences.length
    · rw [if_pos hc]
      simp only [hc, decide_true, if_true]
      constructor
      · intro m hm
        simp only [List.mem_append, List.mem_singleton] at hm
        rcases hm with hm | rfl
        · exact hold.parsed m hm
        · exact g6
      · simp only [List.map_append, List.map_cons, List.map_nil, hold.views, hview]
    · rw [if_neg hc]
      simp only [hc, decide_false, Bool.false_eq_true, if_false, List.append_nil]
      exact hold

theorem cfile_ok (win cvs : Bool) (f : CFile) (ok : f.Ok) (hh : HeadersOk cvs f.src f.dst) (st : PState) (rest : List Str)
    (hr : CAfterFile cvs rest) (e : st.rest = f.render ++ rest) (vs : List MView) (inv : FilesInv st vs) :
    ∃ st1 st2, parseContextDiffHeader win (genOf cvs) st = Res.ok (st1, true) ∧ contextHunks st1 = Res.ok st2 ∧
      ∃ st3, checkHeader (contextHeader1 (genOf cvs)) st2.keepModel = st3 ∧ st3.rest = rest ∧ st3.malformed = st.malformed ∧
        FilesInv st3 (vs ++ if hasHunks f then [f.view (unescapePath win) cvs] else []) := by
  obtain ⟨st1, st2, h1, h2, h3, h4, h5⟩ := cfile_run win cvs f ok hh st rest hr.after e vs inv
  exact ⟨st1, st2, h1, h2, st2.keepModel, hr.check _ h3, h3, h4, h5⟩

theorem stars_none {l : Str} (h : (List.replicate 15 '*').isPrefixOf l = false) : reContextHunkHeader1.full l = none := full_text_cat_none h

theorem separator_after {t : Str} (h : SeparatorLine t) : (reContextLine.full (t ++ ['\n'])).isSome = false ∧
    reContextHunkHeader1.full (t ++ ['\n']) = none := by
  rcases h with ⟨u, rfl⟩ | ⟨u, rfl⟩ | ⟨u, rfl⟩
  · exact ⟨section_none_of (c := 'I') ⟨'n', _, by simp only [str]; rfl, by decide⟩, stars_none (by simp [str, List.isPrefixOf])⟩
  · exact ⟨section_none_of (c := 'd') ⟨'i', _, by simp only [str]; rfl, by decide⟩, stars_none (by simp [str, List.isPrefixOf])⟩
  · exact ⟨section_none_of (c := '-') ⟨'-', _, by simp only [str]; rfl, by decide⟩, stars_none (by simp [str, List.isPrefixOf])⟩

theorem separator_check {t : Str} (h : SeparatorLine t) (r : Re) (st : PState) (ls : List Str) (e : st.rest = (t ++ ['\n']) :: ls) :
    checkHeader r st = st := by
  have h3 := h.imp (prefix_newline_iff (by decide)).2
    (fun h => h.imp (prefix_newline_iff (by decide)).2 (prefix_newline_iff (by decide)).2)
  simp only [checkHeader, e]
  rw [if_pos (Or.inr h3)]

theorem cafterFile_file (cvs : Bool) (f : CFile) (ok : f.Ok) (hh : HeadersOk cvs f.src f.dst)
    (hs : ∀ t ts, f.preamble = t :: ts → SeparatorLine t) (rest : List Str) : CAfterFile cvs (f.render ++ rest) := by
  cases hp : f.preamble with
  | nil =>
    have e : f.render ++ rest = (str "*** " ++ f.src.render) :: ((str "--- " ++ f.dst.render) :: (f.hunks.flatMap CHunk.render ++ rest)) := by
      simp [CFile.render, hp]
    rw [e]
    refine ⟨⟨?_, ?_⟩, ?_⟩
    · intro l hl
      simp only [List.head?_cons, Option.some.injEq] at hl
      subst hl
      exact section_none_of (c := '*') ⟨'*', _, by simp only [str]; rfl, by decide⟩
    · intro l hl
      simp only [List.head?_cons, Option.some.injEq] at hl
      subst hl
      exact stars_none (by simp [str, List.isPrefixOf, List.replicate])
    · intro st hst
      obtain ⟨c1, c2, m1, _⟩ := contextHeaders_match cvs f.src f.dst ok.src ok.dst hh
      simp [checkHeader, hst, m1]
  | cons t ts =>
    have e : f.render ++ rest = (t ++ ['\n']) :: (ts.map (· ++ ['\n']) ++
        ((str "*** " ++ f.src.render) :: (str "--- " ++ f.dst.render) :: f.hunks.flatMap CHunk.render) ++ rest) := by
      simp [CFile.render, hp]
    rw [e]
    have hsep := hs t ts hp
    refine ⟨⟨?_, ?_⟩, fun st hst => separator_check hsep _ st _ hst⟩
    · intro l hl
      simp only [List.head?_cons, Option.some.injEq] at hl
      subst hl; exact (separator_after hsep).1
    · intro l hl
      simp only [List.head?_cons, Option.some.injEq] at hl
      subst hl; exact (separator_after hsep).2

theorem cafterFile_trailer (cvs : Bool) (tr : List Str) (hs : ∀ t ts, tr = t :: ts → SeparatorLine t) : CAfterFile cvs (tr.map (· ++ ['\n'])) := by
  cases tr with
  | nil => exact ⟨⟨by simp, by simp⟩, fun st hst => by simp [checkHeader, hst]⟩
  | cons t ts =>
    have hsep := hs t ts rfl
    refine ⟨⟨?_, ?_⟩, fun st hst => separator_check hsep _ st _ hst⟩
    · intro l hl
      simp only [List.map_cons, List.head?_cons, Option.some.injEq] at hl
      subst hl; exact (separator_after hsep).1
    · intro l hl
      simp only [List.map_cons, List.head?_cons, Option.some.injEq] at hl
      subst hl; exact (separator_after hsep).2

theorem ctrailer_end (win cvs : Bool) (tr : List Str) (ht : ∀ t ∈ tr, CBetween t) (st : PState)
    (e : st.rest = tr.map (· ++ ['\n'])) : parseContextDiffHeader win (genOf cvs) st = Res.ok ({ st with rest := [] }, false) := by
  have key : ∀ mk, twoLineHeader (contextHeader1 (genOf cvs)) (contextHeader2 (genOf cvs)) mk st (tr.map (· ++ ['\n'])) =
      Res.ok ({ st with rest := [] }, false) := by
    intro mk
    have := twoLineHeader_skip (contextHeader1 (genOf cvs)) (contextHeader2 (genOf cvs)) mk st (tr.map (· ++ ['\n'])) [] (by
      intro l hl
      obtain ⟨t, h, rfl⟩ := List.mem_map.1 hl
      exact contextHeader1_none _ (genOf_ne cvs) (not_prefix_newline (by decide) (ht t h).2.1))
    rw [List.append_nil] at this
    rw [this]; rfl
  cases cvs with
  | true => simp only [genOf, parseContextDiffHeader]; rw [e]; exact key _
  | false => simp only [genOf, parseContextDiffHeader]; rw [e]; exact key _

theorem cfiles_ok (win cvs : Bool) (fs : List CFile) (ok : ∀ f ∈ fs, f.Ok) (hh : ∀ f ∈ fs, HeadersOk cvs f.src f.dst)
    (later : ∀ f fs', fs = f :: fs' → ∀ k ∈ fs', ∀ t ts, k.preamble = t :: ts → SeparatorLine t)
    (tr : List Str) (ht : ∀ t ∈ tr, CBetween t) (hts : ∀ t ts, tr = t :: ts → SeparatorLine t)
    (n : Nat) (hn : fs.length < n) (st : PState) (vs : List MView) (inv : FilesInv st vs)
    (e : st.rest = fs.flatMap CFile.render ++ tr.map (· ++ ['\n'])) :
    ∃ st', fileLoop (parseContextDiffHeader win (genOf cvs)) contextHunks (contextHeader1 (genOf cvs)) n st = Res.ok st' ∧
      st'.malformed = st.malformed ∧ FilesInv st' (vs ++ (fs.filter hasHunks).map (fun f => f.view (unescapePath win) cvs)) := by
  induction fs generalizing n st vs with
  | nil =>
    cases n with
    | zero => simp at hn
    | succ n =>
      simp only [List.flatMap_nil, List.nil_append] at e
      refine ⟨{ st with rest := [] }, ?_, rfl, ?_⟩
      · simp [fileLoop, ctrailer_end win cvs tr ht st e]
      · simp only [List.filter_nil, List.map_nil, List.append_nil]
        exact ⟨inv.parsed, inv.views⟩
  | cons f fs ih =>
    cases n with
    | zero => simp at hn
    | succ n =>
      simp only [List.length_cons] at hn
      have hafter : CAfterFile cvs (fs.flatMap CFile.render ++ tr.map (· ++ ['\n'])) := by
        cases fs with
        | nil => simpa using cafterFile_trailer cvs tr hts
        | cons f' fs =>
          rw [List.flatMap_cons, List.append_assoc]
          exact cafterFile_file cvs f' (ok f' (by simp)) (hh f' (by simp)) (later f _ rfl f' (by simp)) _
      obtain ⟨st1, st2, h1, h2, st3, h3, h4, h5, h6⟩ := cfile_ok win cvs f (ok f (by simp)) (hh f (by simp)) st _ hafter
        (by rw [e, List.flatMap_cons, List.append_assoc]) vs inv
      obtain ⟨st', g1, g2, g4⟩ := ih (fun f hf => ok f (by simp [hf])) (fun f hf => hh f (by simp [hf]))
        (by
          intro k ks hk k' hk' t ts ht
          exact later f fs rfl k' (by rw [hk]; simp [hk']) t ts ht) n (by omega) st3 _ h6 h4
      refine ⟨st', ?_, by rw [g2, h5], ?_⟩
      · simp only [fileLoop, h1, Res.bind_ok, Bool.true_eq_false, if_false, h2, h3]
        exact g1
      · rw [List.append_assoc] at g4
        by_cases hc : hasHunks f
        · simpa [hc] using g4
        · simpa [hc] using g4

end KompareDiff2
