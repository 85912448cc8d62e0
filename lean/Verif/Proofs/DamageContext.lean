import Verif.Spec.DamageContext
import Verif.Props.Damage
import Verif.Proofs.ContextDiff
import Verif.Proofs.ReadingContext
/-
Proofs about context diffs with lines in the wrong place.
-/
namespace KompareDiff2
open Spec

/-! ### Well-formed files before anything else -/

theorem cfiles_then (win cvs : Bool) (fs : List CFile) (hne : fs ≠ []) (ok : ∀ f ∈ fs, f.Ok) (hh : ∀ f ∈ fs, HeadersOk cvs f.src f.dst)
    (later : ∀ f fs', fs = f :: fs' → ∀ k ∈ fs', ∀ t ts, k.preamble = t :: ts → SeparatorLine t) (rest : List Str) (hr : CAfterHunks rest)
    (st : PState) (vs : List MView) (inv : FilesInv st vs) (e : st.rest = fs.flatMap CFile.render ++ rest) :
    ∃ s : PState, (∀ n, fileLoop (parseContextDiffHeader win (genOf cvs)) contextHunks (contextHeader1 (genOf cvs)) (fs.length + n) st =
        fileLoop (parseContextDiffHeader win (genOf cvs)) contextHunks (contextHeader1 (genOf cvs)) n (checkHeader (contextHeader1 (genOf cvs)) s)) ∧
      s.rest = rest ∧ FilesInv s (vs ++ shownFiles (unescapePath win) cvs fs) := by
  induction fs generalizing st vs with
  | nil => exact absurd rfl hne
  | cons f fs ih =>
    have hview : (if hasHunks f then [f.view (unescapePath win) cvs] else []) = shownFiles (unescapePath win) cvs [f] := by
      unfold shownFiles hasHunks
      by_cases h : f.hunks ≠ [] <;> simp [h]
    have hcons : shownFiles (unescapePath win) cvs (f :: fs) = shownFiles (unescapePath win) cvs [f] ++ shownFiles (unescapePath win) cvs fs := by
      unfold shownFiles
      by_cases h : f.hunks ≠ [] <;> simp [h]
    by_cases hfs : fs = []
    · subst hfs
      obtain ⟨st1, st2, h1, h2, h3, h4, h5⟩ := cfile_run win cvs f (ok f (by simp)) (hh f (by simp)) st rest hr (by simpa using e) vs inv
      refine ⟨st2.keepModel, ?_, h3, by rw [← hview]; exact h5⟩
      intro n
      rw [show [f].length + n = n + 1 by simp; omega]
      simp only [fileLoop, h1, Res.bind_ok, Bool.true_eq_false, if_false, h2]
    · have hafter : CAfterFile cvs (fs.flatMap CFile.render ++ rest) := by
        cases fs with
        | nil => exact absurd rfl hfs
        | cons f' fs =>
          rw [List.flatMap_cons, List.append_assoc]
          exact cafterFile_file cvs f' (ok f' (by simp)) (hh f' (by simp)) (later f _ rfl f' (by simp)) _
      obtain ⟨st1, st2, h1, h2, st3, h3, h4, h5, h6⟩ := cfile_ok win cvs f (ok f (by simp)) (hh f (by simp)) st _ hafter
        (by rw [e, List.flatMap_cons, List.append_assoc]) vs inv
      obtain ⟨s, g1, g2, g3⟩ := ih hfs (fun f hf => ok f (by simp [hf])) (fun f hf => hh f (by simp [hf]))
        (by
          intro k ks hk k' hk' t ts ht
          exact later f fs rfl k' (by rw [hk]; simp [hk']) t ts ht) st3 _ h6 h4
      refine ⟨s, ?_, g2, ?_⟩
      · intro n
        rw [show (f :: fs).length + n = (fs.length + n) + 1 by simp; omega]
        simp only [fileLoop, h1, Res.bind_ok, Bool.true_eq_false, if_false, h2, h3]
        exact g1 n
      · rw [hcons, ← hview, ← List.append_assoc]; exact g3

/-! ### Nothing found is lost -/

theorem twoLineHeader_malformed {h1 h2 : Re} {mk : Caps → Caps → DModel} {st : PState} {ls : List Str} {r : PState × Bool}
    (h : twoLineHeader h1 h2 mk st ls = Res.ok r) : r.1.malformed = st.malformed := by
  induction ls with
  | nil => simp only [twoLineHeader, Res.ok.injEq] at h; rw [← h]
  | cons l ls ih =>
    simp only [twoLineHeader] at h
    split at h
    · exact ih h
    · cases ls with
      | nil => cases h
      | cons l2 ls2 =>
        simp only at h
        split at h <;> (simp only [Res.ok.injEq] at h; rw [← h])

theorem twoLineHeader_state (h1 h2 : Re) (mk : Caps → Caps → DModel) (st : PState) (r ls : List Str) :
    twoLineHeader h1 h2 mk st ls = twoLineHeader h1 h2 mk { st with rest := r } ls := by
  induction ls with
  | nil => rfl
  | cons l ls ih =>
    simp only [twoLineHeader]
    split
    · exact ih
    · cases ls with
      | nil => rfl
      | cons l2 ls2 => rfl

theorem contextHeader_malformed {win cvs : Bool} {st : PState} {r : PState × Bool} (h : parseContextDiffHeader win (genOf cvs) st = Res.ok r) :
    r.1.malformed = st.malformed := by
  cases cvs <;> exact twoLineHeader_malformed h

theorem contextHunks_keeps {st st' : PState} (p : Parsed (fun _ => True) st.heap st.cur) (h : contextHunks st = Res.ok st') :
    st'.models = st.models ∧ st'.malformed = st.malformed ∧ st.heap.Ext st'.heap ∧ Parsed (fun _ => True) st'.heap st'.cur := by
  have key : ∀ s r, (s.models = st.models ∧ s.malformed = st.malformed ∧ st.heap.Ext s.heap ∧ Parsed (fun _ => True) s.heap s.cur) →
      parseContextHunk s = Res.ok r →
      (∀ s', r.1 = some s' → s'.models = st.models ∧ s'.malformed = st.malformed ∧ st.heap.Ext s'.heap ∧ Parsed (fun _ => True) s'.heap s'.cur) ∧
      (r.2.models = st.models ∧ r.2.malformed = st.malformed ∧ st.heap.Ext r.2.heap ∧ Parsed (fun _ => True) r.2.heap r.2.cur) := by
    intro s r hi h
    unfold parseContextHunk at h
    split at h
    · simp only [Res.ok.injEq] at h
      rw [← h]
      exact ⟨by simp, hi⟩
    · simp only at h
      split at h
      · simp at h
      · split at h
        · simp only [Res.ok.injEq] at h
          rw [← h]
          refine ⟨?_, hi⟩
          intro s' e
          simp only [Option.some.injEq] at e
          rw [← e]; exact hi
        · rename_i _ c1 c2 _ _ _ _ _ _ _ c3 _
          obtain ⟨b, hs, h⟩ := Res.bind_eq_ok.1 h
          simp only [Res.ok.injEq] at h
          rw [← h]
          refine ⟨?_, hi⟩
          intro s' e
          simp only [Option.some.injEq] at e
          rw [← e]
          obtain ⟨k1, _, _⟩ := contextBody_sound hs
          obtain ⟨i1, i2, i3, i4⟩ := hi
          exact ⟨i1, i2, i3.trans (addHunk_ext s (toInt (c2.get 1)) (toInt (c3.get 1)) (c1.get 1) b.1),
            addHunk_parsed s (toInt (c2.get 1)) (toInt (c3.get 1)) (c1.get 1) b.1 i4 k1 trivial⟩
  refine contextHunkLoop_inv (I := fun s => s.models = st.models ∧ s.malformed = st.malformed ∧ st.heap.Ext s.heap ∧ Parsed (fun _ => True) s.heap s.cur)
    (fun s s' s2 hi h => (key s _ hi h).1 s' rfl) (fun s s2 hi h => (key s _ hi h).2) _ _ _ ⟨rfl, rfl, Heap.Ext.refl _, p⟩ h

theorem checkHeader_stays (r : Re) (st : PState) (h : st.malformed = true) : (checkHeader r st).malformed = true := by
  unfold checkHeader
  split
  · exact h
  · split
    · exact h
    · rfl

theorem fileLoop_keeps (win cvs : Bool) (n : Nat) (st st' : PState) (vs : List MView) (inv : FilesInv st vs) (hm : st.malformed = true)
    (h : fileLoop (parseContextDiffHeader win (genOf cvs)) contextHunks (contextHeader1 (genOf cvs)) n st = Res.ok st') :
    st'.malformed = true ∧ ∃ more, FilesInv st' (vs ++ more) := by
  refine fileLoop_rule (I := fun s => s.malformed = true ∧ ∃ more, FilesInv s (vs ++ more))
    (J := fun s => (s.malformed = true ∧ ∃ more, FilesInv s (vs ++ more)) ∧ Parsed (fun _ => True) s.heap s.cur)
    (K := fun s => s.malformed = true ∧ ∃ more, FilesInv s (vs ++ more)) ?_ ?_ ?_ n st st' ⟨hm, [], by simpa using inv⟩ h
  · intro s s' ⟨h1, more, h2⟩ hs
    have hst := contextHeader_step hs
    refine ⟨⟨(contextHeader_malformed hs).trans h1, more, ?_⟩, (hst.blank rfl).parsed _⟩
    exact ⟨by rw [hst.models, hst.heap]; exact h2.parsed, by rw [hst.models, hst.heap]; exact h2.views⟩
  · intro s s' ⟨h1, more, h2⟩ hs
    have hst := contextHeader_step hs
    refine ⟨(contextHeader_malformed hs).trans h1, more, ?_⟩
    exact ⟨by rw [hst.models, hst.heap]; exact h2.parsed, by rw [hst.models, hst.heap]; exact h2.views⟩
  · intro s s' ⟨⟨h1, more, h2⟩, hp⟩ hs
    obtain ⟨k1, k2, k3, k4⟩ := contextHunks_keeps hp hs
    obtain ⟨c1, c2, _, _⟩ := checkHeader_same (contextHeader1 (genOf cvs)) s'.keepModel
    have hold : FilesInv s' (vs ++ more) := by
      refine ⟨?_, ?_⟩
      · intro m hm; rw [k1] at hm; exact (h2.parsed m hm).ext k3
      · rw [k1, ← h2.views]
        exact List.map_congr_left (fun m hm => (h2.parsed m hm).view_ext k3)
    refine ⟨checkHeader_stays _ _ ?_, ?_⟩
    · unfold PState.keepModel
      split <;> exact k2.trans h1
    · by_cases hc : s'.cur.differences.length > 0
      · have e : s'.keepModel = { s' with models := s'.models ++ [s'.cur] } := by unfold PState.keepModel; rw [if_pos hc]
        refine ⟨more ++ [s'.cur.view s'.heap], ?_, ?_⟩
        · rw [c1, c2, e]
          intro m hm
          rcases List.mem_append.1 hm with hm | hm
          · exact hold.parsed m hm
          · rw [List.mem_singleton.1 hm]; exact k4
        · rw [c1, c2, e]
          simp only [List.map_append, List.map_cons, List.map_nil, hold.views, List.append_assoc]
      · have e : s'.keepModel = s' := by unfold PState.keepModel; rw [if_neg hc]
        refine ⟨more, ?_, ?_⟩
        · rw [c1, c2, e]; exact hold.parsed
        · rw [c1, c2, e]; exact hold.views

/-! ### The whole text -/

theorem CutDiff.lines_ok (d : CutDiff) (ok : d.Ok) : ∀ l ∈ d.render, WholeLine l ∧ ¬ str "==== " <+: l ∧ (str "\\ No newline").isPrefixOf l = false := by
  have hfile : ∀ fs : List CFile, (∀ f ∈ fs, f.Ok) → ∀ l ∈ fs.flatMap CFile.render, WholeLine l ∧ ¬ str "==== " <+: l ∧ (str "\\ No newline").isPrefixOf l = false := by
    intro fs hfs l hl
    obtain ⟨f, hf, hl⟩ := List.mem_flatMap.1 hl
    obtain ⟨h1, h2⟩ := CFile.lines_ok f (hfs f hf) l hl
    refine ⟨h2, ?_, ?_⟩
    · intro h
      rcases h1 with ⟨t, ht, rfl⟩ | hh
      · have := not_prefix_newline (p := str "==== ") (by decide) ((hfs f hf).between t ht).2.2.1
        rw [List.isPrefixOf_iff_prefix.2 h] at this; cases this
      · have := hh.unmarked.perforce
        rw [List.isPrefixOf_iff_prefix.2 h] at this; cases this
    · rcases h1 with ⟨t, ht, rfl⟩ | hh
      · exact not_prefix_newline (by decide) ((hfs f hf).between t ht).2.2.2
      · exact hh.plain
  have hend : ∀ ts : List Str, (∀ t ∈ ts, '\n' ∉ t ∧ ¬ str "==== " <+: t ∧ ¬ str "\\ No newline" <+: t) →
      ∀ l ∈ ended ts, WholeLine l ∧ ¬ str "==== " <+: l ∧ (str "\\ No newline").isPrefixOf l = false := by
    intro ts hts l hl
    obtain ⟨t, ht, rfl⟩ := ended_mem hl
    obtain ⟨h1, h2, h3⟩ := hts t ht
    refine ⟨⟨t, h1, rfl⟩, ?_, not_prefix_newline (by decide) h3⟩
    intro h
    have := not_prefix_newline (p := str "==== ") (by decide) h2
    rw [List.isPrefixOf_iff_prefix.2 h] at this; cases this
  intro l hl
  simp only [CutDiff.render, List.mem_append] at hl
  rcases hl with hl | hl | hl | hl
  · exact hfile _ (fun f hf => ok.files f (by simp [hf])) l hl
  · exact hend _ ok.mess l hl
  · exact hfile _ (fun f hf => ok.files f (by simp [hf])) l hl
  · exact hend _ (fun t ht => ⟨(ok.trailer.1 t ht).1, (ok.trailer.1 t ht).2.2⟩) l hl

theorem CutDiff.generator (d : CutDiff) (ok : d.Ok) : determineGenerator d.render = genOf d.cvs := by
  have hp : ∀ l ∈ d.render, ¬ str "==== " <+: l := fun l hl => (CutDiff.lines_ok d ok l hl).2.1
  have hnp := generator_not_perforce d.render (fun l hl => by
    cases e : (str "==== ").isPrefixOf l with
    | false => rfl
    | true => exact absurd (List.isPrefixOf_iff_prefix.1 e) (hp l hl))
  have key : determineGenerator d.render = .CVSDiff ↔ d.cvs = true := by
    rw [(generator_iff d.render).1]
    unfold CutDiff.cvs
    rw [List.any_eq_true]
    constructor
    · rintro ⟨pre, l, post, e, h1, _⟩
      exact ⟨l, by rw [e]; simp, List.isPrefixOf_iff_prefix.2 h1⟩
    · rintro ⟨l, hl, h⟩
      obtain ⟨pre, post, e⟩ := List.append_of_mem hl
      exact ⟨pre, l, post, e, List.isPrefixOf_iff_prefix.1 h, fun l' hl' => hp l' (by rw [e]; simp [hl'])⟩
  cases hc : d.cvs with
  | true => exact key.2 hc
  | false =>
    have : determineGenerator d.render ≠ .CVSDiff := fun h => by rw [key.1 h] at hc; cases hc
    cases hg : determineGenerator d.render with
    | CVSDiff => exact absurd hg this
    | Perforce => exact absurd hg hnp
    | Diff => rfl

theorem CutDiff.format (d : CutDiff) (ok : d.Ok) : determineFormat (genOf d.cvs) d.render = .Context := by
  cases hf : d.before with
  | nil => exact absurd hf ok.some
  | cons f fs =>
    have h1 := ok.first f fs hf
    have hfo := ok.files f (by rw [hf]; simp)
    have hho := ok.headers f (by rw [hf]; simp)
    have e : d.render = f.preamble.map (· ++ ['\n']) ++ ((str "*** " ++ f.src.render) ::
        ((str "--- " ++ f.dst.render) :: (f.hunks.flatMap CHunk.render ++ (fs.flatMap CFile.render ++ (ended d.mess ++ (d.after.flatMap CFile.render ++ ended d.trailer)))))) := by
      simp [CutDiff.render, hf, CFile.render]
    rw [e, format_skip]
    · simp only [determineFormat]
      rw [cheader_format d.cvs f.src hfo.src (fun hc => (hho.2 hc).1)]
    · intro l hl
      obtain ⟨t, ht, rfl⟩ := List.mem_map.1 hl
      exact preamble_format _ (genOf_ne _) t (h1 t ht)

/-- A line in the wrong place ends the hunks, and the diff is malformed. -/
theorem stray_after {t : Str} (h : Stray t) (ls : List Str) : CAfterHunks ((t ++ ['\n']) :: ls) := by
  refine ⟨?_, ?_⟩
  · intro l hl
    simp only [List.head?_cons, Option.some.injEq] at hl
    subst hl
    cases hx : (reContextLine.full (t ++ ['\n'])).isSome with
    | false => rfl
    | true =>
      obtain ⟨x, u, e, hx, hu⟩ := (sectionLine_full _).1 hx
      have e' : t = x :: ' ' :: u := by
        have e2 : t ++ ['\n'] = (x :: ' ' :: u) ++ ['\n'] := e
        exact List.append_cancel_right e2
      obtain ⟨h1, h2, h3, h4⟩ := h.2.2.2 x u e'
      rcases hx with rfl | rfl | rfl | rfl
      · exact absurd rfl h1
      · exact absurd rfl h2
      · exact absurd rfl h3
      · exact absurd rfl h4
  · intro l hl
    simp only [List.head?_cons, Option.some.injEq] at hl
    subst hl
    exact stars_none (not_prefix_newline (by decide) h.2.2.1)

theorem stray_malformed {t : Str} (h : Stray t) (cvs : Bool) (st : PState) (ls : List Str) (e : st.rest = (t ++ ['\n']) :: ls) :
    checkHeader (contextHeader1 (genOf cvs)) st = { st with malformed := true } := by
  simp only [checkHeader, e]
  rw [if_neg]
  have h1 := contextHeader1_none (genOf cvs) (genOf_ne cvs) (l := t ++ ['\n']) (not_prefix_newline (by decide) h.2.1)
  have hs := h.1
  simp only [SeparatorLine, not_or] at hs
  rintro (q | q | q | q)
  · rw [h1] at q; cases q
  · rw [not_prefix_newline (by decide) hs.1] at q; cases q
  · rw [not_prefix_newline (by decide) hs.2.1] at q; cases q
  · rw [not_prefix_newline (by decide) hs.2.2] at q; cases q

/-- What is left to do when the files before the wrong line have been read. -/
theorem CutDiff.start (d : CutDiff) (ok : d.Ok) (win : Bool) (cmp : Str → Str → Int) (heap : Heap) :
    ∃ s : PState, s.rest = ended d.mess ++ (d.after.flatMap CFile.render ++ ended d.trailer) ∧ s.malformed = true ∧
      FilesInv s (shownFiles (unescapePath win) d.cvs d.before) ∧ ∃ n, s.rest.length < n ∧
        parse win cmp heap (split d.render.flatten) =
          (fileLoop (parseContextDiffHeader win (genOf d.cvs)) contextHunks (contextHeader1 (genOf d.cvs)) n s).bind (fun st => Res.ok (finishParse cmp st)) := by
  obtain ⟨t, ts, hm, hst⟩ := ok.stray
  have hsplit : split d.render.flatten = d.render := by
    apply split_flatten
    have := LineList.append (as := d.render) (bs := []) (fun x hx => (CutDiff.lines_ok d ok x hx).1) .nil
    simpa using this
  have hclean : cleanUpCrap d.render = Res.ok d.render := by
    apply Cleans.run
    apply Cleans.id
    exact fun l hl => (CutDiff.lines_ok d ok l hl).2.2
  have hr : ended d.mess ++ (d.after.flatMap CFile.render ++ ended d.trailer) = (t ++ ['\n']) :: (ended ts ++ (d.after.flatMap CFile.render ++ ended d.trailer)) := by
    rw [hm]; rfl
  have hlen : d.before.length ≤ (d.before.flatMap CFile.render).length := by
    induction d.before with
    | nil => simp
    | cons f fs ih => simp only [List.flatMap_cons, List.length_append, List.length_cons, CFile.render]; omega
  obtain ⟨s, h1, h2, h3⟩ := cfiles_then win d.cvs d.before ok.some (fun f hf => ok.files f (by simp [hf])) (fun f hf => ok.headers f (by simp [hf]))
    (fun f fs hf => ok.later f fs (.inl hf)) _ (by rw [hr]; exact stray_after hst _)
    { lines := d.render, rest := d.render, heap := heap, cur := {}, models := [], single := false, malformed := false } [] ⟨by simp, rfl⟩ rfl
  refine ⟨checkHeader (contextHeader1 (genOf d.cvs)) s, by rw [checkHeader_rest]; exact h2, ?_, ?_,
    (ended d.mess ++ (d.after.flatMap CFile.render ++ ended d.trailer)).length + 1 + ((d.before.flatMap CFile.render).length - d.before.length),
    by rw [checkHeader_rest, h2]; omega, ?_⟩
  · rw [stray_malformed hst d.cvs s _ (by rw [h2, hr])]
  · obtain ⟨c1, c2, _, _⟩ := checkHeader_same (contextHeader1 (genOf d.cvs)) s
    refine ⟨by rw [c1, c2]; exact h3.parsed, by rw [c1, c2]; exact h3.views⟩
  · rw [← h1]
    unfold parse
    rw [hsplit, hclean, CutDiff.generator d ok]
    simp only [Res.bind_ok, parseLines, CutDiff.format d ok, contextFiles]
    have : d.render.length + 1 = d.before.length + ((ended d.mess ++ (d.after.flatMap CFile.render ++ ended d.trailer)).length + 1 +
        ((d.before.flatMap CFile.render).length - d.before.length)) := by
      simp only [CutDiff.render, List.length_append] at *; omega
    rw [this]
    rfl

theorem cfinish_shown (cmp : Str → Str → Int) (st : PState) (vs : List MView) (inv : FilesInv st vs) : (finishParse cmp st).shown.Perm vs := by
  unfold ParseResult.shown finishParse
  rw [← inv.views]
  by_cases h : st.models.length > 0
  · simp only [if_pos h, Option.getD_some]
    exact (sortModels_perm cmp st.models).map _
  · have : st.models = [] := by cases hm : st.models with | nil => rfl | cons => simp [hm] at h
    simp [this]

/-- The rest of the diff, when no line before the next file looks like a header. -/
theorem cfiles_rest (win cvs : Bool) (fs : List CFile) (ok : ∀ f ∈ fs, f.Ok) (hh : ∀ f ∈ fs, HeadersOk cvs f.src f.dst)
    (later : ∀ f fs', fs = f :: fs' → ∀ k ∈ fs', ∀ t ts, k.preamble = t :: ts → SeparatorLine t)
    (tr : List Str) (ht : ∀ t ∈ tr, CBetween t) (hts : ∀ t ts, tr = t :: ts → SeparatorLine t) (mess : List Str) (hm : ∀ t ∈ mess, ¬ opensFile cvs (t ++ ['\n']))
    (st : PState) (vs : List MView) (inv : FilesInv st vs) (e : st.rest = ended mess ++ (fs.flatMap CFile.render ++ ended tr)) (n : Nat) (hn : st.rest.length < n) :
    ∃ st', fileLoop (parseContextDiffHeader win (genOf cvs)) contextHunks (contextHeader1 (genOf cvs)) n st = Res.ok st' ∧
      st'.malformed = st.malformed ∧ FilesInv st' (vs ++ shownFiles (unescapePath win) cvs fs) := by
  have hlen : fs.length ≤ (fs.flatMap CFile.render).length := by
    clear e ok hh later
    induction fs with
    | nil => simp
    | cons f fs ih => simp only [List.flatMap_cons, List.length_append, List.length_cons, CFile.render]; omega
  have hskip : ∀ l ∈ ended mess, (contextHeader1 (genOf cvs)).full l = none := by
    intro l hl
    obtain ⟨t, ht, rfl⟩ := ended_mem hl
    refine (Re.full_none _ _).2 (fun x => hm t ht ?_)
    cases cvs with
    | true => exact (cvsHeader1_lang _).1 x
    | false => exact (contextHeader_lang "*** " _).1 x
  obtain ⟨st', h1, h2, h3⟩ := cfiles_ok win cvs fs ok hh later tr ht hts n (by rw [e] at hn; simp only [List.length_append] at hn; omega)
    { st with rest := fs.flatMap CFile.render ++ ended tr } vs ⟨inv.parsed, inv.views⟩ rfl
  refine ⟨st', ?_, h2, h3⟩
  rw [← h1]
  cases n with
  | zero => rfl
  | succ n =>
    have : parseContextDiffHeader win (genOf cvs) st = parseContextDiffHeader win (genOf cvs) { st with rest := fs.flatMap CFile.render ++ ended tr } := by
      have key : ∀ mk, twoLineHeader (contextHeader1 (genOf cvs)) (contextHeader2 (genOf cvs)) mk st st.rest =
          twoLineHeader (contextHeader1 (genOf cvs)) (contextHeader2 (genOf cvs)) mk { st with rest := fs.flatMap CFile.render ++ ended tr } (fs.flatMap CFile.render ++ ended tr) := by
        intro mk
        rw [e, twoLineHeader_skip _ _ _ _ _ _ hskip]
        exact twoLineHeader_state _ _ _ _ _ _
      cases cvs <;> exact key _
    simp only [fileLoop, this]

theorem range_opens {l : Str} (h : OldRange (l ++ ['\n'])) (ht : '\t' ∉ l) : ContextHeaderLine "*** " (l ++ ['\n']) := by
  obtain ⟨a, b, t, e, _, _, _⟩ := h
  have e' : l = str "*** " ++ (a ++ ',' :: b ++ str " ****" ++ t) := by
    refine List.append_cancel_right (bs := ['\n']) ?_
    rw [e]; simp
  refine ⟨a ++ ',' :: b ++ str " ****" ++ t, [], ?_, ?_, ?_, .inl rfl⟩
  · rw [e]; simp
  · simp
  · rw [e'] at ht
    exact fun q => ht (List.mem_append_right _ q)

theorem section_not_header {l : Str} (h : SectionLine l) : ¬ ContextHeaderLine "--- " l := by
  rintro ⟨name, tail, e, _⟩
  obtain ⟨x, u, e2, _, _⟩ := h
  rw [e2] at e
  simp only [str] at e
  have := congrArg (fun l => l[1]?) e
  simp at this

end KompareDiff2
