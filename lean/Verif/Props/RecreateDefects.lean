import Verif.Props.Recreate
import Verif.Proofs.NormalDiff
/-
C20: the cases that `C20_round_trip` excludes are excluded for a reason.  Each theorem here shows what the library does with them.
-/
namespace KompareDiff2
open Spec Re

/-! ### Time stamps -/

theorem header1_no_stamp {n : Str} (hn : '\t' ∉ n) : reUnifiedHeader1.full (str "--- " ++ (n ++ ['\t', '\n'])) = none := by
  rw [Re.full_none]
  intro h
  unfold reUnifiedHeader1 at h
  rw [lang_seq] at h
  obtain ⟨s1, s2, e, h1, h2⟩ := h
  rw [lang_text] at h1
  subst h1
  have e := List.append_cancel_left e
  unfold reUnifiedHeaderTail at h2
  rw [lang_cat_cons] at h2
  obtain ⟨a, r, rfl, ha, h2⟩ := h2
  rw [lang_grp, noTab, lang_many1_chr] at ha
  rw [lang_cat_cons] at h2
  obtain ⟨b, c, rfl, hb, hc⟩ := h2
  rw [lang_cat_one, lang_lit] at hc
  subst hc
  have ha' : '\t' ∉ a := by
    intro h
    have := ha.2 _ h
    simp at this
  have e2 : n ++ ['\t'] = a ++ b := by
    have := congrArg List.dropLast e
    rw [← List.append_assoc, List.dropLast_concat] at this
    rw [← this, show n ++ ['\t', '\n'] = (n ++ ['\t']) ++ ['\n'] by simp, List.dropLast_concat]
  rw [lang_opt] at hb
  rcases hb with hb | rfl
  · rw [lang_cat_cons] at hb
    obtain ⟨t, b, rfl, ht, hb⟩ := hb
    rw [lang_lit] at ht
    subst ht
    rw [lang_cat_cons] at hb
    obtain ⟨u, v, rfl, hu, hv⟩ := hb
    rw [lang_grp, noTab, lang_many1_chr] at hu
    -- the only tab of the left side is the last character
    have e3 := congrArg (fun l => l.takeWhile (fun x => x ≠ '\t')) e2
    have key : ∀ (p : Str), '\t' ∉ p → ∀ q, (p ++ '\t' :: q).takeWhile (fun x => x ≠ '\t') = p := by
      intro p hp q
      induction p with
      | nil => simp
      | cons x p ih =>
        have hx : x ≠ '\t' := fun e => hp (by simp [e])
        have hp' : '\t' ∉ p := fun h => hp (by simp [h])
        simp only [List.cons_append, List.takeWhile_cons, ne_eq, hx, not_false_eq_true, decide_true, if_true]
        have := ih hp'
        simp only [ne_eq] at this
        rw [this]
    simp only [List.cons_append, List.nil_append] at e3
    rw [key n hn, key a ha'] at e3
    subst e3
    have e4 := List.append_cancel_left e2
    simp only [List.cons_append, List.nil_append, List.cons.injEq, true_and] at e4
    have : u = [] := (List.append_eq_nil_iff.1 e4.symm).1
    exact hu.1 this
  · rw [List.append_nil] at e2
    exact ha' (by rw [← e2]; simp)

/-- A text whose first line looks like a unified diff but which has no header line: nothing is returned and nothing is reported. -/
theorem parse_nothing (win : Bool) (cmp : Str → Str → Int) (heap : Heap) (l : Str) (ls : List Str) (hq : QuietLines (l :: ls))
    (hl : str "--- " <+: l) (hn : ∀ x ∈ l :: ls, reUnifiedHeader1.full x = none) :
    parse win cmp heap (l :: ls) = Res.ok { models := none, malformed := false, heap := heap } := by
  unfold parse
  rw [generator_diff _ (fun x hx => ⟨(hq x hx).1, (hq x hx).2.1⟩), clean_quiet _ (fun x hx => (hq x hx).2.2)]
  simp only [Res.bind_ok, parseLines, (C25_first_line l ls).1 hl, unifiedFiles, fileLoop, parseUnifiedDiffHeader, unifiedHeader1]
  have := twoLineHeader_skip reUnifiedHeader1 reUnifiedHeader2 (fun c1 c2 =>
      newModel (unescapePath win (c1.get 1)) (unescapePath win (c2.get 1)) (c1.get 2) (c1.get 4) (c2.get 2) (c2.get 4))
    { lines := l :: ls, rest := l :: ls, heap := heap, cur := {}, models := [], single := false, malformed := false } (l :: ls) [] hn
  rw [List.append_nil] at this
  rw [this]
  rfl

theorem line_render_ofStr {c : Char} {l : Str} (h : TextLine l) : Line.render c (Line.ofStr l) = [c :: l] := by
  obtain ⟨t, rfl, _⟩ := h
  simp [Line.ofStr, Line.render]

/-- The lines of a written hunk. -/
theorem hunkOf_lines {k : HView} (w : k.Writable) {x : Str} (hx : x ∈ (UHunk.ofView k).render) :
    (∃ c s, x = c :: s ∧ (c = '@' ∨ c = ' ' ∨ c = '+')) ∨ ∃ d ∈ k.diffs, ∃ l ∈ d.src, x = '-' :: l := by
  rcases List.mem_cons.1 hx with rfl | hx
  · exact .inl ⟨'@', _, by simp only [UHunk.header, str]; rfl, by simp⟩
  · obtain ⟨b, hb, hx⟩ := List.mem_flatMap.1 hx
    simp only [UHunk.ofView, List.mem_map] at hb
    obtain ⟨d, hd, rfl⟩ := hb
    have wl := (w.diffs d hd).lines
    unfold Block.ofView at hx
    split at hx
    · obtain ⟨l, hl, hx⟩ := List.mem_flatMap.1 hx
      obtain ⟨s, hs, rfl⟩ := List.mem_map.1 hl
      rw [line_render_ofStr (wl s (by simp [hs])), List.mem_singleton] at hx
      exact .inl ⟨' ', s, hx, by simp⟩
    · rcases List.mem_append.1 hx with hx | hx
      · obtain ⟨l, hl, hx⟩ := List.mem_flatMap.1 hx
        obtain ⟨s, hs, rfl⟩ := List.mem_map.1 hl
        rw [line_render_ofStr (wl s (by simp [hs])), List.mem_singleton] at hx
        exact .inr ⟨d, hd, s, hs, hx⟩
      · obtain ⟨l, hl, hx⟩ := List.mem_flatMap.1 hx
        obtain ⟨s, hs, rfl⟩ := List.mem_map.1 hl
        rw [line_render_ofStr (wl s (by simp [hs])), List.mem_singleton] at hx
        exact .inl ⟨'+', s, hx, by simp⟩

/-- The text of a file without a source time stamp: no line of it is a file header. -/
theorem unstamped_file (win : Bool) (h : Heap) (m : DModel)
    (hk : ∀ k ∈ (m.view h).ownHunks, k.Writable) (hs : '\t' ∉ m.source ∧ '\n' ∉ m.source) (hd : '\n' ∉ m.destination)
    (ht : m.sourceTimestamp = []) (hr : m.sourceRevision = []) (hdt : '\n' ∉ m.destinationTimestamp) (hdr : '\n' ∉ m.destinationRevision)
    (hno : ∀ k ∈ (m.view h).ownHunks, ∀ d ∈ k.diffs, ∀ l ∈ d.src, ¬ str "-- " <+: l) :
    (∃ t ls, (UFile.ofView win (m.view h)).render = (str "--- " ++ t) :: ls) ∧ (∀ x ∈ (UFile.ofView win (m.view h)).render, WholeLine x) ∧
      QuietLines (UFile.ofView win (m.view h)).render ∧ ∀ x ∈ (UFile.ofView win (m.view h)).render, reUnifiedHeader1.full x = none := by
  have hesc : ∀ {p : Str} {x : Char}, x ∉ p → x ≠ '\\' → x ≠ '"' → x ∉ escapePath win p := by
    intro p x hx h1 h2 h
    rcases escape_mem h with h | h | h
    · exact hx h
    · exact h1 h
    · exact h2 h
  have e : (UFile.ofView win (m.view h)).render = (str "--- " ++ (escapePath win m.source ++ ['\t', '\n'])) ::
      (str "+++ " ++ (UFile.ofView win (m.view h)).dst.render) :: ((m.view h).ownHunks.map UHunk.ofView).flatMap UHunk.render := by
    simp [UFile.render, UFile.ofView, Header.render, DModel.view, ht, hr]
  have hline : ∀ x ∈ (UFile.ofView win (m.view h)).render, WholeLine x := by
    rw [e]
    intro x hx
    rcases List.mem_cons.1 hx with rfl | hx
    · refine ⟨str "--- " ++ (escapePath win m.source ++ ['\t']), ?_, by simp⟩
      have h0 : '\n' ∉ str "--- " := by decide
      have := hesc hs.2 (by decide) (by decide)
      simp only [List.mem_append, List.mem_singleton, not_or]
      exact ⟨h0, this, by decide⟩
    · rcases List.mem_cons.1 hx with rfl | hx
      · have h0 : '\n' ∉ str "+++ " := by decide
        have h1 := hesc hd (by decide) (by decide)
        by_cases hrev : m.destinationRevision = []
        · refine ⟨str "+++ " ++ (escapePath win m.destination ++ '\t' :: m.destinationTimestamp), ?_, by simp [UFile.ofView, Header.render, DModel.view, hrev]⟩
          simp only [List.mem_append, List.mem_cons, not_or]
          exact ⟨h0, h1, by decide, hdt⟩
        · refine ⟨str "+++ " ++ (escapePath win m.destination ++ '\t' :: m.destinationTimestamp ++ '\t' :: m.destinationRevision), ?_,
            by simp [UFile.ofView, Header.render, DModel.view, hrev]⟩
          simp only [List.mem_append, List.mem_cons, not_or]
          exact ⟨h0, ⟨h1, by decide, hdt⟩, by decide, hdr⟩
      · obtain ⟨u, hu, hx⟩ := List.mem_flatMap.1 hx
        obtain ⟨k, hkm, rfl⟩ := List.mem_map.1 hu
        obtain ⟨t, t1, t2⟩ := UHunk.render_lines _ (hunkOf_ok (hk k hkm)) x hx
        exact ⟨t, t1, t2⟩
  refine ⟨⟨_, _, e⟩, hline, ?_, ?_⟩
  · rw [e]
    intro x hx
    have first : ∃ c s, x = c :: s ∧ c ≠ 'I' ∧ c ≠ '=' ∧ c ≠ '\\' := by
      rcases List.mem_cons.1 hx with rfl | hx
      · exact ⟨'-', _, rfl, by decide, by decide, by decide⟩
      · rcases List.mem_cons.1 hx with rfl | hx
        · exact ⟨'+', _, rfl, by decide, by decide, by decide⟩
        · obtain ⟨u, hu, hx⟩ := List.mem_flatMap.1 hx
          obtain ⟨k, hkm, rfl⟩ := List.mem_map.1 hu
          rcases hunkOf_lines (hk k hkm) hx with ⟨c, s, rfl, hc⟩ | ⟨d, _, l, _, rfl⟩
          · refine ⟨c, s, rfl, ?_⟩
            rcases hc with rfl | rfl | rfl <;> decide
          · exact ⟨'-', l, rfl, by decide, by decide, by decide⟩
    obtain ⟨c, s, rfl, h1, h2, h3⟩ := first
    refine ⟨fun h => h1 ?_, fun h => h2 ?_, fun h => h3 ?_⟩ <;> exact (prefix_head h).symm
  · rw [e]
    intro x hx
    rcases List.mem_cons.1 hx with rfl | hx
    · exact header1_no_stamp (hesc hs.1 (by decide) (by decide))
    · apply unifiedHeader1_none
      rw [← Bool.not_eq_true, List.isPrefixOf_iff_prefix]
      intro hp
      rcases List.mem_cons.1 hx with rfl | hx
      · have := prefix_head hp
        exact absurd this (by decide)
      · obtain ⟨u, hu, hx⟩ := List.mem_flatMap.1 hx
        obtain ⟨k, hkm, rfl⟩ := List.mem_map.1 hu
        rcases hunkOf_lines (hk k hkm) hx with ⟨c, s, rfl, hc⟩ | ⟨d, hd', l, hl, rfl⟩
        · have := prefix_head hp
          rcases hc with rfl | rfl | rfl <;> exact absurd this (by decide)
        · exact hno k hkm d hd' l hl (by
            obtain ⟨t, ht⟩ := hp
            exact ⟨t, congrArg List.tail ht⟩)

/-- **C20, excluded case.** Models without source time stamps (and without revisions), as `diff` without time stamps or git produce them:
the recreated diff has the headers `--- name<TAB>`, which the library itself does not recognise: no model at all is returned, and nothing is
reported. -/
theorem C20_timestamps_defect (win : Bool) (cmp : Str → Str → Int) (h heap : Heap) (ms : List DModel) (hne : ms ≠ [])
    (hu : ∀ m ∈ ms, (m.view h).Unstamped) :
    parse win cmp heap (split (ms.flatMap (fun m => m.recreateDiff win h))) = Res.ok { models := none, malformed := false, heap := heap } := by
  have facts := fun m (hm : m ∈ ms) => unstamped_file win h m (hu m hm).hunks (hu m hm).source (hu m hm).destination (hu m hm).stamp (hu m hm).revision
    (hu m hm).second.1 (hu m hm).second.2 (hu m hm).removed
  have e : ms.flatMap (fun m => m.recreateDiff win h) = (ms.flatMap (fun m => (UFile.ofView win (m.view h)).render)).flatten := by
    clear hne facts
    induction ms with
    | nil => rfl
    | cons m ms ih =>
      simp only [List.flatMap_cons, List.flatten_append]
      rw [ih (fun m hm => hu m (List.mem_cons_of_mem _ hm)), fileOf_render win h m (hu m List.mem_cons_self).hunks]
  rw [e, nlines_split _ (by
    intro x hx
    obtain ⟨m, hm, hx⟩ := List.mem_flatMap.1 hx
    exact (facts m hm).2.1 x hx)]
  have hq : QuietLines (ms.flatMap (fun m => (UFile.ofView win (m.view h)).render)) := by
    intro x hx
    obtain ⟨m, hm, hx⟩ := List.mem_flatMap.1 hx
    exact (facts m hm).2.2.1 x hx
  have hn : ∀ x ∈ ms.flatMap (fun m => (UFile.ofView win (m.view h)).render), reUnifiedHeader1.full x = none := by
    intro x hx
    obtain ⟨m, hm, hx⟩ := List.mem_flatMap.1 hx
    exact (facts m hm).2.2.2 x hx
  cases ms with
  | nil => exact absurd rfl hne
  | cons m ms =>
    obtain ⟨t, ls, e1⟩ := (facts m List.mem_cons_self).1
    rw [List.flatMap_cons, e1, List.cons_append] at hq hn ⊢
    exact parse_nothing win cmp heap _ _ hq ⟨_, rfl⟩ hn

/-- **C20, excluded case.** The same for a single model. -/
theorem C20_timestamp_defect (win : Bool) (cmp : Str → Str → Int) (h heap : Heap) (m : DModel)
    (hk : ∀ k ∈ (m.view h).ownHunks, k.Writable) (hs : '\t' ∉ m.source ∧ '\n' ∉ m.source) (hd : '\n' ∉ m.destination)
    (ht : m.sourceTimestamp = []) (hr : m.sourceRevision = []) (hdt : '\n' ∉ m.destinationTimestamp) (hdr : '\n' ∉ m.destinationRevision)
    (hno : ∀ k ∈ (m.view h).ownHunks, ∀ d ∈ k.diffs, ∀ l ∈ d.src, ¬ str "-- " <+: l) :
    parse win cmp heap (split (m.recreateDiff win h)) = Res.ok { models := none, malformed := false, heap := heap } := by
  have := C20_timestamps_defect win cmp h heap [m] (by simp) (by
    intro m' hm
    rw [List.mem_singleton.1 hm]
    exact ⟨hk, hs, hd, ht, hr, ⟨hdt, hdr⟩, hno⟩)
  simpa using this

/-! ### Revisions and empty sides -/

/-- **C20, excluded case.** Revisions are lost: whatever revision a model has, the model read back from its diff has none. -/
theorem C20_revision_defect (win : Bool) (cmp : Str → Str → Int) (h heap : Heap) (m : DModel) (w : (m.view h).Writable)
    (hc : (m.view h).hasChange = true) :
    ∃ m' h', parse win cmp heap (split (m.recreateDiff win h)) = Res.ok { models := some [m'], malformed := false, heap := h' } ∧
      m'.sourceRevision = [] ∧ m'.destinationRevision = [] := by
  obtain ⟨ms', h', h1, h2⟩ := C20_reread win cmp h heap [m] (by simpa using w) ⟨m, by simp, hc⟩
  simp only [hc, List.filter_cons_of_pos, List.filter_nil, List.map_cons, List.map_nil] at h2
  have hs' := List.perm_singleton.1 h2
  cases ms' with
  | nil => simp at hs'
  | cons m' ms =>
    cases ms with
    | cons m'' ms => simp at hs'
    | nil =>
      simp only [List.map_cons, List.map_nil, List.cons.injEq, and_true] at hs'
      refine ⟨m', h', by simpa using h1, ?_, ?_⟩
      · have := congrArg MView.sourceRevision hs'; exact this
      · have := congrArg MView.destinationRevision hs'; exact this

/-- **C20, excluded case.** Line numbers drift: in the model read back, every hunk whose old (new) side is empty starts one line later in
the old (new) file than before; the other hunks stay. -/
theorem C20_empty_side_defect (win : Bool) (cmp : Str → Str → Int) (h heap : Heap) (m : DModel) (w : (m.view h).Writable)
    (hc : (m.view h).hasChange = true) :
    ∃ m' h', parse win cmp heap (split (m.recreateDiff win h)) = Res.ok { models := some [m'], malformed := false, heap := h' } ∧
      (m'.view h').hunks.map (fun k => (k.srcLine, k.dstLine)) =
        (m.view h).ownHunks.map (fun k => (k.srcLine + (if k.srcCount = 0 then 1 else 0), k.dstLine + (if k.dstCount = 0 then 1 else 0))) := by
  obtain ⟨ms', h', h1, h2⟩ := C20_reread win cmp h heap [m] (by simpa using w) ⟨m, by simp, hc⟩
  simp only [hc, List.filter_cons_of_pos, List.filter_nil, List.map_cons, List.map_nil] at h2
  have hs' := List.perm_singleton.1 h2
  cases ms' with
  | nil => simp at hs'
  | cons m' ms =>
    cases ms with
    | cons m'' ms => simp at hs'
    | nil =>
      simp only [List.map_cons, List.map_nil, List.cons.injEq, and_true] at hs'
      refine ⟨m', h', by simpa using h1, ?_⟩
      rw [hs']
      simp only [MView.reread, List.map_map]
      rfl

/-! ### Lines without newline -/

/-- A hunk that announces one line on each side, followed by a single removed line: the hunk is read without the added line. -/
theorem glued_hunk (k : UHunk) (okk : k.Ok) (h1 : k.srcCount = 1) (h2 : k.dstCount = 1) (t u : Str) (hlen : t.length + u.length < 65533)
    (st : PState) (e : st.rest = [k.header, '-' :: (t ++ '+' :: u) ++ ['\n']]) :
    ∃ d : Diff, unifiedHunks st = Res.ok { (st.addHunk k.srcLine k.dstLine (k.function.getD []) [(d, true)]) with rest := [] } ∧
      d.view = (Block.change [{ text := t ++ '+' :: u }] []).view k.srcLine k.dstLine := by
  obtain ⟨c, hc, hv⟩ := UHunk.header_match k okk
  obtain ⟨d, hd1, hd2⟩ := unifiedStep_block (.change [{ text := t ++ '+' :: u }] []) (by simp [Block.NonEmpty])
    (by intro l hl; simp only [Block.old, Block.new, List.append_nil, List.mem_singleton] at hl; subst hl; simp; omega)
    ('-' :: (t ++ '+' :: u) ++ ['\n']) [] [] (by simp [Block.clean, Line.value]) k.srcLine k.dstLine 0 1 (.inr (by simp))
  refine ⟨d, ?_, hd2⟩
  have hbody : unifiedBodyLoop 2 ['-' :: (t ++ '+' :: u) ++ ['\n']] k.srcLine k.dstLine ((1 : Nat) : Int) ((1 : Nat) : Int) = Res.ok ([(d, true)], []) := by
    have hd1' : unifiedStep ('-' :: (t ++ '+' :: u) ++ ['\n']) [] k.srcLine k.dstLine ((1 : Nat) : Int) ((1 : Nat) : Int) =
        Res.ok ((d, true), [], ((0 : Nat) : Int), ((1 : Nat) : Int)) := hd1
    simp only [List.cons_append] at hd1'
    simp only [unifiedBodyLoop, matchesUnifiedHunkLine, List.cons_append, hd1']
    rfl
  have hhunk : parseUnifiedHunk st = Res.ok (some { (st.addHunk k.srcLine k.dstLine (k.function.getD []) [(d, true)]) with rest := [] }) := by
    unfold parseUnifiedHunk
    rw [e]
    simp only [hc, hv, h1, h2, List.length_cons, List.length_nil]
    rw [hbody]
    rfl
  unfold unifiedHunks
  rw [e]
  simp only [List.length_cons, List.length_nil]
  rw [hunkLoop, hhunk, Res.bind_ok]
  simp only
  rw [hunkLoop]
  have : ∀ s : PState, s.rest = [] → parseUnifiedHunk s = Res.ok none := by
    intro s hs
    unfold parseUnifiedHunk
    rw [hs]
  rw [this _ rfl]
  rfl

/-- **C20, excluded case.** A change of a last line that has no newline: in the recreated diff the removed and the added line are glued
together into one line, and what is read back is a deletion of that line, without an error. -/
theorem C20_no_newline_defect (win : Bool) (cmp : Str → Str → Int) (h heap : Heap) (m : DModel) (a b i : Nat) (function t u : Str)
    (hs : HeaderField m.source) (hd : HeaderField m.destination) (hst : HeaderField m.sourceTimestamp) (hdt : HeaderField m.destinationTimestamp)
    (hrev : '\n' ∉ m.sourceRevision ∧ '\n' ∉ m.destinationRevision)
    (hh : m.hunks = [{ sourceLine := a, destLine := b, function := function, diffs := [i] }])
    (hdiff : (h.cell i).type = .Change ∧ (h.cell i).srcText = [t] ∧ (h.cell i).dstText = [u ++ ['\n']])
    (ht : '\n' ∉ t) (hu : '\n' ∉ u) (hlen : t.length + u.length < 65533) (hf : '\n' ∉ function) (ha : a ≤ 2147483647) (hb : b ≤ 2147483647) :
    ∃ m' h', parse win cmp heap (split (m.recreateDiff win h)) = Res.ok { models := some [m'], malformed := false, heap := h' } ∧
      (m'.view h').hunks = [
        { srcLine := a, dstLine := b, function := function, type := .Normal, diffs := [
          { type := .Delete, srcLine := a, dstLine := b, tracking := a, src := [t ++ '+' :: u ++ ['\n']], dst := [],
            applied := false, unsaved := false, conflicts := false }] }] := by
  -- the file header and the hunk header are those of well-formed diffs
  let f : UFile := { UFile.ofView win (m.view h) with hunks := [] }
  let k : UHunk := { srcLine := a, dstLine := b, function := (if function = [] then none else some function), blocks := [.change [{ text := t }] [{ text := u }]] }
  have okf : f.Ok := by
    refine ⟨⟨escape_field hs, ?_, ?_⟩, ⟨escape_field hd, ?_, ?_⟩, by simp [f], by simp [f, UFile.ofView]⟩
    · intro ts e; simp only [f, UFile.ofView, Option.some.injEq] at e; subst e; exact hst
    · intro x e
      simp only [f, UFile.ofView] at e
      split at e
      · simp at e
      · simp only [Option.some.injEq] at e; subst e; exact hrev.1
    · intro ts e; simp only [f, UFile.ofView, Option.some.injEq] at e; subst e; exact hdt
    · intro x e
      simp only [f, UFile.ofView] at e
      split at e
      · simp at e
      · simp only [Option.some.injEq] at e; subst e; exact hrev.2
  have okk : k.Ok := by
    refine ⟨⟨by simp [k], by simp [k, UHunk.srcCount, Block.old], ha, by simp [k, UHunk.srcCount, Block.old]⟩,
      ⟨by simp [k], by simp [k, UHunk.dstCount, Block.new], hb, by simp [k, UHunk.dstCount, Block.new]⟩, ?_, ?_, trivial, ?_⟩
    · intro g e
      simp only [k] at e
      split at e
      · simp at e
      · simp only [Option.some.injEq] at e; subst e; exact ⟨hf, fun h => by simp [k] at h⟩
    · simp [k, Block.NonEmpty]
    · intro b hb l hl
      simp only [k, List.mem_singleton] at hb
      subst hb
      simp only [Block.old, Block.new, List.cons_append, List.nil_append, List.mem_cons, List.not_mem_nil, or_false] at hl
      rcases hl with rfl | rfl
      · exact ⟨ht, by simp only; omega⟩
      · exact ⟨hu, by simp only; omega⟩
  obtain ⟨g1, g2, g3⟩ := hdiff
  have hcount : (h.cell i).slc = 1 ∧ (h.cell i).dlc = 1 := by
    have h1 := congrArg List.length g2
    have h2 := congrArg List.length g3
    simpa [Diff.srcText, Diff.dstText, Diff.slc, Diff.dlc] using And.intro h1 h2
  -- the text
  have etext : m.recreateDiff win h = (f.render ++ [k.header, '-' :: (t ++ '+' :: u) ++ ['\n']]).flatten := by
    have hn : str "\n" = ['\n'] := rfl
    have htab : str "\t" = ['\t'] := rfl
    have e1 : f.render.flatten = str "--- " ++ escapePath win m.source ++ str "\t" ++ m.sourceTimestamp ++
        (if m.sourceRevision ≠ [] then '\t' :: m.sourceRevision else []) ++ str "\n" ++
        str "+++ " ++ escapePath win m.destination ++ str "\t" ++ m.destinationTimestamp ++
        (if m.destinationRevision ≠ [] then '\t' :: m.destinationRevision else []) ++ str "\n" := by
      simp only [f, UFile.render, UFile.ofView, Header.render, DModel.view, hn, htab]
      by_cases e1 : m.sourceRevision = [] <;> by_cases e2 : m.destinationRevision = [] <;> simp [e1, e2]
    have e2 : k.header = ({ sourceLine := (a : Int), destLine := (b : Int), function := function, type := .Normal, diffs := [h.cell i] } : Hunk Diff).header := by
      simp only [k, UHunk.header, Hunk.header, Spec.range, UHunk.srcCount, UHunk.dstCount, Block.old, Block.new, Hunk.headerSlc, Hunk.headerDlc, Diff.headerSlc,
        Diff.headerDlc, g1, hcount.1, hcount.2, List.map_cons, List.map_nil, List.sum_cons, List.sum_nil, List.length_cons, List.length_nil, hn]
      have hc : str "," = [','] := rfl
      simp only [decInt_natCast, hc]
      by_cases e : function = [] <;> simp [e]
    unfold DModel.recreateDiff
    rw [List.flatten_append, e1, hh]
    have e3 : (h.cell i).recreate = '-' :: (t ++ '+' :: u) ++ ['\n'] := by
      simp [Diff.recreate, Diff.recreateSource, Diff.recreateDest, g1, g2, g3]
    simp only [ne_eq, reduceCtorEq, not_false_eq_true, decide_true, List.filter_cons_of_pos, List.filter_nil, List.map_cons, List.map_nil,
      Hunk.recreate, e2, e3, List.flatten_cons, List.flatten_nil, List.append_nil]
  -- the lines
  have hlast : ('-' :: (t ++ '+' :: u) ++ ['\n'] : Str) = ('-' :: (t ++ '+' :: u)) ++ ['\n'] := rfl
  have hsplit : split (m.recreateDiff win h) = f.render ++ [k.header, '-' :: (t ++ '+' :: u) ++ ['\n']] := by
    rw [etext]
    apply nlines_split
    intro l hl
    rcases List.mem_append.1 hl with hl | hl
    · have : l ∈ ({ files := [f] } : UDiff).render := by simpa [UDiff.render] using hl
      simp only [f, UFile.render, UFile.ofView, List.map_nil, List.nil_append, List.flatMap_nil, List.append_nil, List.mem_cons, List.not_mem_nil, or_false] at hl
      have okr : ∀ (q : Str) (hd : Header), hd.Ok → '\n' ∉ q → WholeLine (q ++ hd.render) := by
        intro q hd ok hq
        obtain ⟨n, st, ex⟩ := hd
        cases st with
        | none => exact ⟨q ++ n, by simpa using ⟨hq, ok.name.2.2⟩, by simp [Header.render]⟩
        | some ts =>
          have h1 := (ok.stamp ts rfl).2.2
          cases ex with
          | none =>
            refine ⟨q ++ n ++ '\t' :: ts, ?_, by simp [Header.render]⟩
            simp only [List.mem_append, List.mem_cons, not_or]
            exact ⟨⟨hq, ok.name.2.2⟩, by decide, h1⟩
          | some x =>
            refine ⟨q ++ n ++ '\t' :: ts ++ '\t' :: x, ?_, by simp [Header.render]⟩
            simp only [List.mem_append, List.mem_cons, not_or]
            exact ⟨⟨⟨hq, ok.name.2.2⟩, by decide, h1⟩, by decide, ok.extra x rfl⟩
      rcases hl with rfl | rfl
      · exact okr _ _ okf.src (by decide)
      · exact okr _ _ okf.dst (by decide)
    · simp only [List.mem_cons, List.not_mem_nil, or_false] at hl
      rcases hl with rfl | rfl
      · exact UHunk.header_line k okk
      · refine ⟨'-' :: (t ++ '+' :: u), ?_, rfl⟩
        simp only [List.mem_cons, List.mem_append, not_or]
        exact ⟨by decide, ht, by decide, hu⟩
  rw [hsplit]
  -- parsing
  have hq : QuietLines (f.render ++ [k.header, '-' :: (t ++ '+' :: u) ++ ['\n']]) := by
    intro x hx
    have first : ∃ c s, x = c :: s ∧ c ≠ 'I' ∧ c ≠ '=' ∧ c ≠ '\\' := by
      rcases List.mem_append.1 hx with hx | hx
      · simp only [f, UFile.render, UFile.ofView, List.map_nil, List.nil_append, List.flatMap_nil, List.append_nil, List.mem_cons, List.not_mem_nil, or_false] at hx
        rcases hx with rfl | rfl
        · exact ⟨'-', _, rfl, by decide, by decide, by decide⟩
        · exact ⟨'+', _, rfl, by decide, by decide, by decide⟩
      · simp only [List.mem_cons, List.not_mem_nil, or_false] at hx
        rcases hx with rfl | rfl
        · exact ⟨'@', _, rfl, by decide, by decide, by decide⟩
        · exact ⟨'-', _, rfl, by decide, by decide, by decide⟩
    obtain ⟨c, s, rfl, h1, h2, h3⟩ := first
    refine ⟨fun h => h1 ?_, fun h => h2 ?_, fun h => h3 ?_⟩ <;> exact (prefix_head h).symm
  have hfmt : determineFormat .Diff (f.render ++ [k.header, '-' :: (t ++ '+' :: u) ++ ['\n']]) = .Unified := by
    have : f.render ++ [k.header, '-' :: (t ++ '+' :: u) ++ ['\n']] = (str "--- " ++ f.src.render) :: ((str "+++ " ++ f.dst.render) :: [k.header, '-' :: (t ++ '+' :: u) ++ ['\n']]) := by
      simp [f, UFile.render, UFile.ofView]
    rw [this]
    exact (C25_first_line _ _).1 ⟨_, rfl⟩
  have hclean : f.clean = f.render := by
    simp [f, UFile.clean, UFile.render, UFile.ofView]
  unfold parse
  rw [generator_diff _ (fun x hx => ⟨(hq x hx).1, (hq x hx).2.1⟩), clean_quiet _ (fun x hx => (hq x hx).2.2)]
  simp only [Res.bind_ok, parseLines, hfmt, unifiedFiles]
  obtain ⟨m0, h1, hbl, s1, s2, s3, s4, s5, s6⟩ := header_ok win .Diff (by decide) f okf
    { lines := f.render ++ [k.header, '-' :: (t ++ '+' :: u) ++ ['\n']], rest := f.render ++ [k.header, '-' :: (t ++ '+' :: u) ++ ['\n']],
      heap := heap, cur := {}, models := [], single := false, malformed := false }
    [k.header, '-' :: (t ++ '+' :: u) ++ ['\n']] (by rw [hclean])
  have hfl : ∀ n st, fileLoop (parseUnifiedDiffHeader win .Diff) unifiedHunks (unifiedHeader1 .Diff) (n + 1) st =
      (parseUnifiedDiffHeader win .Diff st).bind (fun r => if r.2 = false then Res.ok r.1 else
        (unifiedHunks r.1).bind (fun st => fileLoop (parseUnifiedDiffHeader win .Diff) unifiedHunks (unifiedHeader1 .Diff) n
          (checkHeader (unifiedHeader1 .Diff) st.keepModel))) := fun n st => rfl
  have hlen2 : (f.render ++ [k.header, '-' :: (t ++ '+' :: u) ++ ['\n']]).length = 4 := by
    simp [f, UFile.render, UFile.ofView]
  simp only [hlen2]
  rw [hfl, h1]
  have hcur : (f.hunks.flatMap UHunk.clean ++ [k.header, '-' :: (t ++ '+' :: u) ++ ['\n']]) = [k.header, '-' :: (t ++ '+' :: u) ++ ['\n']] := rfl
  simp only [Res.bind, hcur]
  obtain ⟨d, hd1, hd2⟩ := glued_hunk k okk (by simp [k, UHunk.srcCount, Block.old]) (by simp [k, UHunk.dstCount, Block.new]) t u hlen
    { lines := f.render ++ [k.header, '-' :: (t ++ '+' :: u) ++ ['\n']], rest := [k.header, '-' :: (t ++ '+' :: u) ++ ['\n']],
      heap := heap, cur := m0, models := [], single := false, malformed := false } rfl
  generalize hst0 : ({ lines := f.render ++ [k.header, '-' :: (t ++ '+' :: u) ++ ['\n']], rest := [k.header, '-' :: (t ++ '+' :: u) ++ ['\n']],
                       heap := heap, cur := m0, models := [], single := false, malformed := false } : PState) = st0 at hd1 ⊢
  have hcur0 : st0.cur = m0 := by rw [← hst0]
  have hmod0 : st0.models = [] := by rw [← hst0]
  have hmal0 : st0.malformed = false := by rw [← hst0]
  have hview := addHunk_view (P := fun _ => True) st0 k.srcLine k.dstLine (k.function.getD []) [(d, true)] (by rw [hcur0]; exact hbl.parsed _)
    (by intro e he
        simp only [List.mem_singleton] at he
        subst he
        have : d.type = .Delete := congrArg DView.type hd2
        simp [this])
  simp only [Bool.true_eq_false, if_false, hd1]
  generalize hst1 : st0.addHunk k.srcLine k.dstLine (k.function.getD []) [(d, true)] = st1 at hview ⊢
  have hmod1 : st1.models = [] := by rw [← hst1, ← hmod0]; rfl
  have hmal1 : st1.malformed = false := by rw [← hst1, ← hmal0]; rfl
  have hfun : k.function.getD [] = function := by
    simp only [k]
    by_cases e : function = [] <;> simp [e]
  have hdt' : d.type = .Delete := congrArg DView.type hd2
  have hpos : 0 < st1.cur.differences.length := by
    have := congrArg (fun v => v.differences.length) hview
    simp only [DModel.view, List.length_map, List.map_cons, List.map_nil] at this
    rw [this]
    have hv : d.view.type = .Delete := hdt'
    simp [hv]
  have hkeep : PState.keepModel { st1 with rest := [] } = { st1 with rest := [], models := [st1.cur] } := by
    unfold PState.keepModel
    simp only
    rw [if_pos hpos, hmod1]
    rfl
  rw [hkeep]
  simp only [checkHeader, fileLoop, parseUnifiedDiffHeader, twoLineHeader]
  refine ⟨st1.cur, st1.heap, ?_, ?_⟩
  · simp only [Res.bind_ok, if_true, finishParse, hmal1]
    rfl
  · rw [hview]
    simp only [hcur0, DModel.view, hbl.hunks, List.map_nil, List.nil_append, hunkView, List.map_cons, hd2, hfun]
    simp [Block.view, Line.value, k]

/-! ### Non-vacuity -/

theorem own_hunks_recreate (m : DModel) (h : m.hunks = recreateModel.hunks) :
    ∀ k ∈ (m.view recreateHeap).ownHunks, k = (recreateModel.hunks.head?.getD { sourceLine := 0, destLine := 0 }).view recreateHeap := by
  intro k hk
  have e : (m.view recreateHeap).ownHunks = [(recreateModel.hunks.head?.getD { sourceLine := 0, destLine := 0 }).view recreateHeap] := by
    simp only [MView.ownHunks, DModel.view, h]
    decide
  rw [e] at hk; simpa using hk

/-- `C20_timestamp_defect`: the model of the other example without time stamps; its diff is not recognised. -/
example : parse false (fun _ _ => 0) recreateHeap
      (split (({ recreateModel with sourceTimestamp := [], destinationTimestamp := [] } : DModel).recreateDiff false recreateHeap)) =
    Res.ok { models := none, malformed := false, heap := recreateHeap } := by
  apply C20_timestamp_defect
  · intro k hk
    rw [own_hunks_recreate _ rfl k hk]
    exact recreateHunk_writable
  · decide
  · decide
  · rfl
  · rfl
  · decide
  · decide
  · intro k hk
    rw [own_hunks_recreate _ rfl k hk]
    decide

/-- `C20_revision_defect`: the same model with a revision is writable. -/
example : (({ recreateModel with sourceRevision := str "1.2" } : DModel).view recreateHeap).Writable ∧
    (({ recreateModel with sourceRevision := str "1.2" } : DModel).view recreateHeap).hasChange = true := by
  refine ⟨⟨by unfold HeaderField; decide, by unfold HeaderField; decide, by unfold HeaderField; decide, by unfold HeaderField; decide, by decide, by decide, ?_⟩, by decide⟩
  intro k hk
  rw [own_hunks_recreate _ rfl k hk]
  exact recreateHunk_writable

/-- `C20_empty_side_defect`: a new file. -/
def newFileHeap : Heap where
  next := 1
  cell := fun _ => { type := .Insert, sourceLineNo := 1, destLineNo := 1, tracking := 1, dest := [DStr.ofStr (str "a\n")] }
def newFileModel : DModel where
  source := str "/dev/null"
  destination := str "new.txt"
  sourceTimestamp := str "1970"
  destinationTimestamp := str "2024"
  hunks := [{ sourceLine := 1, destLine := 1, diffs := [0] }]
  differences := [0]
theorem newFileModel_ok : (newFileModel.view newFileHeap).Writable ∧ (newFileModel.view newFileHeap).hasChange = true := by
  refine ⟨⟨by unfold HeaderField; decide, by unfold HeaderField; decide, by unfold HeaderField; decide, by unfold HeaderField; decide, by decide, by decide, ?_⟩, by decide⟩
  intro k hk
  have e : (newFileModel.view newFileHeap).ownHunks = [({ sourceLine := 1, destLine := 1, diffs := [0] } : Hunk Nat).view newFileHeap] := by decide
  rw [e, List.mem_singleton] at hk
  subst hk
  refine ⟨?_, ⟨rfl, rfl, trivial⟩, trivial, by decide, by decide, by decide⟩
  intro d hd
  obtain ⟨i, _, rfl⟩ := List.mem_map.1 hd
  refine ⟨⟨rfl, List.cons_ne_nil _ _⟩, ?_⟩
  intro l hl
  have : l = str "a" ++ ['\n'] := by
    have e : (newFileHeap.cell i).view.src ++ (newFileHeap.cell i).view.dst = [str "a" ++ ['\n']] := rfl
    rw [e] at hl; simpa using hl
  subst this
  exact ⟨str "a", rfl, by decide, by decide⟩
/-- It is read back with the source line 2 instead of 1. -/
example : ∃ m' h', parse false (fun _ _ => 0) newFileHeap (split (newFileModel.recreateDiff false newFileHeap)) =
      Res.ok { models := some [m'], malformed := false, heap := h' } ∧ (m'.view h').hunks.map (fun k => (k.srcLine, k.dstLine)) = [(2, 1)] := by
  obtain ⟨m', h', h1, h2⟩ := C20_empty_side_defect false (fun _ _ => 0) newFileHeap newFileHeap newFileModel newFileModel_ok.1 newFileModel_ok.2
  exact ⟨m', h', h1, h2.trans (by decide)⟩

/-- `C20_no_newline_defect`: the last line of a file without newline is changed. -/
example : ∃ (h : Heap) (m : DModel), HeaderField m.source ∧ HeaderField m.destination ∧ HeaderField m.sourceTimestamp ∧ HeaderField m.destinationTimestamp ∧
    m.hunks = [{ sourceLine := ((5 : Nat) : Int), destLine := ((5 : Nat) : Int), function := [], diffs := [0] }] ∧
    (h.cell 0).type = .Change ∧ (h.cell 0).srcText = [str "old"] ∧ (h.cell 0).dstText = [str "new" ++ ['\n']] :=
  ⟨{ next := 1, cell := fun _ => { type := .Change, sourceLineNo := 5, destLineNo := 5, tracking := 5, source := [DStr.ofStr (str "old")], dest := [DStr.ofStr (str "new\n")] } },
   { recreateModel with hunks := [{ sourceLine := 5, destLine := 5, diffs := [0] }] },
   by unfold HeaderField; decide, by unfold HeaderField; decide, by unfold HeaderField; decide, by unfold HeaderField; decide, rfl, rfl, by decide, by decide⟩

end KompareDiff2
