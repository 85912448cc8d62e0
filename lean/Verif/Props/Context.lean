import Verif.Proofs.ContextDiff
/-
Property theorems about the context format: C33.
-/
namespace KompareDiff2
open Spec Re

/-! ### C33 – context diffs -/

/-- **C33.** For every well-formed context diff (of `diff -c` or of CVS), parsing its text reports no error and returns one model for every
file that has hunks, and each model shows exactly what the diff says: names, hunks, functions, line numbers, differences with their
types and texts – also when one of the two sections of a hunk is left out. -/
theorem C33_context (d : CDiff) (ok : d.Ok) (hne : d.files ≠ []) (win : Bool) (cmp : Str → Str → Int) (heap : Heap) :
    ∃ r, parse win cmp heap (split d.render.flatten) = Res.ok r ∧ r.malformed = false ∧
      (match r.models with
        | none => ∀ f ∈ d.files, f.hunks = []
        | some ms => ms ≠ [] ∧
            (ms.map (DModel.view r.heap)).Perm
              ((d.files.filter (fun f => decide (f.hunks ≠ []))).map (fun f => f.view (unescapePath win) d.cvs))) := by
  obtain ⟨st, h, hm, inv⟩ := parse_context d ok hne win cmp heap
  refine ⟨finishParse cmp st, by rw [CDiff.split_text d ok]; exact h, hm, ?_⟩
  unfold finishParse
  simp only
  by_cases hz : 0 < st.models.length
  · rw [if_pos hz]
    simp only
    have hp := sortModels_perm cmp st.models
    refine ⟨?_, ?_⟩
    · intro e
      rw [e] at hp
      have := hp.length_eq
      simp only [List.length_nil] at this
      omega
    · have := inv.views
      unfold hasHunks at this
      rw [← this]; exact hp.map _
  · rw [if_neg hz]
    simp only
    have hnil : st.models = [] := List.length_eq_zero_iff.1 (by omega)
    have hv := inv.views
    rw [hnil] at hv
    simp only [List.map_nil] at hv
    intro f hf
    have hv' := List.map_eq_nil_iff.1 hv.symm
    have := List.filter_eq_nil_iff.1 hv' f hf
    simpa [hasHunks] using this

/-- **C33.** With one file there is exactly one model and it shows that file. -/
theorem C33_context_single (d : CDiff) (ok : d.Ok) (f : CFile) (hf : d.files = [f]) (hc : f.hunks ≠ []) (win : Bool)
    (cmp : Str → Str → Int) (heap : Heap) :
    ∃ m h', parse win cmp heap (split d.render.flatten) = Res.ok { models := some [m], malformed := false, heap := h' } ∧
      m.view h' = f.view (unescapePath win) d.cvs := by
  obtain ⟨r, h, hm, hr⟩ := C33_context d ok (by simp [hf]) win cmp heap
  cases hms : r.models with
  | none =>
    rw [hms] at hr
    exact absurd (hr f (by simp [hf])) hc
  | some ms =>
    rw [hms] at hr
    simp only [hf, List.filter_cons, ne_eq, hc, not_false_eq_true, decide_true, if_true, List.filter_nil, List.map_cons, List.map_nil] at hr
    have hs := List.perm_singleton.1 hr.2
    cases ms with
    | nil => simp at hs
    | cons m ms =>
      cases ms with
      | cons m' ms => simp at hs
      | nil =>
        simp only [List.map_cons, List.map_nil, List.cons.injEq, and_true] at hs
        refine ⟨m, r.heap, ?_, hs⟩
        rw [h]
        cases r
        simp only at hms hm
        subst hms; subst hm
        rfl

/-- A context diff with two files: the first has a hunk with all kinds of changes, the second one only adds lines (its old section is
left out). -/
def exampleContext : CDiff :=
  { files := [
      { preamble := [str "Only in old: x"]
        src := { name := str "old/a.c", stamp := some (str "2024-01-01") }
        dst := { name := str "new/a.c", stamp := some (str "2024-01-02") }
        hunks := [{ srcLine := 3, dstLine := 3, function := some (str "main"),
                    blocks := [.context [str "a"], .delete [str "b"], .context [str "c"], .change [str "d"] [str "e", str "f"],
                               .context [str "g"], .insert [str "h"]] }] },
      { preamble := [str "diff -c old/b.c new/b.c"]
        src := { name := str "old/b.c" }
        dst := { name := str "new/b.c" }
        hunks := [{ srcLine := 1, dstLine := 1, blocks := [.context [str "a", str "b"], .insert [str "c"]] }] }] }

theorem exampleContext_ok : exampleContext.Ok where
  files := by
    intro f hf
    simp only [exampleContext, List.mem_cons, List.not_mem_nil, or_false] at hf
    rcases hf with rfl | rfl
    · refine ⟨⟨by decide, ?_, by simp⟩, ⟨by decide, ?_, by simp⟩, ?_, ?_⟩
      · intro ts h; simp only [Option.some.injEq] at h; subst h; decide
      · intro ts h; simp only [Option.some.injEq] at h; subst h; decide
      · intro h hh
        simp only [List.mem_singleton] at hh
        subst hh
        refine ⟨by decide, by decide, ?_, ?_, ?_, ⟨.delete [str "b"], by simp, rfl⟩, ?_⟩
        · intro f h; simp only [Option.some.injEq] at h; subst h; decide
        · intro b hb
          simp only [List.mem_cons, List.not_mem_nil, or_false] at hb
          rcases hb with rfl | rfl | rfl | rfl | rfl | rfl <;> simp [CBlock.NonEmpty]
        · simp [Alternating, CBlock.isChange]
        · decide
      · intro t ht
        simp only [List.mem_singleton] at ht
        subst ht
        refine ⟨by decide, ?_, ?_, ?_⟩ <;> (rw [← List.isPrefixOf_iff_prefix]; decide)
    · refine ⟨⟨by decide, by simp, by simp⟩, ⟨by decide, by simp, by simp⟩, ?_, ?_⟩
      · intro h hh
        simp only [List.mem_singleton] at hh
        subst hh
        refine ⟨by decide, by decide, by simp, ?_, ?_, ⟨.insert [str "c"], by simp, rfl⟩, ?_⟩
        · intro b hb
          simp only [List.mem_cons, List.not_mem_nil, or_false] at hb
          rcases hb with rfl | rfl <;> simp [CBlock.NonEmpty]
        · simp [Alternating, CBlock.isChange]
        · decide
      · intro t ht
        simp only [List.mem_singleton] at ht
        subst ht
        refine ⟨by decide, ?_, ?_, ?_⟩ <;> (rw [← List.isPrefixOf_iff_prefix]; decide)
  headers := by
    have hc : exampleContext.cvs = false := by decide
    intro f hf
    rw [hc]
    refine ⟨fun _ => ?_, by simp⟩
    simp only [exampleContext, List.mem_cons, List.not_mem_nil, or_false] at hf
    rcases hf with rfl | rfl <;> exact ⟨rfl, rfl⟩
  first := by
    intro f fs h t ht
    simp only [exampleContext, List.cons.injEq] at h
    obtain ⟨rfl, _⟩ := h
    simp only [List.mem_singleton] at ht
    subst ht
    refine ⟨⟨by decide, ?_, ?_, ?_⟩, ?_, ?_, ?_⟩
    · rw [← List.isPrefixOf_iff_prefix]; decide
    · rw [← List.isPrefixOf_iff_prefix]; decide
    · rw [← List.isPrefixOf_iff_prefix]; decide
    · rw [← List.isPrefixOf_iff_prefix]; decide
    · intro x s h
      simp only [str] at h
      have := congrArg List.head? h
      simp only [List.head?_cons] at this
      have hx : x = 'O' := by simpa using this.symm
      subst hx; decide
    · intro x y s h hx
      have := congrArg List.head? h
      have hx' : x = 'O' := by simpa [str] using this.symm
      subst hx'; simp at hx
  later := by
    intro f fs h g hg t ts ht
    simp only [exampleContext, List.cons.injEq] at h
    obtain ⟨_, rfl⟩ := h
    simp only [List.mem_singleton] at hg
    subst hg
    simp only [List.cons.injEq] at ht
    obtain ⟨rfl, _⟩ := ht
    right; left
    rw [← List.isPrefixOf_iff_prefix]; decide
  trailer := by simp [exampleContext]

/-- The hypotheses of C33 hold for the example, and both files are found. -/
example (win : Bool) (cmp : Str → Str → Int) (heap : Heap) : ∃ ms h',
    parse win cmp heap (split exampleContext.render.flatten) = Res.ok { models := some ms, malformed := false, heap := h' } ∧ ms.length = 2 := by
  obtain ⟨r, h, hm, hr⟩ := C33_context exampleContext exampleContext_ok (by simp [exampleContext]) win cmp heap
  cases hms : r.models with
  | none =>
    rw [hms] at hr
    have := hr _ (List.mem_cons_self)
    simp at this
  | some ms =>
    rw [hms] at hr
    refine ⟨ms, r.heap, ?_, ?_⟩
    · rw [h]; cases r; simp only at hms hm; subst hms; subst hm; rfl
    · have := hr.2.length_eq
      simpa [exampleContext] using this

/-- The second hunk of the example is shown with the unchanged lines on both sides although only the new section is written. -/
example : (exampleContext.files[1]?.map (fun f => (f.view id false).hunks)) =
    some [{ srcLine := 1, dstLine := 1, function := [], type := .Normal,
            diffs := [{ type := .Unchanged, srcLine := 1, dstLine := 1, tracking := 1, src := [str "a", str "b"], dst := [str "a", str "b"],
                        applied := false, unsaved := false, conflicts := false },
                      { type := .Insert, srcLine := 3, dstLine := 3, tracking := 3, src := [], dst := [str "c"],
                        applied := false, unsaved := false, conflicts := false }] }] := by rfl

/-- **C33, defect.** For a diff written by CVS the library reports the *revision* of the old file as its time stamp, and no revision. -/
theorem C33_cvs_stamp_defect (d : CDiff) (ok : d.Ok) (f : CFile) (hf : d.files = [f]) (hc : f.hunks ≠ []) (hcvs : d.cvs = true)
    (win : Bool) (cmp : Str → Str → Int) (heap : Heap) :
    ∃ m h' ts rev, f.src.stamp = some ts ∧ f.src.extra = some rev ∧
      parse win cmp heap (split d.render.flatten) = Res.ok { models := some [m], malformed := false, heap := h' } ∧
      m.sourceTimestamp = rev ∧ m.sourceRevision = [] := by
  obtain ⟨m, h', h1, h2⟩ := C33_context_single d ok f hf hc win cmp heap
  obtain ⟨a, b, _⟩ := (ok.headers f (by simp [hf])).2 hcvs
  cases hs : f.src.stamp with
  | none => exact absurd hs a
  | some ts =>
    cases hx : f.src.extra with
    | none => exact absurd hx b
    | some rev =>
      refine ⟨m, h', ts, rev, rfl, rfl, h1, ?_, ?_⟩
      · have := congrArg MView.sourceTimestamp h2
        simpa [DModel.view, CFile.view, shownStamps, hcvs, hx] using this
      · have := congrArg MView.sourceRevision h2
        simpa [DModel.view, CFile.view] using this

/-- Lines that do not disturb the recognition of the generator and are not remarks about missing newlines. -/
def QuietLines (ls : List Str) : Prop :=
  ∀ l ∈ ls, ¬ str "Index: " <+: l ∧ ¬ str "==== " <+: l ∧ ¬ str "\\ No newline" <+: l

theorem generator_diff (ls : List Str) (h : ∀ l ∈ ls, ¬ str "Index: " <+: l ∧ ¬ str "==== " <+: l) : determineGenerator ls = .Diff := by
  induction ls with
  | nil => rfl
  | cons l ls ih =>
    simp only [determineGenerator, List.isPrefixOf_iff_prefix]
    rw [if_neg (h l (by simp)).1, if_neg (h l (by simp)).2]
    exact ih (fun l hl => h l (by simp [hl]))

theorem clean_quiet (ls : List Str) (h : ∀ l ∈ ls, ¬ str "\\ No newline" <+: l) : cleanUpCrap ls = Res.ok ls := by
  apply Cleans.run
  apply Cleans.id
  intro l hl
  cases e : (str "\\ No newline").isPrefixOf l with
  | false => rfl
  | true => exact absurd (List.isPrefixOf_iff_prefix.1 e) (h l hl)

theorem Hunky.quiet {l : Str} (h : Hunky l) : ¬ str "Index: " <+: l ∧ ¬ str "==== " <+: l ∧ ¬ str "\\ No newline" <+: l := by
  refine ⟨fun k => ?_, fun k => ?_, fun k => ?_⟩
  · have := h.unmarked.cvs; rw [List.isPrefixOf_iff_prefix.2 k] at this; cases this
  · have := h.unmarked.perforce; rw [List.isPrefixOf_iff_prefix.2 k] at this; cases this
  · have := h.plain; rw [List.isPrefixOf_iff_prefix.2 k] at this; cases this

/-- **C33, defect.** A hunk with a single old line has the range `*** n ****`, which is not understood: everything from there on is lost
silently – the first hunk, and whatever follows (`more` may be any number of further hunks and files) – and no error is reported. -/
theorem C33_one_line_defect (src dst : Header) (hs : src.Ok) (hd : dst.Ok) (hsx : src.extra = none) (hdx : dst.extra = none)
    (function : Str) (hf : '\n' ∉ function) (n : Nat) (mark : Char) (text : Str) (more : List Str)
    (hm : mark = '!' ∨ mark = '-' ∨ mark = ' ') (hq : QuietLines more) (win : Bool) (cmp : Str → Str → Int) (heap : Heap) :
    parse win cmp heap ((str "*** " ++ src.render) :: (str "--- " ++ dst.render) ::
        (List.replicate 15 '*' ++ function ++ ['\n']) ::
        (str "*** " ++ decNat n ++ str " ****\n") :: markedLine mark text :: more) =
      Res.ok { models := none, malformed := false, heap := heap } := by
  obtain ⟨c1, hst'⟩ : ∃ c1, reContextHunkHeader1.full (List.replicate 15 '*' ++ function ++ ['\n']) = some c1 :=
    Option.isSome_iff_exists.1 ((Re.full_isSome _ _).2 ((starLine_lang _).2 ⟨function, by simp, hf⟩))
  generalize hS : (List.replicate 15 '*' ++ function ++ ['\n']) = S at hst' ⊢
  have hSh : Hunky S := by rw [← hS]; exact ⟨'*', _, rfl, by simp⟩
  let nm : Header := { name := decNat n ++ str " ****" }
  have hnm : nm.Ok := by
    refine ⟨⟨?_, ?_, ?_⟩, by simp [nm], by simp [nm]⟩
    · simp [nm, decNat_ne_nil]
    · simp only [nm, List.mem_append, not_or]
      refine ⟨fun h => ?_, by decide⟩
      have := decNat_isDigit n _ h
      revert this; decide
    · simp only [nm, List.mem_append, not_or]
      exact ⟨decNat_noNewline n, by decide⟩
  have hR : str "*** " ++ decNat n ++ str " ****\n" = str "*** " ++ nm.render := by simp [nm, Header.render, str]
  obtain ⟨cR, hR1, _⟩ := contextHeader_match "*** " nm hnm rfl
  rw [hR]
  have hRn : reContextHunkHeader2.full (str "*** " ++ nm.render) = none := by
    rw [Re.full_none, oldRange_lang]
    rintro ⟨a, b, t, e, ha, hb, ht⟩
    have e2 : decNat n ++ str " ****\n" = a ++ ',' :: (b ++ str " ****" ++ t ++ ['\n']) := by
      have : str "*** " ++ (decNat n ++ str " ****\n") = str "*** " ++ (a ++ ',' :: (b ++ str " ****" ++ t ++ ['\n'])) := by
        rw [← hR] at e; simpa using e
      exact List.append_cancel_left this
    have hcm : ',' ∈ decNat n ++ str " ****\n" := by rw [e2]; simp
    rcases List.mem_append.1 hcm with h | h
    · have := decNat_isDigit n _ h
      revert this; decide
    · revert h; decide
  have hRh : Hunky (str "*** " ++ nm.render) := ⟨'*', _, by simp only [str]; rfl, by simp⟩
  generalize hRR : str "*** " ++ nm.render = R at hR1 hRn hRh ⊢
  have hL : Hunky (markedLine mark text) := ⟨mark, _, rfl, by rcases hm with rfl | rfl | rfl <;> simp⟩
  have hLn : (contextHeader2 .Diff).full (markedLine mark text) = none := by
    show (reContextDiffHeader "--- ").full _ = none
    apply full_text_cat_none
    rcases hm with rfl | rfl | rfl <;> simp [markedLine, str, List.isPrefixOf]
  generalize markedLine mark text = L at hL hLn ⊢
  let f : CFile := { src := src, dst := dst, hunks := [] }
  have hfo : f.Ok := ⟨hs, hd, by simp [f], by simp [f]⟩
  have hh : HeadersOk false f.src f.dst := ⟨fun _ => ⟨hsx, hdx⟩, by simp⟩
  have hfr : f.render = [str "*** " ++ src.render, str "--- " ++ dst.render] := by simp [f, CFile.render]
  have h1 : Hunky (str "*** " ++ src.render) := ⟨'*', _, by simp only [str]; rfl, by simp⟩
  have h2 : Hunky (str "--- " ++ dst.render) := ⟨'-', _, by simp only [str]; rfl, by simp⟩
  have hall : ∀ l ∈ (str "*** " ++ src.render) :: (str "--- " ++ dst.render) :: S :: R :: L :: more,
      ¬ str "Index: " <+: l ∧ ¬ str "==== " <+: l ∧ ¬ str "\\ No newline" <+: l := by
    intro l hl
    simp only [List.mem_cons] at hl
    rcases hl with rfl | rfl | rfl | rfl | rfl | hl
    · exact h1.quiet
    · exact h2.quiet
    · exact hSh.quiet
    · exact hRh.quiet
    · exact hL.quiet
    · exact hq l hl
  have hfmt : determineFormat .Diff ((str "*** " ++ src.render) :: (str "--- " ++ dst.render) :: S :: R :: L :: more) = .Context := by
    simp only [determineFormat]
    have := cheader_format false src hs (by simp)
    simp only [genOf] at this
    simp only [Bool.false_eq_true, if_false] at this
    rw [this]
  unfold parse
  rw [clean_quiet _ (fun l hl => (hall l hl).2.2), generator_diff _ (fun l hl => ⟨(hall l hl).1, (hall l hl).2.1⟩)]
  simp only [Res.bind_ok, parseLines, hfmt, contextFiles]
  generalize hst0 : ({ lines := (str "*** " ++ src.render) :: (str "--- " ++ dst.render) :: S :: R :: L :: more,
                       rest := (str "*** " ++ src.render) :: (str "--- " ++ dst.render) :: S :: R :: L :: more, heap := heap, cur := {},
                       models := [], single := false, malformed := false } : PState) = st0
  obtain ⟨m, g1, g2, _⟩ := cheader_ok win false f hfo hh st0 (S :: R :: L :: more) (by rw [← hst0, hfr]; rfl)
  have g1' : parseContextDiffHeader win .Diff st0 = Res.ok ({ st0 with rest := S :: R :: L :: more, cur := m }, true) := g1
  have hlen : ((str "*** " ++ src.render) :: (str "--- " ++ dst.render) :: S :: R :: L :: more).length + 1 = (more.length + 4) + 1 + 1 := by simp
  rw [hlen]
  simp only [fileLoop, g1', Res.bind_ok, Bool.true_eq_false, if_false]
  have hk : contextHunks { st0 with rest := S :: R :: L :: more, cur := m } = Res.ok { st0 with rest := R :: L :: more, cur := m } := by
    simp [contextHunks, contextHunkLoop, parseContextHunk, contextHunkHeader, hst', hRn]
  rw [hk]
  have hkeep : ({ st0 with rest := R :: L :: more, cur := m } : PState).keepModel = { st0 with rest := R :: L :: more, cur := m } := by
    simp [PState.keepModel, g2.differences]
  have hchk : checkHeader (contextHeader1 .Diff) { st0 with rest := R :: L :: more, cur := m } = { st0 with rest := R :: L :: more, cur := m } := by
    simp [checkHeader, contextHeader1, hR1]
  simp only [Res.bind_ok, hkeep, hchk]
  have hH : parseContextDiffHeader win .Diff { st0 with rest := R :: L :: more, cur := m } =
      Res.ok ({ st0 with rest := L :: more, cur := m }, false) := by
    simp [parseContextDiffHeader, twoLineHeader, contextHeader1, hR1, hLn]
  rw [hH]
  simp only [Res.bind_ok, if_true, finishParse]
  rw [← hst0]
  rfl

/-- The hypotheses are met by a one-line change of an ordinary file. -/
example (heap : Heap) : parse false (fun _ _ => 0) heap [str "*** a\n", str "--- b\n", str "***************\n", str "*** 1 ****\n", str "! x\n", str "--- 1 ----\n", str "! y\n"] =
    Res.ok { models := none, malformed := false, heap := heap } := by
  have := C33_one_line_defect { name := str "a" } { name := str "b" } ⟨by decide, by simp, by simp⟩ ⟨by decide, by simp, by simp⟩ rfl rfl
    [] (by simp) 1 '!' (str "x") [str "--- 1 ----\n", str "! y\n"] (by simp) (by
      intro l hl
      simp only [List.mem_cons, List.not_mem_nil, or_false] at hl
      rcases hl with rfl | rfl
      · refine ⟨?_, ?_, ?_⟩ <;> (rw [← List.isPrefixOf_iff_prefix]; decide)
      · refine ⟨?_, ?_, ?_⟩ <;> (rw [← List.isPrefixOf_iff_prefix]; decide)) false (fun _ _ => 0) heap
  have e : decNat 1 = str "1" := by rw [decNat]; rfl
  rw [e] at this
  exact this

/-- **C33, defect.** When the last line of the old file has no newline, the remark about it makes the whole hunk unreadable: the hunk is
dropped and the diff is reported as malformed although it is a correct context diff. -/
theorem C33_no_newline_defect (src dst : Header) (hs : src.Ok) (hd : dst.Ok) (hsx : src.extra = none) (hdx : dst.extra = none)
    (a b : Nat) (old : List Str) (ho : ∀ l ∈ old, SectionLine l) (mark : Char) (text : Str) (more : List Str) (ht : '\n' ∉ text)
    (hm : mark = '!' ∨ mark = '-' ∨ mark = ' ') (hq : QuietLines more) (hsingle : ∀ l ∈ more, ¬ str "*** " <+: l)
    (win : Bool) (cmp : Str → Str → Int) (heap : Heap) :
    parse win cmp heap ((str "*** " ++ src.render) :: (str "--- " ++ dst.render) :: (List.replicate 15 '*' ++ ['\n']) ::
        (str "*** " ++ (decNat a ++ ',' :: decNat b) ++ str " ****\n") :: (old ++ markedLine mark text :: noNewlineMarker :: more)) =
      Res.ok { models := none, malformed := true, heap := heap } := by
  have dig : ∀ n, decNat n ≠ [] ∧ ∀ x ∈ decNat n, IsDigit x := fun n => ⟨decNat_ne_nil n, decNat_isDigit n⟩
  obtain ⟨c1, hst, _⟩ := stars_match { srcLine := 0, dstLine := 0, function := none, blocks := [] } (by simp)
  have hst' : reContextHunkHeader1.full (List.replicate 15 '*' ++ ['\n']) = some c1 := by simpa [CHunk.stars] using hst
  obtain ⟨c2, hrg, _⟩ := oldRange_match (decNat a) (decNat b) (dig _) (dig _)
  have hSh : Hunky (List.replicate 15 '*' ++ ['\n']) := ⟨'*', _, rfl, by simp⟩
  have hRh : Hunky (str "*** " ++ (decNat a ++ ',' :: decNat b) ++ str " ****\n") := ⟨'*', _, by simp only [str]; rfl, by simp⟩
  generalize (List.replicate 15 '*' ++ ['\n']) = S at hst' hSh ⊢
  generalize str "*** " ++ (decNat a ++ ',' :: decNat b) ++ str " ****\n" = R at hrg hRh ⊢
  have h1 : Hunky (str "*** " ++ src.render) := ⟨'*', _, by simp only [str]; rfl, by simp⟩
  have h2 : Hunky (str "--- " ++ dst.render) := ⟨'-', _, by simp only [str]; rfl, by simp⟩
  have hoh : ∀ l ∈ old, Hunky l := by
    intro l hl
    obtain ⟨x, t, rfl, hx, _⟩ := ho l hl
    exact ⟨x, _, rfl, by rcases hx with rfl | rfl | rfl | rfl <;> simp⟩
  let B : Str := mark :: ' ' :: text
  have hBh : Hunky B := ⟨mark, _, rfl, by rcases hm with rfl | rfl | rfl <;> simp⟩
  have hclean : cleanUpCrap ((str "*** " ++ src.render) :: (str "--- " ++ dst.render) :: S :: R :: (old ++ markedLine mark text :: noNewlineMarker :: more)) =
      Res.ok ((str "*** " ++ src.render) :: (str "--- " ++ dst.render) :: S :: R :: (old ++ B :: more)) := by
    apply Cleans.run
    refine Cleans.cons h1.plain (Cleans.cons h2.plain (Cleans.cons hSh.plain (Cleans.cons hRh.plain ?_)))
    refine Cleans.append (Cleans.id _ (fun l hl => (hoh l hl).plain)) ?_
    have hb : Cleans [markedLine mark text, noNewlineMarker] [B] := by
      intro before rest
      have := cleanUpLoop_marked before B noNewlineMarker rest (by simpa [B] using not_marker (by rcases hm with rfl | rfl | rfl <;> decide))
        (by rcases hm with rfl | rfl | rfl <;> simp [B, ht]) (by decide)
      exact this
    exact hb.append (Cleans.id more (fun l hl => by
      cases e : (str "\\ No newline").isPrefixOf l with
      | false => rfl
      | true => exact absurd (List.isPrefixOf_iff_prefix.1 e) (hq l hl).2.2))
  have hgen : determineGenerator ((str "*** " ++ src.render) :: (str "--- " ++ dst.render) :: S :: R :: (old ++ markedLine mark text :: noNewlineMarker :: more)) = .Diff := by
    apply generator_diff
    intro l hl
    simp only [List.mem_cons, List.mem_append] at hl
    rcases hl with rfl | rfl | rfl | rfl | hl | rfl | rfl | hl
    · exact ⟨h1.quiet.1, h1.quiet.2.1⟩
    · exact ⟨h2.quiet.1, h2.quiet.2.1⟩
    · exact ⟨hSh.quiet.1, hSh.quiet.2.1⟩
    · exact ⟨hRh.quiet.1, hRh.quiet.2.1⟩
    · exact ⟨(hoh l hl).quiet.1, (hoh l hl).quiet.2.1⟩
    · have : Hunky (markedLine mark text) := ⟨mark, _, rfl, by rcases hm with rfl | rfl | rfl <;> simp⟩
      exact ⟨this.quiet.1, this.quiet.2.1⟩
    · constructor <;> (rw [← List.isPrefixOf_iff_prefix]; decide)
    · exact ⟨(hq l hl).1, (hq l hl).2.1⟩
  have hfmt : determineFormat .Diff ((str "*** " ++ src.render) :: (str "--- " ++ dst.render) :: S :: R :: (old ++ B :: more)) = .Context := by
    simp only [determineFormat]
    have := cheader_format false src hs (by simp)
    simp only [genOf, Bool.false_eq_true, if_false] at this
    rw [this]
  have hBnl : '\n' ∉ B := by rcases hm with rfl | rfl | rfl <;> simp [B, ht]
  have hBsec : (reContextLine.full B).isSome = false := by
    cases hx : reContextLine.full B with
    | none => rfl
    | some k =>
      obtain ⟨x, t, _, _, e, _⟩ := reBody_full.1 hx
      exact absurd (by rw [e]; simp) hBnl
  have hB3 : reContextHunkHeader3.full B = none := by
    rw [Re.full_none, newRange_lang]
    rintro ⟨a, b, e, _⟩
    exact hBnl (by rw [e]; simp [str])
  have hB1 : reContextHunkHeader1.full B = none := by
    rw [Re.full_none, starLine_lang]
    rintro ⟨f, e, _⟩
    exact hBnl (by rw [e]; simp)
  have hBp : ∀ p : Str, p.isPrefixOf B = true → ∀ c d s, p = c :: d :: s → d = ' ' := by
    intro p hp c d s e
    subst e
    simp only [B, List.isPrefixOf, Bool.and_eq_true, beq_iff_eq] at hp
    exact hp.2.1
  have hBh1 : (contextHeader1 .Diff).full B = none := contextHeader1_none _ (by simp) (by
    cases e : (str "*** ").isPrefixOf B with
    | false => rfl
    | true => exact absurd (hBp _ e '*' '*' _ rfl) (by decide))
  have hnone : ∀ l ∈ B :: more, (contextHeader1 .Diff).full l = none := by
    intro l hl
    rcases List.mem_cons.1 hl with rfl | hl
    · exact hBh1
    · refine contextHeader1_none _ (by simp) ?_
      cases e : (str "*** ").isPrefixOf l with
      | false => rfl
      | true => exact absurd (List.isPrefixOf_iff_prefix.1 e) (hsingle l hl)
  have hlines : contextLines (old ++ B :: more) = (old, B :: more) := contextLines_all old (B :: more)
    (fun l hl => (sectionLine_full l).2 (ho l hl))
    (by intro l hl; simp only [List.head?_cons, Option.some.injEq] at hl; rw [← hl]; exact hBsec)
  let f : CFile := { src := src, dst := dst, hunks := [] }
  have hfo : f.Ok := ⟨hs, hd, by simp [f], by simp [f]⟩
  have hh : HeadersOk false f.src f.dst := ⟨fun _ => ⟨hsx, hdx⟩, by simp⟩
  have hfr : f.render = [str "*** " ++ src.render, str "--- " ++ dst.render] := by simp [f, CFile.render]
  unfold parse
  rw [hclean, hgen]
  simp only [Res.bind_ok, parseLines, hfmt, contextFiles]
  generalize hst0 : ({ lines := (str "*** " ++ src.render) :: (str "--- " ++ dst.render) :: S :: R :: (old ++ B :: more),
                       rest := (str "*** " ++ src.render) :: (str "--- " ++ dst.render) :: S :: R :: (old ++ B :: more), heap := heap, cur := {},
                       models := [], single := false, malformed := false } : PState) = st0
  obtain ⟨m, g1, g2, _⟩ := cheader_ok win false f hfo hh st0 (S :: R :: (old ++ B :: more)) (by rw [← hst0, hfr]; rfl)
  have g1' : parseContextDiffHeader win .Diff st0 = Res.ok ({ st0 with rest := S :: R :: (old ++ B :: more), cur := m }, true) := g1
  have hlen : ((str "*** " ++ src.render) :: (str "--- " ++ dst.render) :: S :: R :: (old ++ B :: more)).length + 1 = (old.length + more.length + 4) + 1 + 1 := by simp; omega
  rw [hlen]
  simp only [fileLoop, g1', Res.bind_ok, Bool.true_eq_false, if_false]
  have hk : contextHunks { st0 with rest := S :: R :: (old ++ B :: more), cur := m } = Res.ok { st0 with rest := B :: more, cur := m } := by
    have e : ∀ n : Nat, contextHunkLoop (n + 2) { st0 with rest := S :: R :: (old ++ B :: more), cur := m } = Res.ok { st0 with rest := B :: more, cur := m } := by
      intro n
      simp [contextHunkLoop, parseContextHunk, contextHunkHeader, hst', hrg, hlines, hB3, hB1]
    have e2 : (S :: R :: (old ++ B :: more)).length + 1 = (old.length + more.length + 2) + 2 := by simp; omega
    show contextHunkLoop ((S :: R :: (old ++ B :: more)).length + 1) _ = _
    rw [e2]; exact e _
  rw [hk]
  have hkeep : ({ st0 with rest := B :: more, cur := m } : PState).keepModel = { st0 with rest := B :: more, cur := m } := by
    simp [PState.keepModel, g2.differences]
  have hchk : checkHeader (contextHeader1 .Diff) { st0 with rest := B :: more, cur := m } = { st0 with rest := B :: more, cur := m, malformed := true } := by
    unfold checkHeader
    dsimp only
    rw [if_neg]
    rintro (h | h | h | h)
    · rw [hBh1] at h; cases h
    · exact absurd (hBp _ h 'I' 'n' _ rfl) (by decide)
    · exact absurd (hBp _ h 'd' 'i' _ rfl) (by decide)
    · exact absurd (hBp _ h '-' '-' _ rfl) (by decide)
  simp only [Res.bind_ok, hkeep, hchk]
  have hH : parseContextDiffHeader win .Diff { st0 with rest := B :: more, cur := m, malformed := true } =
      Res.ok ({ st0 with rest := [], cur := m, malformed := true }, false) := by
    simp only [parseContextDiffHeader]
    have := twoLineHeader_skip (contextHeader1 .Diff) (contextHeader2 .Diff) (fun c1 c2 =>
      newModel (unescapePath win (c1.get 1)) (unescapePath win (c2.get 1)) (c1.get 3) (c1.get 5) (c2.get 3) (c2.get 5))
      { st0 with rest := B :: more, cur := m, malformed := true } (B :: more) [] hnone
    rw [List.append_nil] at this
    rw [this]; rfl
  rw [hH]
  simp only [Res.bind_ok, if_true, finishParse]
  rw [← hst0]
  rfl

/-- A concrete case: `printf 'a\nb' > old; printf 'a\nc\n' > new; diff -c old new`. -/
example (heap : Heap) : parse false (fun _ _ => 0) heap ((str "*** " ++ Header.render { name := str "old" }) :: (str "--- " ++ Header.render { name := str "new" }) ::
      (List.replicate 15 '*' ++ ['\n']) :: (str "*** " ++ (decNat 1 ++ ',' :: decNat 2) ++ str " ****\n") ::
      ([str "  a\n"] ++ markedLine '!' (str "b") :: noNewlineMarker :: [str "--- 1,2 ----\n", str "  a\n", str "! c\n"])) =
    Res.ok { models := none, malformed := true, heap := heap } := by
  refine C33_no_newline_defect { name := str "old" } { name := str "new" } ⟨by decide, by simp, by simp⟩ ⟨by decide, by simp, by simp⟩ rfl rfl
    1 2 [str "  a\n"] ?_ '!' (str "b") _ (by decide) (by simp) ?_ ?_ false (fun _ _ => 0) heap
  · intro l hl
    simp only [List.mem_singleton] at hl
    subst hl
    exact ⟨' ', str "a", by decide, by simp, by decide⟩
  · intro l hl
    simp only [List.mem_cons, List.not_mem_nil, or_false] at hl
    rcases hl with rfl | rfl | rfl <;> (refine ⟨?_, ?_, ?_⟩ <;> (rw [← List.isPrefixOf_iff_prefix]; decide))
  · intro l hl
    simp only [List.mem_cons, List.not_mem_nil, or_false] at hl
    rcases hl with rfl | rfl | rfl <;> (rw [← List.isPrefixOf_iff_prefix]; decide)

end KompareDiff2
