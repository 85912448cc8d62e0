import Verif.Proofs.ShownContextOnce
import Verif.Props.ParserSound
import Verif.Props.Shown
/-
C71: what is shown of an arbitrary context diff.
-/
namespace KompareDiff2
open Spec

/-- **C71.** Context format: what the parser returns for arbitrary lines is what the lines show according to Spec/ShownContext.lean.  No
list of files is returned exactly if the lines show none. -/
theorem C71_context_shown (win : Bool) (cmp : Str → Str → Int) (g : Generator) (heap : Heap) (lines : List Str) (r : ParseResult)
    (hf : determineFormat g lines = .Context) (h : parseLines win cmp g heap lines = Res.ok r) :
    ∃ ms, ShowsFiles (contextForm (unescapePath win) g) ContextShown lines ms ∧ r.shown.Perm ms ∧ (r.models = none ↔ ms = []) := by
  unfold parseLines at h
  simp only [hf] at h
  obtain ⟨st, hst, h⟩ := Res.bind_eq_ok.1 h
  simp only [Res.ok.injEq] at h
  rw [← h]
  obtain ⟨_, ms, h1, h2⟩ := contextFiles_shown (start_found _ heap lines) hst
  simp only [List.map_nil, List.nil_append] at h2
  obtain ⟨k1, k2⟩ := finishParse_shown cmp st
  refine ⟨ms, h1, by rw [← h2]; exact k1, ?_⟩
  rw [k2, ← h2]; simp

/-- **C71.** There is only one way to read the lines. -/
theorem C71_context_once (unesc : Str → Str) (g : Generator) (lines : List Str) (ms ms' : List MView)
    (h : ShowsFiles (contextForm unesc g) ContextShown lines ms) (h' : ShowsFiles (contextForm unesc g) ContextShown lines ms') : ms = ms' :=
  showsFiles_det (contextForm_proper unesc g) (H := ContextShown) (fun _ _ _ _ _ h h' => contextShown_det h h') h h'

/-- **C71.** So whatever the lines show is what is returned. -/
theorem C71_context_exact (win : Bool) (cmp : Str → Str → Int) (g : Generator) (heap : Heap) (lines : List Str) (r : ParseResult) (ms : List MView)
    (hf : determineFormat g lines = .Context) (h : parseLines win cmp g heap lines = Res.ok r)
    (hs : ShowsFiles (contextForm (unescapePath win) g) ContextShown lines ms) : r.shown.Perm ms ∧ (r.models = none ↔ ms = []) := by
  obtain ⟨ms', h1, h2⟩ := C71_context_shown win cmp g heap lines r hf h
  rw [C71_context_once _ _ _ _ _ hs h1]
  exact h2

/-- **C71.** The whole parser: the same of the lines without the remarks about missing line ends. -/
theorem C71_context_parse (win : Bool) (cmp : Str → Str → Int) (heap : Heap) (lines : List Str) (r : ParseResult)
    (hf : ∀ cleaned, cleanUpCrap lines = Res.ok cleaned → determineFormat (determineGenerator lines) cleaned = .Context)
    (h : parse win cmp heap lines = Res.ok r) :
    ∃ cleaned ms, cleanUpCrap lines = Res.ok cleaned ∧
      ShowsFiles (contextForm (unescapePath win) (determineGenerator lines)) ContextShown cleaned ms ∧ r.shown.Perm ms ∧
      (r.models = none ↔ ms = []) := by
  unfold parse at h
  obtain ⟨cleaned, hc, h⟩ := Res.bind_eq_ok.1 h
  obtain ⟨ms, h1, h2⟩ := C71_context_shown win cmp _ heap cleaned r (hf cleaned hc) h
  exact ⟨cleaned, ms, hc, h1, h2⟩

/-- **C71.** Nothing is invented: in some order, the returned files stand in the lines one after the other without overlap, each with a
header that holds its names, and the hunks of each as a line of stars, two ranges with their positions and two sections in which the
differences stand one after the other. -/
theorem C71_context_stands (win : Bool) (cmp : Str → Str → Int) (g : Generator) (heap : Heap) (lines : List Str) (r : ParseResult)
    (hf : determineFormat g lines = .Context) (h : parseLines win cmp g heap lines = Res.ok r) :
    ∃ ms, r.shown.Perm ms ∧ FilesStand (contextForm (unescapePath win) g) ContextText ms lines := by
  obtain ⟨ms, h1, h2, _⟩ := C71_context_shown win cmp g heap lines r hf h
  exact ⟨ms, h2, filesStand_shows (H := ContextShown) (fun _ _ _ h => contextShown_stands h) h1⟩

/-- The differences fill both sections. -/
inductive SectionsFilled : List DView → List Str → List Str → Prop where
  | nil : SectionsFilled [] [] []
  | cons (v : DView) (vs : List DView) (o n os ns : List Str) : v.OldText o → v.NewText o n → SectionsFilled vs os ns →
      SectionsFilled (v :: vs) (o ++ os) (n ++ ns)

/-- **C71.** Nothing is lost in a hunk that has no added line in its old section and no removed line in its new section. -/
theorem C71_context_complete (os ns : List Str) (vs : List DView) (h : Paired os ns vs) (ho : ∀ x ∈ os, SectionLine x ∧ x.head? ≠ some '+')
    (hn : ∀ x ∈ ns, SectionLine x ∧ x.head? ≠ some '-') : SectionsFilled vs os ns := by
  induction h with
  | done => exact .nil
  | removed os os' ns v vs h1 h2 h3 h4 h5 ih =>
    obtain ⟨rfl, _⟩ := h1
    exact .cons v vs _ [] os' ns (by simp [DView.OldText, h2]) (by simp [DView.NewText, h2]) (ih (fun x hx => ho x (by simp [hx])) hn)
  | added os ns ns' v vs h0 h1 h2 h3 h4 h5 ih =>
    obtain ⟨rfl, _⟩ := h1
    exact .cons v vs [] _ os ns' (by simp [DView.OldText, h2]) (by simp [DView.NewText, h2]) (ih ho (fun x hx => hn x (by simp [hx])))
  | changed os os' ns ns' v vs h1 h2 h3 h4 h5 h6 h7 ih =>
    obtain ⟨rfl, _⟩ := h3
    obtain ⟨rfl, _⟩ := h4
    exact .cons v vs _ _ os' ns' (by simp [DView.OldText, h5]) (by simp [DView.NewText, h5])
      (ih (fun x hx => ho x (by simp [hx])) (fun x hx => hn x (by simp [hx])))
  | unchanged os os' ns ns' v vs h1 h2 h3 h4 h5 ih =>
    obtain ⟨oc, nc, rfl, rfl, _, e, _⟩ := h1
    refine .cons v vs _ _ os' ns' ?_ ?_ (ih (fun x hx => ho x (by simp [hx])) (fun x hx => hn x (by simp [hx])))
    · simp only [DView.OldText, h2]
      refine ⟨oc, rfl, ?_⟩
      rw [e]; simp; omega
    · simp only [DView.NewText, h2]
      refine ⟨nc.length, by rw [e]; simp, ?_⟩
      rw [e, List.drop_left, List.map_drop]
  | lost os ns h0 h1 h2 h3 h4 h5 =>
    exfalso
    -- both sections end or go on with an unmarked line, against the rule for unchanged lines
    have key : ∀ (ls : List Str) (c d : Char), (∀ x ∈ ls, SectionLine x ∧ x.head? ≠ some d) → ¬ Begins c ls → ¬ Begins '!' ls → (c = '-' ∧ d = '+' ∨ c = '+' ∧ d = '-') →
        PlainNext ls := by
      intro ls c d hl hc hm hcd
      cases ls with
      | nil => exact .inl rfl
      | cons l ls =>
        obtain ⟨⟨x, t, rfl, hx, ht⟩, hd⟩ := hl l (by simp)
        simp only [List.cons_append, List.head?_cons, ne_eq, Option.some.injEq] at hd
        rcases hx with rfl | rfl | rfl | rfl
        · exact .inr ⟨t, ls, ht, rfl⟩
        · rcases hcd with ⟨rfl, rfl⟩ | ⟨rfl, rfl⟩
          · exact absurd ⟨t, ls, ht, rfl⟩ hc
          · exact absurd rfl hd
        · rcases hcd with ⟨rfl, rfl⟩ | ⟨rfl, rfl⟩
          · exact absurd rfl hd
          · exact absurd ⟨t, ls, ht, rfl⟩ hc
        · exact absurd ⟨t, ls, ht, rfl⟩ hm
    have p1 := key os '-' '+' ho (norun_begins h1) (norun_begins h4) (.inl ⟨rfl, rfl⟩)
    have p2 := key ns '+' '-' hn (norun_begins h2) (norun_begins h5) (.inr ⟨rfl, rfl⟩)
    obtain ⟨oc, nc, _, _, _, _, _, _, h6⟩ := h3
    rw [stops_plain, stops_plain] at h6
    rcases h6 with h6 | h6 | h6
    · rcases h0 with h0 | h0
      · exact h0 h6.1
      · exact h0 h6.2
    · exact h6 p1
    · exact h6 p2

/-- **C71 (defect).** In a hunk with an added line in its old section nothing from there on is shown, whatever follows, unless the new
section goes on with changed or added lines. -/
theorem C71_context_lost (t : Str) (os ns : List Str) (ht : '\n' ∉ t) (hn : ¬ Begins '+' ns) (hm : ¬ Begins '!' ns) :
    Paired (markedLine '+' t :: os) ns [] := by
  have hb : ∀ c, c ≠ '+' → MarkedRun c (markedLine '+' t :: os) [] (markedLine '+' t :: os) := by
    intro c hc
    refine ⟨rfl, by simp, ?_⟩
    intro u more _ e
    simp only [List.cons.injEq] at e
    exact hc (markedLine_inj e.1).1.symm
  have hr : ∀ c, ¬ Begins c ns → MarkedRun c ns [] ns := fun c h => ⟨rfl, by simp, fun u more hu e => h ⟨u, more, hu, e⟩⟩
  refine .lost _ _ (.inl (by simp)) (hb _ (by decide)) (hr _ hn) ?_ (hb _ (by decide)) (hr _ hm)
  exact ⟨[], [], rfl, rfl, by simp, rfl, by simp, by simp, .inr (.inl ⟨by simp, (hb ' ' (by decide)).2.2⟩)⟩

/-! ### The hypotheses are met -/

/-- A hunk after rubbish whose sections disagree in an unchanged line, and rubbish after it. -/
def oddContext : List Str :=
  [str "rubbish\n", str "*** a\tyesterday\n", str "--- b\n", str "*************** f\n", str "*** 3,4 ****\n", str "  x\n", str "! y\n", str "--- 7,9 ----\n",
    str "  X\n", str "! z\n", str "+ w\n", str "oops\n"]

/-- Its differences. -/
def oddContextDiffs : List DView :=
  [{ type := .Unchanged, srcLine := 3, dstLine := 7, tracking := 3, src := [str "X"], dst := [str "X"], applied := false, unsaved := false, conflicts := false },
   { type := .Change, srcLine := 4, dstLine := 8, tracking := 4, src := [str "y"], dst := [str "z"], applied := false, unsaved := false, conflicts := false },
   { type := .Insert, srcLine := 5, dstLine := 9, tracking := 5, src := [], dst := [str "w"], applied := false, unsaved := false, conflicts := false }]

/-- What is shown of it. -/
def oddContextShown : List MView :=
  [{ source := str "a", destination := str "b", sourceTimestamp := str "yesterday", destinationTimestamp := [], sourceRevision := [],
     destinationRevision := [], appliedCount := 0
     hunks := [{ srcLine := 3, dstLine := 7, function := str "f", type := .Normal, diffs := oddContextDiffs }]
     differences := oddContextDiffs.drop 1 }]

theorem not_begins_head {c : Char} {l : Str} {ls : List Str} (h : l.head? ≠ some c) : ∀ t more, '\n' ∉ t → l :: ls ≠ markedLine c t :: more := by
  intro t more _ e
  simp only [List.cons.injEq] at e
  rw [e.1] at h
  exact h rfl

theorem oddContext_paired : Paired [str "  x\n", str "! y\n"] [str "  X\n", str "! z\n", str "+ w\n"] oddContextDiffs := by
  refine .unchanged _ [str "! y\n"] _ [str "! z\n", str "+ w\n"] _ _
    ⟨[str "x"], [str "X"], by decide, by decide, by decide, by decide, by decide, by decide, .inr (.inl ⟨by simp, not_begins_head (by decide)⟩)⟩ rfl
    (by simp) rfl ?_
  refine .changed _ [] _ [str "+ w\n"] _ _ ⟨rfl, by simp, not_begins_head (by decide)⟩ ⟨rfl, by simp, not_begins_head (by decide)⟩
    ⟨by decide, by decide, by simp⟩ ⟨by decide, by decide, not_begins_head (by decide)⟩ rfl (.inl (by simp)) ?_
  exact .added _ _ [] _ _ ⟨rfl, by simp, by simp⟩ ⟨by decide, by decide, by simp⟩ rfl (by simp) rfl .done

theorem oddContext_shows : ShowsFiles (contextForm (unescapePath false) .Diff) ContextShown oddContext oddContextShown := by
  have hd : ∀ s : Str, s ≠ [] → (∀ d ∈ s, '0' ≤ d ∧ d ≤ '9') → Digits s := fun s h1 h2 => ⟨h1, h2⟩
  refine ShowsFiles.file [str "rubbish\n"] [str "*** a\tyesterday\n", str "--- b\n"] (oddContext.drop 3) [str "oops\n"]
    { source := str "a", destination := str "b", sourceTimestamp := str "yesterday" } (oddContextShown.flatMap MView.hunks) [] ?_ ?_ ?_ ?_
  · intro x hx
    simp only [List.mem_singleton] at hx
    subst hx
    rintro ⟨n, t, e, _⟩
    simp [str] at e
  · refine ⟨_, _, str "a", str "b", rfl, ?_, ?_, by decide, by decide⟩
    · exact ⟨str "\tyesterday", by decide, by decide, by decide, .inr ⟨by decide, by decide, by decide⟩⟩
    · exact ⟨[], by decide, by decide, by decide, .inl ⟨rfl, rfl⟩⟩
  · refine ContextShown.hunk (str "*************** f\n") (str "*** 3,4 ****\n") (str "--- 7,9 ----\n") [str "  x\n", str "! y\n"]
      [str "  X\n", str "! z\n", str "+ w\n"] [str "oops\n"] _ [] _ ⟨str " f", by decide, by decide, by decide⟩
      ⟨str "3", str "4", [], by decide, hd _ (by decide) (by decide), hd _ (by decide) (by decide), by decide, by decide⟩ ?_ ?_
      ⟨str "7", str "9", by decide, hd _ (by decide) (by decide), hd _ (by decide) (by decide), by decide⟩ ?_ ?_ oddContext_paired ?_ (.stop _ ?_)
    · intro x hx
      simp only [List.mem_cons, List.not_mem_nil, or_false] at hx
      rcases hx with rfl | rfl
      · exact ⟨' ', ['x'], by decide, .inl rfl, by decide⟩
      · exact ⟨'!', ['y'], by decide, .inr (.inr (.inr rfl)), by decide⟩
    · rintro ⟨x, t, e, hx, _⟩
      rcases hx with rfl | rfl | rfl | rfl <;> simp [str] at e
    · intro x hx
      simp only [List.mem_cons, List.not_mem_nil, or_false] at hx
      rcases hx with rfl | rfl | rfl
      · exact ⟨' ', ['X'], by decide, .inl rfl, by decide⟩
      · exact ⟨'!', ['z'], by decide, .inr (.inr (.inr rfl)), by decide⟩
      · exact ⟨'+', ['w'], by decide, .inr (.inr (.inl rfl)), by decide⟩
    · intro x hx
      simp only [List.head?_cons, Option.some.injEq] at hx
      subst hx
      rintro ⟨x, t, e, hx, _⟩
      rcases hx with rfl | rfl | rfl | rfl <;> simp [str] at e
    · refine ⟨rfl, ⟨rfl, rfl, rfl, rfl, rfl, rfl, trivial⟩, ?_⟩
      intro v hv
      simp only [oddContextDiffs, List.mem_cons, List.not_mem_nil, or_false] at hv
      rcases hv with rfl | rfl | rfl <;> exact ⟨⟨rfl, rfl, rfl, rfl⟩, by simp [DView.SidesAgreeContext]⟩
    · intro l hl
      simp only [List.head?_cons, Option.some.injEq] at hl
      subst hl
      rintro ⟨t, e, _⟩
      simp [str, List.replicate] at e
  · refine .finished _ ?_
    intro x hx
    simp only [List.mem_singleton] at hx
    subst hx
    rintro ⟨n, t, e, _⟩
    simp [str] at e

/-- The parser returns exactly this. -/
example (cmp : Str → Str → Int) (heap : Heap) :
    ∃ r, parseLines false cmp .Diff heap oddContext = Res.ok r ∧ r.shown.Perm oddContextShown ∧ r.malformed = true := by
  have hd : ∀ s : Str, s ≠ [] → (∀ d ∈ s, '0' ≤ d ∧ d ≤ '9') → Digits s := fun s h1 h2 => ⟨h1, h2⟩
  have hf : determineFormat .Diff oddContext = .Context := by decide
  have hs : ∀ l ∈ oddContext, l.length < 65535 := by decide
  have hrd : Reading (contextOpening .Diff) ContextHunks oddContext [[str "oops\n"]] .finished := by
    refine Reading.two [str "rubbish\n"] (str "*** a\tyesterday\n") (str "--- b\n") _ _ (ContextHeaderLine "--- ") [] .finished rfl ?_ ?_ ?_ ?_ ?_
    · intro x hx
      simp only [List.mem_singleton] at hx
      subst hx
      rintro ⟨n, t, e, _⟩
      simp [str] at e
    · exact ⟨str "a", str "\tyesterday", by decide, by decide, by decide, .inr ⟨str "yesterday", by decide, by decide, by decide⟩⟩
    · exact ⟨str "b", [], by decide, by decide, by decide, .inl rfl⟩
    · refine ContextHunks.hunk (str "*************** f\n") (str "*** 3,4 ****\n") (str "--- 7,9 ----\n") [str "  x\n", str "! y\n"]
        [str "  X\n", str "! z\n", str "+ w\n"] [str "oops\n"] _ ⟨str " f", by decide, by decide⟩
        ⟨str "3", str "4", [], by decide, hd _ (by decide) (by decide), hd _ (by decide) (by decide), by decide⟩ ?_ ?_
        ⟨str "7", str "9", by decide, hd _ (by decide) (by decide), hd _ (by decide) (by decide)⟩ ?_ ?_ (.stop _ ?_)
      · intro x hx
        simp only [List.mem_cons, List.not_mem_nil, or_false] at hx
        rcases hx with rfl | rfl
        · exact ⟨' ', ['x'], by decide, .inl rfl, by decide⟩
        · exact ⟨'!', ['y'], by decide, .inr (.inr (.inr rfl)), by decide⟩
      · rintro ⟨x, t, e, hx, _⟩
        rcases hx with rfl | rfl | rfl | rfl <;> simp [str] at e
      · intro x hx
        simp only [List.mem_cons, List.not_mem_nil, or_false] at hx
        rcases hx with rfl | rfl | rfl
        · exact ⟨' ', ['X'], by decide, .inl rfl, by decide⟩
        · exact ⟨'!', ['z'], by decide, .inr (.inr (.inr rfl)), by decide⟩
        · exact ⟨'+', ['w'], by decide, .inr (.inr (.inl rfl)), by decide⟩
      · intro x hx
        simp only [List.head?_cons, Option.some.injEq] at hx
        subst hx
        rintro ⟨x, t, e, hx, _⟩
        rcases hx with rfl | rfl | rfl | rfl <;> simp [str] at e
      · intro l hl
        simp only [List.head?_cons, Option.some.injEq] at hl
        subst hl
        rintro ⟨t, e, _⟩
        simp [str, List.replicate] at e
    · refine .finished _ ?_
      intro x hx
      simp only [List.mem_singleton] at hx
      subst hx
      rintro ⟨n, t, e, _⟩
      simp [str] at e
  cases h : parseLines false cmp .Diff heap oddContext with
  | ub => exact absurd ((C29_context_ub_iff false cmp .Diff heap _ _ _ hf hs hrd).1 h) (by simp)
  | hang =>
    exfalso
    unfold parseLines at h
    simp only [hf] at h
    exact (Res.Ends.bind (contextFiles_ends false .Diff _) (fun _ _ => Res.Ends.ok _)) h
  | ok r =>
    refine ⟨r, rfl, (C71_context_exact false cmp .Diff heap _ r _ hf h oddContext_shows).1, ?_⟩
    refine (C30_context_malformed_iff false cmp .Diff heap _ _ _ r hf hs hrd h).2 ⟨_, List.mem_singleton.2 rfl, ?_⟩
    refine ⟨_, _, rfl, ?_, by decide, by decide, by decide⟩
    rintro ⟨n, t, e, _⟩
    simp [str] at e

/-- A pair of sections for `C71_context_complete`. -/
example : SectionsFilled oddContextDiffs [str "  x\n", str "! y\n"] [str "  X\n", str "! z\n", str "+ w\n"] := by
  refine C71_context_complete _ _ _ oddContext_paired ?_ ?_
  · intro x hx
    simp only [List.mem_cons, List.not_mem_nil, or_false] at hx
    rcases hx with rfl | rfl
    · exact ⟨⟨' ', ['x'], by decide, .inl rfl, by decide⟩, by decide⟩
    · exact ⟨⟨'!', ['y'], by decide, .inr (.inr (.inr rfl)), by decide⟩, by decide⟩
  · intro x hx
    simp only [List.mem_cons, List.not_mem_nil, or_false] at hx
    rcases hx with rfl | rfl | rfl
    · exact ⟨⟨' ', ['X'], by decide, .inl rfl, by decide⟩, by decide⟩
    · exact ⟨⟨'!', ['z'], by decide, .inr (.inr (.inr rfl)), by decide⟩, by decide⟩
    · exact ⟨⟨'+', ['w'], by decide, .inr (.inr (.inl rfl)), by decide⟩, by decide⟩

end KompareDiff2
