import Verif.Proofs.ShownOnce
import Verif.Props.ParserSound
/-
C70: what is shown of an arbitrary unified diff.
-/
namespace KompareDiff2
open Spec

/-- The files returned by the parser, as a client sees them. -/
def ParseResult.shown (r : ParseResult) : List MView := (r.models.getD []).map (fun m => m.view r.heap)

theorem start_found (P : HView → Prop) (heap : Heap) (lines : List Str) :
    FoundAll P heap { lines := lines, rest := lines, heap := heap, cur := {}, models := [], single := false, malformed := false } :=
  ⟨Heap.Ext.refl _, by simp, by simp⟩

theorem finishParse_shown (cmp : Str → Str → Int) (st : PState) :
    ((finishParse cmp st).shown).Perm (st.models.map (fun m => m.view st.heap)) ∧ ((finishParse cmp st).models = none ↔ st.models = []) := by
  unfold finishParse ParseResult.shown
  cases h : st.models with
  | nil => simp
  | cons m ms =>
    simp only [List.length_cons, gt_iff_lt, Nat.zero_lt_succ, if_true, Option.getD_some]
    exact ⟨(sortModels_perm cmp _).map _, by simp⟩

/-- **C70.** Unified format: what the parser returns for arbitrary lines is what the lines show according to Spec/Shown.lean – the files,
their names and time stamps, the hunks with their positions and function names, and the differences with their lines.  No list of files
is returned exactly if the lines show none. -/
theorem C70_unified_shown (win : Bool) (cmp : Str → Str → Int) (g : Generator) (heap : Heap) (lines : List Str) (r : ParseResult)
    (hf : determineFormat g lines = .Unified) (h : parseLines win cmp g heap lines = Res.ok r) :
    ∃ ms, ShowsFiles (unifiedForm (unescapePath win) g) UnifiedShown lines ms ∧ r.shown.Perm ms ∧ (r.models = none ↔ ms = []) := by
  unfold parseLines at h
  simp only [hf] at h
  obtain ⟨st, hst, h⟩ := Res.bind_eq_ok.1 h
  simp only [Res.ok.injEq] at h
  rw [← h]
  obtain ⟨_, ms, h1, h2⟩ := unifiedFiles_shown (start_found _ heap lines) hst
  simp only [List.map_nil, List.nil_append] at h2
  obtain ⟨k1, k2⟩ := finishParse_shown cmp st
  refine ⟨ms, h1, by rw [← h2]; exact k1, ?_⟩
  rw [k2, ← h2]; simp

/-- **C70.** There is only one way to read the lines. -/
theorem C70_unified_once (unesc : Str → Str) (g : Generator) (lines : List Str) (ms ms' : List MView)
    (h : ShowsFiles (unifiedForm unesc g) UnifiedShown lines ms) (h' : ShowsFiles (unifiedForm unesc g) UnifiedShown lines ms') : ms = ms' :=
  showsFiles_det (unifiedForm_proper unesc g) (H := UnifiedShown) (fun _ _ _ _ _ h h' => unifiedShown_det h h') h h'

/-- **C70.** So whatever the lines show is what is returned. -/
theorem C70_unified_exact (win : Bool) (cmp : Str → Str → Int) (g : Generator) (heap : Heap) (lines : List Str) (r : ParseResult) (ms : List MView)
    (hf : determineFormat g lines = .Unified) (h : parseLines win cmp g heap lines = Res.ok r)
    (hs : ShowsFiles (unifiedForm (unescapePath win) g) UnifiedShown lines ms) : r.shown.Perm ms ∧ (r.models = none ↔ ms = []) := by
  obtain ⟨ms', h1, h2⟩ := C70_unified_shown win cmp g heap lines r hf h
  rw [C70_unified_once _ _ _ _ _ hs h1]
  exact h2

/-- **C70.** Nothing is invented: in some order, the returned files stand in the lines one after the other without overlap, each with a
header that holds its names, and the hunks of each as a header line with their positions followed by the lines of their differences. -/
theorem C70_unified_stands (win : Bool) (cmp : Str → Str → Int) (g : Generator) (heap : Heap) (lines : List Str) (r : ParseResult)
    (hf : determineFormat g lines = .Unified) (h : parseLines win cmp g heap lines = Res.ok r) :
    ∃ ms, r.shown.Perm ms ∧ FilesStand (unifiedForm (unescapePath win) g) UnifiedText ms lines := by
  obtain ⟨ms, h1, h2, _⟩ := C70_unified_shown win cmp g heap lines r hf h
  exact ⟨ms, h2, filesStand_shows (fun _ _ _ => unifiedShown_stands) h1⟩

/-- **C70.** In particular every line shown is a line of the diff. -/
theorem C70_unified_lines (win : Bool) (cmp : Str → Str → Int) (g : Generator) (heap : Heap) (lines : List Str) (r : ParseResult)
    (hf : determineFormat g lines = .Unified) (h : parseLines win cmp g heap lines = Res.ok r) :
    ∀ m ∈ r.shown, ∀ k ∈ m.hunks, ∀ d ∈ k.diffs,
      (∀ t ∈ d.src, ' ' :: t ∈ lines ∨ '-' :: t ∈ lines) ∧ ∀ t ∈ d.dst, ' ' :: t ∈ lines ∨ '+' :: t ∈ lines := by
  obtain ⟨ms0, hp, hst0⟩ := C70_unified_stands win cmp g heap lines r hf h
  have hok : ∀ (hs : List HView) (ls rest : List Str), HunksStand UnifiedText hs ls rest → ∀ k ∈ hs, ∀ d ∈ k.diffs, ∀ x ∈ d.unifiedLines, x ∈ ls := by
    intro hs ls rest hst
    induction hst with
    | nil => simp
    | cons gap t ls rest h hs h1 h2 ih =>
      intro k hk d hd x hx
      rcases List.mem_cons.1 hk with rfl | hk
      · obtain ⟨l, n, m, rfl, _⟩ := h1
        have : x ∈ k.diffs.flatMap DView.unifiedLines := List.mem_flatMap.2 ⟨d, hd, hx⟩
        simp [this]
      · simp [ih k hk d hd x hx]
  have hall : ∀ (ms : List MView) (ls : List Str), FilesStand (unifiedForm (unescapePath win) g) UnifiedText ms ls →
      ∀ m ∈ ms, ∀ k ∈ m.hunks, ∀ d ∈ k.diffs, ∀ x ∈ d.unifiedLines, x ∈ ls := by
    intro ms ls hst
    induction hst with
    | nil => simp
    | cons gap hdr ls rest f hs ms h1 h2 h3 ih =>
      intro m hm k hk d hd x hx
      rcases List.mem_cons.1 hm with rfl | hm
      · have := hok hs ls rest h2 k hk d hd x hx
        simp [this]
      · have := (hunksStand_suffix h2).subset (ih m hm k hk d hd x hx)
        simp [this]
  intro m hm k hk d hd
  have hx := hall ms0 lines hst0 m (hp.subset hm) k hk d hd
  have hsame : d.type = .Unchanged → d.src = d.dst := by
    intro ht
    obtain ⟨ms, hmod⟩ : ∃ ms, r.models = some ms := by
      cases e : r.models with
      | none => simp [ParseResult.shown, e] at hm
      | some ms => exact ⟨ms, rfl⟩
    simp only [ParseResult.shown, hmod, Option.getD_some, List.mem_map] at hm
    obtain ⟨x, hx1, rfl⟩ := hm
    have hp := (parseLines_sound h ms hmod).each x hx1
    obtain ⟨kk, hk1, rfl⟩ := List.mem_map.1 hk
    have := hp.1.hunks kk hk1
    rw [hf] at this
    have := (this.2.2 d hd).2
    unfold DView.SidesAgree at this
    rw [ht] at this
    exact this.1
  unfold DView.unifiedLines at hx
  by_cases ht : d.type = .Unchanged
  · rw [if_pos ht] at hx
    have h1 : ∀ t ∈ d.src, ' ' :: t ∈ lines := fun t h => hx _ (List.mem_map.2 ⟨t, h, rfl⟩)
    exact ⟨fun t h => .inl (h1 t h), fun t h => .inl (h1 t (by rw [hsame ht]; exact h))⟩
  · rw [if_neg ht] at hx
    exact ⟨fun t h => .inr (hx _ (by simp [h])), fun t h => .inr (hx _ (by simp [h]))⟩

/-- **C70.** The whole parser: the same of the lines without the remarks about missing line ends (C23), with the generator determined from
the lines as given. -/
theorem C70_unified_parse (win : Bool) (cmp : Str → Str → Int) (heap : Heap) (lines : List Str) (r : ParseResult)
    (hf : ∀ cleaned, cleanUpCrap lines = Res.ok cleaned → determineFormat (determineGenerator lines) cleaned = .Unified)
    (h : parse win cmp heap lines = Res.ok r) :
    ∃ cleaned ms, cleanUpCrap lines = Res.ok cleaned ∧
      ShowsFiles (unifiedForm (unescapePath win) (determineGenerator lines)) UnifiedShown cleaned ms ∧ r.shown.Perm ms ∧
      (r.models = none ↔ ms = []) := by
  unfold parse at h
  obtain ⟨cleaned, hc, h⟩ := Res.bind_eq_ok.1 h
  obtain ⟨ms, h1, h2⟩ := C70_unified_shown win cmp _ heap cleaned r (hf cleaned hc) h
  exact ⟨cleaned, ms, hc, h1, h2⟩

/-! ### The hypotheses are met: a text with rubbish before, between and after, and a hunk that is shorter than announced -/

/-- Rubbish, a file with a hunk that announces two lines on each side and has one, a line that does not belong, and the header of another
file which is left without a second line. -/
def oddText : List Str :=
  [str "From: me\n", str "--- a\tyesterday\n", str "+++ b\n", str "@@ -7,2 +9,2 @@ main\n", str "-x\n", str "+y\n", str "oops\n",
    str "--- c\n", str "rubbish\n", str "+++ d\n"]

/-- What is shown of it. -/
def oddShown : List MView :=
  [{ source := str "a", destination := str "b", sourceTimestamp := str "yesterday", destinationTimestamp := [], sourceRevision := [],
     destinationRevision := [], appliedCount := 0
     hunks := [{ srcLine := 7, dstLine := 9, function := str "main", type := .Normal
                 diffs := [{ type := .Change, srcLine := 7, dstLine := 9, tracking := 7, src := [str "x\n"], dst := [str "y\n"],
                             applied := false, unsaved := false, conflicts := false }] }]
     differences := [{ type := .Change, srcLine := 7, dstLine := 9, tracking := 7, src := [str "x\n"], dst := [str "y\n"],
                       applied := false, unsaved := false, conflicts := false }] }]

theorem not_header_of_prefix {pre : String} {l : Str} (h : ¬ str pre <+: l) : ¬ UnifiedHeaderLine pre l := by
  rintro ⟨name, tail, rfl, _⟩
  exact h ⟨name ++ tail ++ ['\n'], by simp⟩

theorem oddText_shows : ShowsFiles (unifiedForm (unescapePath false) .Diff) UnifiedShown oddText oddShown := by
  have hd : ∀ s : Str, s ≠ [] → (∀ d ∈ s, '0' ≤ d ∧ d ≤ '9') → Digits s := fun s h1 h2 => ⟨h1, h2⟩
  refine ShowsFiles.file [str "From: me\n"] [str "--- a\tyesterday\n", str "+++ b\n"]
    [str "@@ -7,2 +9,2 @@ main\n", str "-x\n", str "+y\n", str "oops\n", str "--- c\n", str "rubbish\n", str "+++ d\n"]
    [str "oops\n", str "--- c\n", str "rubbish\n", str "+++ d\n"]
    { source := str "a", destination := str "b", sourceTimestamp := str "yesterday" } (oddShown.flatMap MView.hunks) [] ?_ ?_ ?_ ?_
  · intro x hx
    simp only [List.mem_singleton] at hx
    subst hx
    exact not_header_of_prefix (by decide)
  · refine ⟨_, _, str "a", str "b", rfl, ?_, ?_, by decide, by decide⟩
    · exact ⟨str "\tyesterday", by decide, by decide, by decide, .inr ⟨[], by decide, by decide, by decide, .inl rfl⟩⟩
    · exact ⟨[], by decide, by decide, by decide, .inl ⟨rfl, rfl⟩⟩
  · refine UnifiedShown.hunk _ [str "-x\n", str "+y\n"] [str "oops\n", str "--- c\n", str "rubbish\n", str "+++ d\n"] 2 2 _ [] _ ?_ (by decide)
      (by decide) ?_ (by decide) trivial ?_ (.stop _ ?_)
    · refine ⟨str "7", str "9", str ",2", str ",2", str " main", by decide, hd _ (by decide) (by decide), hd _ (by decide) (by decide), by decide,
        .inr ⟨str "2", by decide, hd _ (by decide) (by decide), by decide⟩, .inr ⟨str "2", by decide, hd _ (by decide) (by decide), by decide⟩,
        by decide, by decide, by decide⟩
    · exact .old _ _ (str "x\n") _ _ (by decide) (.new _ _ (str "y\n") _ _ (by decide) (.other _ _ _ (by decide)))
    · refine ⟨rfl, ⟨rfl, rfl, trivial⟩, ?_⟩
      intro v hv
      simp only [List.mem_singleton] at hv
      subst hv
      exact ⟨⟨rfl, rfl, rfl, rfl⟩, by simp [DView.SidesAgree]⟩
    · rintro l hl ⟨n, m, a, b, na, nb, f, rfl, _⟩
      simp [str] at hl
  · refine ShowsFiles.abandoned [str "oops\n"] (str "--- c\n") (str "rubbish\n") [str "+++ d\n"] ?_ ?_ ?_ ?_
    · intro x hx
      simp only [List.mem_singleton] at hx
      subst hx
      exact not_header_of_prefix (by decide)
    · exact ⟨str "c", [], by decide, by decide, by decide, .inl rfl⟩
    · rintro f ⟨l1, l2, s, t, h, _⟩
      simp at h
    · rintro f ⟨l1, l2, s, t, h, _, ⟨tail, h2, _⟩, _⟩
      simp only [List.cons.injEq, and_true] at h
      rw [← h.2] at h2
      simp [str] at h2

/-- The parser returns exactly this. -/
example (cmp : Str → Str → Int) (heap : Heap) : ∃ r, parseLines false cmp .Diff heap oddText = Res.ok r ∧ r.shown.Perm oddShown ∧ r.malformed = true := by
  have hd : ∀ s : Str, s ≠ [] → (∀ d ∈ s, '0' ≤ d ∧ d ≤ '9') → Digits s := fun s h1 h2 => ⟨h1, h2⟩
  have hf : determineFormat .Diff oddText = .Unified := by decide
  have hs : ∀ l ∈ oddText, l.length < 65535 := by decide
  have hrd : Reading (unifiedOpening .Diff) UnifiedHunks oddText [[str "oops\n", str "--- c\n", str "rubbish\n", str "+++ d\n"]] .abandoned := by
    refine Reading.two [str "From: me\n"] (str "--- a\tyesterday\n") (str "+++ b\n") _ _ (UnifiedHeaderLine "+++ ") [] .abandoned rfl ?_ ?_ ?_ ?_ ?_
    · intro x hx
      simp only [List.mem_singleton] at hx
      subst hx
      exact not_header_of_prefix (by decide)
    · exact ⟨str "a", str "\tyesterday", by decide, by decide, by decide, .inr ⟨str "yesterday", [], by decide, by decide, by decide, by decide⟩⟩
    · exact ⟨str "b", [], by decide, by decide, by decide, .inl rfl⟩
    · refine .hunk _ _ [str "oops\n", str "--- c\n", str "rubbish\n", str "+++ d\n"] 2 2 _ ?_ (by decide) (by decide)
        (.old _ _ (str "x\n") _ _ (by decide) (.new _ _ (str "y\n") _ _ (by decide) (.other _ _ _ (by decide)))) (by decide) (.stop _ ?_)
      · refine ⟨str "7", str "9", str ",2", str ",2", str " main", by decide, hd _ (by decide) (by decide), hd _ (by decide) (by decide), by decide,
          .inr ⟨str "2", by decide, hd _ (by decide) (by decide), by decide⟩, .inr ⟨str "2", by decide, hd _ (by decide) (by decide), by decide⟩⟩
      · rintro l hl ⟨n, m, a, b, na, nb, f, rfl, _⟩
        simp [str] at hl
    · refine Reading.abandoned [str "oops\n"] (str "--- c\n") (str "rubbish\n") _ (UnifiedHeaderLine "+++ ") rfl ?_ ?_ ?_
      · intro x hx
        simp only [List.mem_singleton] at hx
        subst hx
        exact not_header_of_prefix (by decide)
      · exact ⟨str "c", [], by decide, by decide, by decide, .inl rfl⟩
      · exact not_header_of_prefix (by decide)
  cases h : parseLines false cmp .Diff heap oddText with
  | ub => exact absurd ((C29_unified_ub_iff false cmp .Diff heap _ _ _ hf hs hrd).1 h) (by simp)
  | hang =>
    exfalso
    unfold parseLines at h
    simp only [hf] at h
    exact (Res.Ends.bind (unifiedFiles_ends false .Diff _) (fun _ _ => Res.Ends.ok _)) h
  | ok r =>
    refine ⟨r, rfl, (C70_unified_exact false cmp .Diff heap _ r _ hf h oddText_shows).1, ?_⟩
    refine (C30_unified_malformed_iff false cmp .Diff heap _ _ _ r hf hs hrd h).2 ⟨_, List.mem_singleton.2 rfl, ?_⟩
    exact ⟨_, _, rfl, not_header_of_prefix (by decide), by decide, by decide, by decide⟩

end KompareDiff2
