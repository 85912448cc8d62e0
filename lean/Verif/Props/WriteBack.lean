import Verif.Proofs.WriteBack
import Verif.Props.Reprint
import Verif.Props.Sorting
import Verif.Props.RecreateDefects
/-
C74: what was read from an arbitrary text, written as a diff and read again.
-/
namespace KompareDiff2
open Spec

/-- **C74.** Whatever the text is: a file shown of it can be written as a diff and read again, if it has names and time stamps and all its
lines are complete.  (No file of a normal, context or Perforce diff is complete in this sense.) -/
theorem C74_writable {unesc : Str → Str} {text : Str} {ms : List MView} (h : TextShows unesc text ms) {v : MView} (hv : v ∈ ms)
    (hc : v.Complete) : v.Writable ∧ v.Fresh ∧ v.sourceRevision = [] ∧ v.destinationRevision = [] ∧ v.hasChange = true :=
  textShows_writable h hv hc

/-- **C74.** An arbitrary text is read, the models are written and the result is read again: it is read without an error and shows the same
files, only that in a hunk without lines in one of the files the line numbers of that file have moved by one. -/
theorem C74_reread {win : Bool} {cmp cmp' : Str → Str → Int} {heap heap' : Heap} {text : Str} {r : ParseResult} {xs : List DModel} {ms : List MView}
    (hm : TextShows (unescapePath win) text ms) (hc : ∀ v ∈ ms, v.Complete) (h : parse win cmp heap (split text) = Res.ok r) (hx : r.models = some xs) :
    ∃ r', parse win cmp' heap' (split (xs.flatMap (fun m => m.recreateDiff win r.heap))) = Res.ok r' ∧ r'.malformed = false ∧
      r'.models ≠ none ∧ r'.shown.Perm (ms.map MView.reread) := by
  obtain ⟨h1, h2⟩ := C73_exact hm h
  have hne : ms ≠ [] := fun e => by rw [h2.2 e] at hx; cases hx
  have hsh : r.shown = xs.map (fun m => m.view r.heap) := by unfold ParseResult.shown; rw [hx]; rfl
  rw [hsh] at h1
  have hin : ∀ m ∈ xs, m.view r.heap ∈ ms := fun m hm => h1.mem_iff.1 (List.mem_map.2 ⟨m, hm, rfl⟩)
  have hw : ∀ m ∈ xs, (m.view r.heap).Writable := fun m hm' => (textShows_writable hm (hin m hm') (hc _ (hin m hm'))).1
  have hch : ∀ m ∈ xs, (m.view r.heap).hasChange = true := fun m hm' => (textShows_writable hm (hin m hm') (hc _ (hin m hm'))).2.2.2.2
  have hxne : xs ≠ [] := by
    intro e
    rw [e] at h1
    exact hne (List.Perm.eq_nil h1.symm)
  obtain ⟨m0, hm0⟩ := List.exists_mem_of_ne_nil _ hxne
  obtain ⟨ms', h', p1, p2⟩ := C20_reread win cmp' r.heap heap' xs hw ⟨m0, hm0, hch m0 hm0⟩
  refine ⟨_, p1, rfl, by simp, ?_⟩
  show (ms'.map (fun m => m.view h')).Perm _
  rw [List.filter_eq_self.2 hch] at p2
  refine p2.trans ?_
  have := h1.map MView.reread
  rw [List.map_map] at this
  exact this

/-- Nothing moves if there are lines in both files. -/
theorem reread_same {unesc : Str → Str} {text : Str} {ms : List MView} (hm : TextShows unesc text ms) (hc : ∀ v ∈ ms, v.Complete)
    (hb : ∀ v ∈ ms, v.BothSides) : ms.map MView.reread = ms := by
  conv => rhs; rw [← List.map_id ms]
  refine List.map_congr_left (fun v hv => ?_)
  obtain ⟨_, w2, w3, w4, _⟩ := textShows_writable hm hv (hc v hv)
  exact reread_fresh v w2 ⟨w3, w4⟩ (hb v hv)

/-- **C74.** When every hunk has lines in both files, exactly the same files are shown. -/
theorem C74_same {win : Bool} {cmp cmp' : Str → Str → Int} {heap heap' : Heap} {text : Str} {r : ParseResult} {xs : List DModel} {ms : List MView}
    (hm : TextShows (unescapePath win) text ms) (hc : ∀ v ∈ ms, v.Complete) (hb : ∀ v ∈ ms, v.BothSides)
    (h : parse win cmp heap (split text) = Res.ok r) (hx : r.models = some xs) :
    ∃ r', parse win cmp' heap' (split (xs.flatMap (fun m => m.recreateDiff win r.heap))) = Res.ok r' ∧ r'.malformed = false ∧ r'.models ≠ none ∧
      r'.shown.Perm ms := by
  obtain ⟨r', p1, p2, p3, p4⟩ := C74_reread (cmp' := cmp') (heap' := heap') hm hc h hx
  rw [reread_same hm hc hb] at p4
  exact ⟨r', p1, p2, p3, p4⟩

/-- **C74, defect.** When the files shown have no source time stamps, as in every diff of git, nothing at all can be read from the text that is
written: no model is returned, and no error is reported. -/
theorem C74_git_defect {win : Bool} {cmp cmp' : Str → Str → Int} {heap heap' : Heap} {text : Str} {r : ParseResult} {xs : List DModel} {ms : List MView}
    (hm : TextShows (unescapePath win) text ms) (hc : ∀ v ∈ ms, v.Gitlike) (h : parse win cmp heap (split text) = Res.ok r) (hx : r.models = some xs) :
    parse win cmp' heap' (split (xs.flatMap (fun m => m.recreateDiff win r.heap))) = Res.ok { models := none, malformed := false, heap := heap' } := by
  obtain ⟨h1, h2⟩ := C73_exact hm h
  have hsh : r.shown = xs.map (fun m => m.view r.heap) := by unfold ParseResult.shown; rw [hx]; rfl
  rw [hsh] at h1
  refine C20_timestamps_defect win cmp' r.heap heap' xs ?_ ?_
  · intro e
    rw [e] at h1
    have := List.Perm.eq_nil h1.symm
    rw [h2.2 this] at hx
    cases hx
  · intro m hmx
    have hin : m.view r.heap ∈ ms := h1.mem_iff.1 (List.mem_map.2 ⟨m, hmx, rfl⟩)
    exact textShows_unstamped hm hin (hc _ hin)

/-! ### In a session -/

theorem opensText_parse {e : Env} {s s1 : MLState} {text : Str} (hs : Reachable s) (ho : OpensText e text s s1) :
    ∃ r, parse e.win e.cmp s.heap (split text) = Res.ok r := by
  rcases ho with ho | ⟨file, hf, ho⟩ | ⟨q, hq, hq', ho⟩
  · obtain ⟨r, xs, hr, _⟩ := C60_text hs ho e
    exact ⟨r, hr⟩
  · obtain ⟨r, xs, hr, _⟩ := C60_file hs ho e
    rw [hf] at hr
    exact ⟨r, hr⟩
  · rw [← hq']
    unfold MLState.slotDiffProcessFinished at ho
    dsimp only at ho
    rw [if_pos hq] at ho
    obtain ⟨⟨t, ok⟩, h1, _⟩ := Res.bind_eq_ok.1 ho
    obtain ⟨_, _, _, r', hr', _⟩ := parseDiffOutput_spec (hs.wf.keep (keep_emit s _)) h1
    exact ⟨r', hr'⟩

/-- **C74.** An arbitrary text was opened.  At every time of the session, whatever was applied, saved, selected or edited, the recreated diff
shows the same files as the text that was opened, and is well-formed. -/
theorem C74_session {e : Env} {s s1 s2 : MLState} {text : Str} {ms : List MView} (hs : Reachable s) (hm : TextShows (unescapePath e.win) text ms)
    (hc : ∀ v ∈ ms, v.Complete) (hb : ∀ v ∈ ms, v.BothSides) (hne : ms ≠ []) (ho : OpensText e text s s1) (h : EditedFrom s1 s2) :
    ∃ t ms', s2.recreateDiff e = Res.ok t ∧ TextShows (unescapePath e.win) t ms' ∧ ms'.Perm ms ∧
      ∀ cmp heap, ∃ r, parse e.win cmp heap (split t) = Res.ok r ∧ r.malformed = false ∧ r.shown.Perm ms := by
  obtain ⟨r, hr⟩ := opensText_parse hs ho
  obtain ⟨_, h2⟩ := C73_exact hm hr
  cases hx : r.models with
  | none => exact absurd (h2.1 hx) hne
  | some xs =>
    have ht := C60_session hs ho h hr hx e
    obtain ⟨r', p1, _, _, p4⟩ := C74_same (cmp' := e.cmp) (heap' := s.heap) hm hc hb hr hx
    obtain ⟨ms', q1, q2, _⟩ := C73_parse p1
    refine ⟨_, ms', ht, q1, q2.symm.trans p4, ?_⟩
    intro cmp heap
    obtain ⟨r', p1, p2, _, p4⟩ := C74_same (cmp' := cmp) (heap' := heap) hm hc hb hr hx
    exact ⟨r', p1, p2, p4⟩

/-- **C74, defect.** When a text of files without source time stamps was opened, then at no time of the session anything can be read from the
recreated diff. -/
theorem C74_git_session_defect {e : Env} {s s1 s2 : MLState} {text : Str} {ms : List MView} (hs : Reachable s)
    (hm : TextShows (unescapePath e.win) text ms) (hc : ∀ v ∈ ms, v.Gitlike) (hne : ms ≠ []) (ho : OpensText e text s s1) (h : EditedFrom s1 s2) :
    ∃ t, s2.recreateDiff e = Res.ok t ∧ ∀ cmp heap, parse e.win cmp heap (split t) = Res.ok { models := none, malformed := false, heap := heap } := by
  obtain ⟨r, hr⟩ := opensText_parse hs ho
  obtain ⟨_, h2⟩ := C73_exact hm hr
  cases hx : r.models with
  | none => exact absurd (h2.1 hx) hne
  | some xs => exact ⟨_, C60_session hs ho h hr hx e, fun cmp heap => C74_git_defect hm hc hr hx⟩

/-! ### Written twice -/

/-- The texts of models depend only on what a client sees of them. -/
theorem texts_views {win : Bool} {h h' : Heap} {xs ys : List DModel} (hw : ∀ m ∈ xs, (m.view h).Writable)
    (e : xs.map (fun m => m.view h) = ys.map (fun m => m.view h')) :
    xs.flatMap (fun m => m.recreateDiff win h) = ys.flatMap (fun m => m.recreateDiff win h') := by
  induction xs generalizing ys with
  | nil =>
    cases ys with
    | nil => rfl
    | cons y ys => simp at e
  | cons x xs ih =>
    cases ys with
    | nil => simp at e
    | cons y ys =>
      simp only [List.map_cons, List.cons.injEq] at e
      simp only [List.flatMap_cons]
      rw [ih (fun m hm => hw m (List.mem_cons_of_mem _ hm)) e.2]
      have hx := (hw x List.mem_cons_self).hunks
      have hy := hx
      rw [e.1] at hy
      rw [← fileOf_render win h x hx, ← fileOf_render win h' y hy, e.1]

/-- **C74.** Writing is stable: when the text that was written is read and written again, it is the same text, character by character (if no
two files have names that the collation does not tell apart; then their order is not determined). -/
theorem C74_stable {win : Bool} {cmp : Str → Str → Int} (ho : Orders cmp) {heap heap' : Heap} {text : Str} {r r' : ParseResult} {xs : List DModel}
    {ms : List MView} (hm : TextShows (unescapePath win) text ms) (hc : ∀ v ∈ ms, v.Complete) (hb : ∀ v ∈ ms, v.BothSides)
    (hd : ∀ v ∈ ms, ∀ w ∈ ms, SourceBefore cmp v w → SourceBefore cmp w v → v = w)
    (h : parse win cmp heap (split text) = Res.ok r) (hx : r.models = some xs)
    (h' : parse win cmp heap' (split (xs.flatMap (fun m => m.recreateDiff win r.heap))) = Res.ok r') :
    ∃ ys, r'.models = some ys ∧ ys.flatMap (fun m => m.recreateDiff win r'.heap) = xs.flatMap (fun m => m.recreateDiff win r.heap) := by
  obtain ⟨r2, p1, _, p3, p4⟩ := C74_same (cmp' := cmp) (heap' := heap') hm hc hb h hx
  rw [h'] at p1
  simp only [Res.ok.injEq] at p1
  subst p1
  cases hy : r'.models with
  | none => exact absurd hy p3
  | some ys =>
    refine ⟨ys, rfl, ?_⟩
    have hp := (C73_exact hm h).1
    have hsort : ∀ (heap : Heap) (ls : List Str) (q : ParseResult) (zs : List DModel), parse win cmp heap ls = Res.ok q → q.models = some zs →
        (zs.map (fun m => m.view q.heap)).Pairwise (SourceBefore cmp) := by
      intro heap ls q zs hq hz
      refine List.pairwise_map.2 ?_
      have k1 := (C31_parse_sorted win cmp ho heap ls q zs hq hz).2
      have k2 := ((parse_models hq).2 zs hz).2.each
      refine List.Pairwise.imp_of_mem ?_ k1
      intro a b ha hb' hab
      exact ⟨_, _, _, _, ((k2 a ha).1.paths).1, ((k2 b hb').1.paths).1, hab⟩
    have s1 := hsort _ _ _ _ h hx
    have s2 := hsort _ _ _ _ h' hy
    have e1 : r.shown = xs.map (fun m => m.view r.heap) := by unfold ParseResult.shown; rw [hx]; rfl
    have e2 : r'.shown = ys.map (fun m => m.view r'.heap) := by unfold ParseResult.shown; rw [hy]; rfl
    rw [e1] at hp
    rw [e2] at p4
    refine (texts_views ?_ (List.Perm.eq_of_pairwise (le := SourceBefore cmp) ?_ s1 s2 (hp.trans p4.symm))).symm
    · intro m hm'
      have hin := hp.mem_iff.1 (List.mem_map.2 ⟨m, hm', rfl⟩)
      exact (textShows_writable hm hin (hc _ hin)).1
    · intro a b ha hb' h1 h2
      exact hd a (hp.mem_iff.1 ha) b (p4.mem_iff.1 hb') h1 h2

/-! ### The hypotheses are met: a text with rubbish and a hunk that does not have the lines it announces -/

/-- Rubbish, a file with a hunk that announces nine old lines and has two of them, a line that does not belong. -/
def oddStamped : List Str :=
  [str "From: me\n", str "--- a/x\tyesterday\n", str "+++ a/x\ttoday\textra\n", str "@@ -7,9 +9 @@ main\n", str " c\n", str "-o\n", str "+n\n",
    str "oops\n"]

/-- What is shown of it. -/
def oddStampedShown : List MView :=
  [{ source := str "a/x", destination := str "a/x", sourceTimestamp := str "yesterday", destinationTimestamp := str "today", sourceRevision := [],
     destinationRevision := [], appliedCount := 0
     hunks := [{ srcLine := 7, dstLine := 9, function := str "main", type := .Normal
                 diffs := [{ type := .Unchanged, srcLine := 7, dstLine := 9, tracking := 7, src := [str "c\n"], dst := [str "c\n"],
                             applied := false, unsaved := false, conflicts := false },
                           { type := .Change, srcLine := 8, dstLine := 10, tracking := 8, src := [str "o\n"], dst := [str "n\n"],
                             applied := false, unsaved := false, conflicts := false }] }]
     differences := [{ type := .Change, srcLine := 8, dstLine := 10, tracking := 8, src := [str "o\n"], dst := [str "n\n"],
                       applied := false, unsaved := false, conflicts := false }] }]

theorem oddStamped_shows : ShowsFiles (unifiedForm (unescapePath false) .Diff) UnifiedShown oddStamped oddStampedShown := by
  have hd : ∀ s : Str, s ≠ [] → (∀ d ∈ s, '0' ≤ d ∧ d ≤ '9') → Digits s := fun s h1 h2 => ⟨h1, h2⟩
  refine ShowsFiles.file [str "From: me\n"] [str "--- a/x\tyesterday\n", str "+++ a/x\ttoday\textra\n"]
    [str "@@ -7,9 +9 @@ main\n", str " c\n", str "-o\n", str "+n\n", str "oops\n"] [str "oops\n"]
    { source := str "a/x", destination := str "a/x", sourceTimestamp := str "yesterday", destinationTimestamp := str "today" }
    (oddStampedShown.flatMap MView.hunks) [] ?_ ?_ ?_ ?_
  · intro x hx
    simp only [List.mem_singleton] at hx
    subst hx
    exact not_header_of_prefix (by decide)
  · refine ⟨_, _, str "a/x", str "a/x", rfl, ?_, ?_, by decide, by decide⟩
    · exact ⟨str "\tyesterday", by decide, by decide, by decide, .inr ⟨[], by decide, by decide, by decide, .inl rfl⟩⟩
    · exact ⟨str "\ttoday\textra", by decide, by decide, by decide,
        .inr ⟨str "\textra", by decide, by decide, by decide, .inr ⟨str "extra", by decide, by decide⟩⟩⟩
  · refine UnifiedShown.hunk _ [str " c\n", str "-o\n", str "+n\n"] [str "oops\n"] 9 1 _ [] _ ?_ (by decide)
      (by decide) ?_ (by decide) ⟨by simp [DView.Separate], trivial⟩ ?_ (.stop _ ?_)
    · refine ⟨str "7", str "9", str ",9", [], str " main", by decide, hd _ (by decide) (by decide), hd _ (by decide) (by decide), by decide,
        .inr ⟨str "9", by decide, hd _ (by decide) (by decide), by decide⟩, .inl ⟨rfl, rfl⟩, by decide, by decide, by decide⟩
    · exact .both _ _ (str "c\n") _ _ (by decide) (.old _ _ (str "o\n") _ _ (by decide) (.new _ _ (str "n\n") _ _ (by decide) (.other _ _ _ (by decide))))
    · refine ⟨rfl, ⟨rfl, rfl, rfl, rfl, trivial⟩, ?_⟩
      intro v hv
      simp only [List.mem_cons, List.not_mem_nil, or_false] at hv
      rcases hv with rfl | rfl
      · exact ⟨⟨rfl, rfl, rfl, rfl⟩, by simp [DView.SidesAgree]⟩
      · exact ⟨⟨rfl, rfl, rfl, rfl⟩, by simp [DView.SidesAgree]⟩
    · rintro l hl ⟨n, m, a, b, na, nb, f, rfl, _⟩
      simp [str] at hl
  · refine .finished _ ?_
    intro x hx
    simp only [List.mem_singleton] at hx
    subst hx
    exact not_header_of_prefix (by decide)

theorem oddStamped_split : split oddStamped.flatten = oddStamped := by
  refine (lines_iff.1 ⟨?_, rfl⟩).symm
  unfold oddStamped
  refine .cons (str "From: me") _ (by decide) (.cons (str "--- a/x\tyesterday") _ (by decide) (.cons (str "+++ a/x\ttoday\textra") _ (by decide)
    (.cons (str "@@ -7,9 +9 @@ main") _ (by decide) (.cons (str " c") _ (by decide) (.cons (str "-o") _ (by decide) (.cons (str "+n") _ (by decide)
    (.cons (str "oops") _ (by decide) .nil)))))))

theorem oddStamped_text : TextShows (unescapePath false) oddStamped.flatten oddStampedShown := by
  refine textShows_iff.2 ⟨oddStamped, ?_, ?_⟩
  · rw [oddStamped_split]
    exact C23_clean_plain _ (by unfold Remark; decide)
  · rw [oddStamped_split]
    have hg : determineGenerator oddStamped = .Diff := by decide
    have hf : determineFormat .Diff oddStamped = .Unified := by decide
    rw [hg, hf]
    exact oddStamped_shows

theorem oddStamped_complete : ∀ v ∈ oddStampedShown, v.Complete ∧ v.BothSides := by
  intro v hv
  simp only [oddStampedShown, List.mem_singleton] at hv
  subst hv
  refine ⟨⟨⟨?_, by decide⟩, ⟨by decide, by decide, by decide⟩, ⟨by decide, by decide, by decide⟩, by decide, by decide⟩, ?_⟩
  · intro k hk d hd l hl
    refine ⟨l.dropLast, ?_, ?_⟩
    · revert k d l
      decide
    · revert k d l
      decide
  · unfold MView.BothSides
    decide

theorem oddStamped_defined (cmp : Str → Str → Int) (heap : Heap) : ∃ r, parse false cmp heap (split oddStamped.flatten) = Res.ok r := by
  have hd : ∀ s : Str, s ≠ [] → (∀ d ∈ s, '0' ≤ d ∧ d ≤ '9') → Digits s := fun s h1 h2 => ⟨h1, h2⟩
  have hf : determineFormat .Diff oddStamped = .Unified := by decide
  have hs : ∀ l ∈ oddStamped, l.length < 65535 := by decide
  have hrd : Reading (unifiedOpening .Diff) UnifiedHunks oddStamped [[str "oops\n"]] .finished := by
    refine Reading.two [str "From: me\n"] (str "--- a/x\tyesterday\n") (str "+++ a/x\ttoday\textra\n") _ _ (UnifiedHeaderLine "+++ ") [] .finished rfl ?_ ?_ ?_ ?_ ?_
    · intro x hx
      simp only [List.mem_singleton] at hx
      subst hx
      exact not_header_of_prefix (by decide)
    · exact ⟨str "a/x", str "\tyesterday", by decide, by decide, by decide, .inr ⟨str "yesterday", [], by decide, by decide, by decide, by decide⟩⟩
    · exact ⟨str "a/x", str "\ttoday\textra", by decide, by decide, by decide, .inr ⟨str "today", str "\textra", by decide, by decide, by decide, by decide⟩⟩
    · refine .hunk _ _ [str "oops\n"] 9 1 _ ?_ (by decide) (by decide)
        (.both _ _ (str "c\n") _ _ (by decide) (.old _ _ (str "o\n") _ _ (by decide) (.new _ _ (str "n\n") _ _ (by decide) (.other _ _ _ (by decide)))))
        (by decide) (.stop _ ?_)
      · refine ⟨str "7", str "9", str ",9", [], str " main", by decide, hd _ (by decide) (by decide), hd _ (by decide) (by decide), by decide,
          .inr ⟨str "9", by decide, hd _ (by decide) (by decide), by decide⟩, .inl ⟨rfl, rfl⟩⟩
      · rintro l hl ⟨n, m, a, b, na, nb, f, rfl, _⟩
        simp [str] at hl
    · refine .finished _ ?_
      intro x hx
      simp only [List.mem_singleton] at hx
      subst hx
      exact not_header_of_prefix (by decide)
  have hc : cleanUpCrap oddStamped = Res.ok oddStamped := C23_clean_plain _ (by unfold Remark; decide)
  have hg : determineGenerator oddStamped = .Diff := by decide
  unfold parse
  rw [oddStamped_split, hc, hg, Res.bind_ok]
  cases h : parseLines false cmp .Diff heap oddStamped with
  | ub => exact absurd ((C29_unified_ub_iff false cmp .Diff heap _ _ _ hf hs hrd).1 h) (by simp)
  | hang =>
    exfalso
    unfold parseLines at h
    simp only [hf] at h
    exact (Res.Ends.bind (unifiedFiles_ends false .Diff _) (fun _ _ => Res.Ends.ok _)) h
  | ok r => exact ⟨r, rfl⟩

/-- The text is opened, a difference applied; the recreated diff shows the same file. -/
example : ∃ s1 s2 t, OpensText emptyEnv oddStamped.flatten exampleStart s1 ∧ UserOp.apply.run s1 = Res.ok s2 ∧ s2.recreateDiff emptyEnv = Res.ok t ∧
    TextShows (unescapePath false) t oddStampedShown := by
  obtain ⟨r, hr⟩ := oddStamped_defined emptyEnv.cmp exampleStart.heap
  have hm : r.models ≠ none := fun hm => absurd ((C73_exact oddStamped_text hr).2.1 hm) (by simp [oddStampedShown])
  obtain ⟨s1, h1⟩ := parseAndOpenDiff_total (e := emptyEnv) (text := oddStamped.flatten) exampleStart_reachable.wf
    (by simp [exampleStart, MLState.setInfo]) hr
  rw [Option.isSome_iff_ne_none.2 hm] at h1
  have ho : OpensDiff (.parseAndOpenDiff emptyEnv oddStamped.flatten) exampleStart s1 := h1
  obtain ⟨s2, a2, e2⟩ := (C58_safe exampleStart_reachable ho .opened).2 .apply trivial
  obtain ⟨t, ms', k1, k2, k3, _⟩ := C74_session (text := oddStamped.flatten) exampleStart_reachable oddStamped_text
    (fun v hv => (oddStamped_complete v hv).1) (fun v hv => (oddStamped_complete v hv).2) (by simp [oddStampedShown]) (.inl h1) e2
  rw [List.perm_singleton.1 (show ms'.Perm [_] from k3)] at k2
  exact ⟨s1, s2, t, .inl h1, a2, k1, k2⟩

/-- Reading the written text and writing it again gives the same text. -/
example {cmp : Str → Str → Int} (ho : Orders cmp) (heap heap' : Heap) : ∃ r r' xs ys, parse false cmp heap (split oddStamped.flatten) = Res.ok r ∧
    r.models = some xs ∧ parse false cmp heap' (split (xs.flatMap (fun m => m.recreateDiff false r.heap))) = Res.ok r' ∧ r'.models = some ys ∧
    ys.flatMap (fun m => m.recreateDiff false r'.heap) = xs.flatMap (fun m => m.recreateDiff false r.heap) := by
  have hc : ∀ v ∈ oddStampedShown, v.Complete := fun v hv => (oddStamped_complete v hv).1
  have hb : ∀ v ∈ oddStampedShown, v.BothSides := fun v hv => (oddStamped_complete v hv).2
  obtain ⟨r, hr⟩ := oddStamped_defined cmp heap
  cases hx : r.models with
  | none => exact absurd ((C73_exact oddStamped_text hr).2.1 hx) (by simp [oddStampedShown])
  | some xs =>
    obtain ⟨r', p1, _⟩ := C74_same (cmp' := cmp) (heap' := heap') oddStamped_text hc hb hr hx
    obtain ⟨ys, q1, q2⟩ := C74_stable ho oddStamped_text hc hb (by
      intro v hv w hw _ _
      simp only [oddStampedShown, List.mem_singleton] at hv hw
      rw [hv, hw]) hr hx p1
    exact ⟨r, r', xs, ys, hr, hx, p1, q1, q2⟩

/-- A diff as git writes it. -/
def gitDiff : UDiff where
  files := [{ preamble := [str "diff --git a/x b/x", str "index 11..22 100644"], src := { name := str "a/x" }, dst := { name := str "b/x" }
              hunks := [{ srcLine := 3, dstLine := 3, blocks := [.context [{ text := str "c" }], .change [{ text := str "old" }] [{ text := str "new" }]] }] }]

theorem gitDiff_ok : gitDiff.Ok := by
  have hh : ∀ n : Str, (n ≠ [] ∧ '\t' ∉ n ∧ '\n' ∉ n) → Header.Ok { name := n } := by
    intro n h1
    exact ⟨h1, by intro ts hts; simp at hts, by intro e he; simp at he⟩
  refine ⟨?_, ?_, ?_, by simp [gitDiff]⟩
  · intro f hf
    simp only [gitDiff, List.mem_singleton] at hf
    subst hf
    refine ⟨hh _ (by decide), hh _ (by decide), ?_, by simp only [BetweenLine]; decide⟩
    intro h hm
    simp only [List.mem_singleton] at hm
    subst hm
    exact ⟨⟨by decide, by decide, by decide, by decide⟩, ⟨by decide, by decide, by decide, by decide⟩,
        by intro f hf; simp at hf,
        by intro b hb; simp only [List.mem_cons, List.not_mem_nil, or_false] at hb; rcases hb with rfl | rfl <;> simp [Block.NonEmpty],
        by simp [SeparatedBlocks, Block.Separated], by decide⟩
  · intro f fs e
    simp only [gitDiff, List.cons.injEq] at e
    obtain ⟨rfl, rfl⟩ := e
    refine ⟨?_, fun h => absurd h (by simp only [gitDiff]; decide)⟩
    intro t ht
    simp only [List.mem_cons, List.not_mem_nil, or_false] at ht
    rcases ht with rfl | rfl
    · refine ⟨by unfold BetweenLine; decide, by decide, ?_, ?_⟩
      · intro x s e; simp only [str] at e; have : x = 'd' := (List.cons.inj e).1.symm; subst this; decide
      · intro x y s e h; simp only [str] at e; have : y = 'i' := (List.cons.inj (List.cons.inj e).2).1.symm; subst this; decide
    · refine ⟨by unfold BetweenLine; decide, by decide, ?_, ?_⟩
      · intro x s e; simp only [str] at e; have : x = 'i' := (List.cons.inj e).1.symm; subst this; decide
      · intro x y s e h; simp only [str] at e; have : x = 'i' := (List.cons.inj e).1.symm; subst this; exact absurd h (by decide)
  · intro f fs e g hg
    simp only [gitDiff, List.cons.injEq] at e
    obtain ⟨rfl, rfl⟩ := e
    simp at hg

/-- Reading it and writing it loses everything. -/
example (cmp : Str → Str → Int) (heap : Heap) : ∃ r xs, parse false cmp heap (split gitDiff.render.flatten) = Res.ok r ∧ r.models = some xs ∧
    parse false cmp heap (split (xs.flatMap (fun m => m.recreateDiff false r.heap))) = Res.ok { models := none, malformed := false, heap := heap } := by
  obtain ⟨r, h1, _, h3⟩ := C26_unified gitDiff gitDiff_ok (by simp [gitDiff]) false cmp heap
  cases hx : r.models with
  | none =>
    rw [hx] at h3
    exact absurd (h3 _ (List.mem_singleton.2 rfl)) (by decide)
  | some xs =>
    rw [hx] at h3
    obtain ⟨ms, k1, k2, _⟩ := C73_parse h1
    refine ⟨r, xs, h1, hx, C74_git_defect k1 ?_ h1 hx⟩
    have e : r.shown = xs.map (DModel.view r.heap) := by unfold ParseResult.shown; rw [hx]; rfl
    rw [e] at k2
    have hp := k2.symm.trans h3.2
    intro v hv
    have hv := hp.mem_iff.1 hv
    have he : (gitDiff.files.filter UFile.changes).map (UFile.view (unescapePath false)) =
        [{ source := str "a/x", destination := str "b/x", sourceTimestamp := [], destinationTimestamp := [], sourceRevision := [],
           destinationRevision := [], appliedCount := 0
           hunks := [{ srcLine := 3, dstLine := 3, function := [], type := .Normal
                       diffs := [{ type := .Unchanged, srcLine := 3, dstLine := 3, tracking := 3, src := [str "c\n"], dst := [str "c\n"],
                                   applied := false, unsaved := false, conflicts := false },
                                 { type := .Change, srcLine := 4, dstLine := 4, tracking := 4, src := [str "old\n"], dst := [str "new\n"],
                                   applied := false, unsaved := false, conflicts := false }] }]
           differences := [{ type := .Change, srcLine := 4, dstLine := 4, tracking := 4, src := [str "old\n"], dst := [str "new\n"],
                             applied := false, unsaved := false, conflicts := false }] }] := by decide
    rw [he, List.mem_singleton] at hv
    subst hv
    refine ⟨⟨?_, by decide⟩, by decide, by decide, rfl, by decide, by decide⟩
    intro k hk d hd l hl
    refine ⟨l.dropLast, ?_, ?_⟩
    · revert k d l
      decide
    · revert k d l
      decide

end KompareDiff2
