import Verif.Proofs.Damage
/-
Property theorems C77: damage in a unified diff of several files.
-/
namespace KompareDiff2
open Spec

/-- The lines of a damaged diff after folding. -/
def Spec.PartDiff.clean (d : PartDiff) : List Str := d.files.flatMap PartFile.clean ++ ended d.trailer

theorem clean_short (f : UFile) : ∀ x ∈ f.clean, x ≠ [] ∧ ∃ y ∈ f.render, x.length ≤ y.length := by
  have line : ∀ (p : Char) (ls : List Line), ∀ x ∈ (ls.map Line.value).map (fun v => p :: v), x ≠ [] ∧ ∃ y ∈ ls.flatMap (Line.render p), x.length ≤ y.length := by
    intro p ls x hx
    obtain ⟨v, hv, rfl⟩ := List.mem_map.1 hx
    obtain ⟨l, hl, rfl⟩ := List.mem_map.1 hv
    refine ⟨by simp, p :: l.text ++ ['\n'], List.mem_flatMap.2 ⟨l, hl, List.mem_cons_self ..⟩, ?_⟩
    unfold Line.value
    split <;> simp
  intro x hx
  unfold UFile.clean at hx
  unfold UFile.render
  rcases List.mem_append.1 hx with hx | hx
  · obtain ⟨t, _, rfl⟩ := List.mem_map.1 hx
    exact ⟨by simp, _, List.mem_append_left _ (List.mem_append_left _ hx), Nat.le_refl _⟩
  · rcases List.mem_cons.1 hx with rfl | hx
    · exact ⟨by simp [str], _, by simp, Nat.le_refl _⟩
    · rcases List.mem_cons.1 hx with rfl | hx
      · exact ⟨by simp [str], str "+++ " ++ f.dst.render, by simp, Nat.le_refl _⟩
      · obtain ⟨h, hh, hx⟩ := List.mem_flatMap.1 hx
        have up : ∀ y ∈ h.render, y ∈ f.preamble.map (· ++ ['\n']) ++ [str "--- " ++ f.src.render, str "+++ " ++ f.dst.render] ++ f.hunks.flatMap UHunk.render :=
          fun y hy => List.mem_append_right _ (List.mem_flatMap.2 ⟨h, hh, hy⟩)
        rcases List.mem_cons.1 hx with rfl | hx
        · exact ⟨by simp [UHunk.header, str], _, up _ (List.mem_cons_self ..), Nat.le_refl _⟩
        · obtain ⟨b, hb, hx⟩ := List.mem_flatMap.1 hx
          have up2 : ∀ y ∈ b.render, y ∈ h.render := fun y hy => List.mem_cons_of_mem _ (List.mem_flatMap.2 ⟨b, hb, hy⟩)
          cases b with
          | context ls => obtain ⟨h1, y, h2, h3⟩ := line ' ' ls x hx; exact ⟨h1, y, up y (up2 y h2), h3⟩
          | change o n =>
            rcases List.mem_append.1 hx with hx | hx
            · obtain ⟨h1, y, h2, h3⟩ := line '-' o x hx; exact ⟨h1, y, up y (up2 y (List.mem_append_left _ h2)), h3⟩
            · obtain ⟨h1, y, h2, h3⟩ := line '+' n x hx; exact ⟨h1, y, up y (up2 y (List.mem_append_right _ h2)), h3⟩

theorem PartDiff.onward {d : PartDiff} (ok : d.Ok) : Onward d.files d.trailer :=
  ⟨ok.files, ok.mess, ok.announced, ok.later, ok.trailer, ok.last⟩

theorem PartDiff.cleans {d : PartDiff} (ok : d.Ok) : Cleans d.render d.clean := by
  refine Cleans.append (Cleans.flatMap _ (fun p hp => PartFile.cleans (ok.files p hp) (ok.mess p hp))) (Cleans.id _ (fun l hl => ?_))
  obtain ⟨t, ht, rfl⟩ := ended_mem hl
  exact not_prefix_newline (by decide) (ok.trailer.1 t ht).2.2.2

theorem PartDiff.split_text {d : PartDiff} (ok : d.Ok) : split d.render.flatten = d.render := by
  apply split_flatten
  have := LineList.append (as := d.render) (bs := []) (by
    intro x hx
    rcases List.mem_append.1 hx with hx | hx
    · obtain ⟨p, hp, hx⟩ := List.mem_flatMap.1 hx
      rcases List.mem_append.1 hx with hx | hx
      · exact UFile.render_lines p.file (ok.files p hp) x hx
      · obtain ⟨t, ht, rfl⟩ := ended_mem hx
        exact ⟨t, (ok.mess p hp t ht).1, rfl⟩
    · obtain ⟨t, ht, rfl⟩ := ended_mem hx
      exact ⟨t, (ok.trailer.1 t ht).1, rfl⟩) .nil
  simpa using this

theorem PartDiff.generator {d : PartDiff} (ok : d.Ok) : determineGenerator d.render ≠ .Perforce := by
  apply generator_not_perforce
  intro l hl
  have bet : ∀ t, BetweenLine t → (str "==== ").isPrefixOf (t ++ ['\n']) = false := fun t ht => not_prefix_newline (by decide) ht.2.2.1
  rcases List.mem_append.1 hl with hl | hl
  · obtain ⟨p, hp, hl⟩ := List.mem_flatMap.1 hl
    rcases List.mem_append.1 hl with hl | hl
    · rcases UFile.render_mem hl with ⟨t, ht, rfl⟩ | h
      · exact bet t ((ok.files p hp).between t ht)
      · exact h.perforce
    · obtain ⟨t, ht, rfl⟩ := ended_mem hl
      exact bet t (ok.mess p hp t ht)
  · obtain ⟨t, ht, rfl⟩ := ended_mem hl
    exact bet t (ok.trailer.1 t ht)

theorem PartDiff.format {d : PartDiff} (ok : d.Ok) (hne : d.files ≠ []) : determineFormat (determineGenerator d.render) d.clean = .Unified := by
  have hg := PartDiff.generator ok
  cases hf : d.files with
  | nil => exact absurd hf hne
  | cons p ps =>
    obtain ⟨h1, h2⟩ := ok.first p ps hf
    have hfo := ok.files p (by rw [hf]; simp)
    have e : d.clean = p.file.preamble.map (· ++ ['\n']) ++ ((str "--- " ++ p.file.src.render) ::
        ((str "+++ " ++ p.file.dst.render) :: (p.file.hunks.flatMap UHunk.clean ++ (ended p.mess ++ (ps.flatMap PartFile.clean ++ ended d.trailer))))) := by
      simp [PartDiff.clean, hf, UFile.clean, PartFile.clean]
    rw [e, format_skip]
    · simp only [determineFormat]
      rw [header_format _ hg p.file.src hfo.src (fun hcvs => h2 (by
        obtain ⟨l, hl, hp⟩ := generator_cvs _ hcvs
        exact ⟨l, hl, List.isPrefixOf_iff_prefix.1 hp⟩))]
    · intro l hl
      obtain ⟨t, ht, rfl⟩ := List.mem_map.1 hl
      exact preamble_format _ hg t (h1 t ht)

/-- Lines of which it is known what they show and how they are read. -/
theorem parse_known {win : Bool} {cmp : Str → Str → Int} {heap : Heap} {raw clean : List Str} {ms : List MView} {stops : List (List Str)} {out : Outcome}
    (hc : Cleans raw clean) (hf : determineFormat (determineGenerator raw) clean = .Unified) (hs : ∀ l ∈ clean, l.length < 65535)
    (h1 : ShowsFiles (unifiedForm (unescapePath win) (determineGenerator raw)) UnifiedShown clean ms)
    (h2 : Reading (unifiedOpening (determineGenerator raw)) UnifiedHunks clean stops out) (ho : out ≠ .undefined) :
    ∃ r, parse win cmp heap raw = Res.ok r ∧ r.shown.Perm ms ∧ (r.malformed = true ↔ ∃ rest ∈ stops, BadStop (unifiedOpening (determineGenerator raw)) rest) := by
  have hiff := C29_unified_ub_iff win cmp _ heap clean stops out hf hs h2
  unfold parse
  rw [hc.run]
  simp only [Res.bind_ok]
  cases h : parseLines win cmp (determineGenerator raw) heap clean with
  | ub => exact absurd (hiff.1 h) ho
  | hang =>
    exfalso
    unfold parseLines at h
    simp only [hf] at h
    exact (Res.Ends.bind (unifiedFiles_ends win _ _) (fun _ _ => Res.Ends.ok _)) h
  | ok r => exact ⟨r, rfl, (C70_unified_exact win cmp _ heap clean r ms hf h h1).1, C30_unified_malformed_iff win cmp _ heap clean stops out r hf hs h2 h⟩

/-- **C77.** Damage stays in its file.  Some files of a unified diff have, after their first hunks, any lines instead of further hunks.  The
parser returns, and shows every file with all its hunks before the damage, followed by the hunks that still stand at the beginning of the
damaged lines (nothing for a file without damage).  The flag `malformed` is set exactly if what remains of the damaged lines of some file begins
with a line that does not announce another file. -/
theorem C77_contained (d : PartDiff) (ok : d.Ok) (hne : d.files ≠ []) (win : Bool) (cmp : Str → Str → Int) (heap : Heap) :
    ∃ (r : ParseResult) (more : PartFile → List HView) (left : PartFile → List Str), parse win cmp heap (split d.render.flatten) = Res.ok r ∧
      (∀ p ∈ d.files, UnifiedShown (ended p.mess) (more p) (left p)) ∧
      r.shown.Perm (d.files.flatMap (fun p => (p.file.names (unescapePath win)).shown (p.file.hunks.map UHunk.view ++ more p))) ∧
      (r.malformed = true ↔ ∃ p ∈ d.files, Complaint (left p)) := by
  have hshort : ∀ l ∈ d.clean, l ≠ [] ∧ l.length < 65535 := by
    intro l hl
    rcases List.mem_append.1 hl with hl | hl
    · obtain ⟨p, hp, hl⟩ := List.mem_flatMap.1 hl
      have up : ∀ y ∈ p.render, y ∈ d.render := fun y hy => List.mem_append_left _ (List.mem_flatMap.2 ⟨p, hp, hy⟩)
      rcases List.mem_append.1 hl with hl | hl
      · obtain ⟨h1, y, h2, h3⟩ := clean_short p.file l hl
        have := ok.short y (up y (List.mem_append_left _ h2))
        exact ⟨h1, by omega⟩
      · obtain ⟨t, ht, rfl⟩ := ended_mem hl
        exact ⟨by simp, ok.short _ (up _ (List.mem_append_right _ hl))⟩
    · obtain ⟨t, ht, rfl⟩ := ended_mem hl
      exact ⟨by simp, ok.short _ (List.mem_append_right _ hl)⟩
  have total : ∀ p : PartFile, ∃ v : List HView × List Str, p ∈ d.files → UnifiedShown (ended p.mess) v.1 v.2 := by
    intro p
    by_cases hp : p ∈ d.files
    · have up : ∀ l ∈ ended p.mess, l ∈ d.clean := fun l hl => List.mem_append_left _ (List.mem_flatMap.2 ⟨p, hp, List.mem_append_right _ hl⟩)
      obtain ⟨hv, r, h⟩ := shown_total (ended p.mess) (fun l hl => (hshort l (up l hl)).2) (fun h => (hshort _ (up _ h)).1 rfl)
      exact ⟨(hv, r), fun _ => h⟩
    · exact ⟨([], []), fun h => absurd h hp⟩
  obtain ⟨v, hv⟩ := Classical.axiomOfChoice total
  obtain ⟨h1, stops, h2, h3⟩ := files_shown (unescapePath win) (PartDiff.generator ok) (tr := d.trailer) (fun p => (v p).1) (fun p => (v p).2) d.files
    (PartDiff.onward ok) hv (fun h => (hshort _ h).1 rfl)
  obtain ⟨r, k1, k2, k3⟩ := parse_known (win := win) (cmp := cmp) (heap := heap) (PartDiff.cleans ok) (PartDiff.format ok hne) (fun l hl => (hshort l hl).2) h1 h2 (by decide)
  refine ⟨r, fun p => (v p).1, fun p => (v p).2, by rw [PartDiff.split_text ok]; exact k1, hv, k2, k3.trans h3⟩

theorem names_shown (unesc : Str → Str) (f : UFile) (h : f.changes = true) : (f.names unesc).shown (f.hunks.map UHunk.view) = [f.view unesc] := by
  have e : changesOf (f.hunks.map UHunk.view) = (f.hunks.flatMap (fun h => h.view.diffs)).filter (fun d => d.type ≠ .Unchanged) := by
    simp [changesOf, List.flatMap_map]
  have hc : changesOf (f.hunks.map UHunk.view) ≠ [] := by
    rw [e]
    unfold UFile.changes at h
    obtain ⟨k, hk, h⟩ := List.any_eq_true.1 h
    obtain ⟨b, hb, h⟩ := List.any_eq_true.1 h
    have : ∀ (bs : List Block) (x y : Nat), b ∈ bs → ∃ v ∈ blockViews x y bs, v.type ≠ .Unchanged := by
      intro bs
      induction bs with
      | nil => intro x y hb; cases hb
      | cons c bs ih =>
        intro x y hb
        rcases List.mem_cons.1 hb with rfl | hb
        · refine ⟨_, List.mem_cons_self .., fun q => ?_⟩
          rw [(block_unchanged _ _ _).1 q] at h; cases h
        · obtain ⟨v, h1, h2⟩ := ih (x + c.old.length) (y + c.new.length) hb
          exact ⟨v, List.mem_cons_of_mem _ h1, h2⟩
    obtain ⟨v, h1, h2⟩ := this k.blocks k.srcLine k.dstLine hb
    exact List.ne_nil_of_mem (List.mem_filter.2 ⟨List.mem_flatMap.2 ⟨k, hk, h1⟩, by simpa using h2⟩)
  unfold FileNames.shown
  rw [if_neg hc]
  unfold FileNames.view UFile.view UFile.names
  rw [e]

/-- **C77.** In particular every undamaged file with changes is shown completely. -/
theorem C77_others (d : PartDiff) (ok : d.Ok) (win : Bool) (cmp : Str → Str → Int) (heap : Heap) {p : PartFile} (hp : p ∈ d.files) (hm : p.mess = [])
    (hc : p.file.changes = true) : ∃ r, parse win cmp heap (split d.render.flatten) = Res.ok r ∧ p.file.view (unescapePath win) ∈ r.shown := by
  obtain ⟨r, more, left, h1, h2, h3, _⟩ := C77_contained d ok (List.ne_nil_of_mem hp) win cmp heap
  refine ⟨r, h1, h3.mem_iff.2 (List.mem_flatMap.2 ⟨p, hp, ?_⟩)⟩
  have := h2 p hp
  rw [hm] at this
  rw [(shown_nil this).1, List.append_nil, names_shown _ _ hc]
  simp

theorem not_header {t : Str} (h : ¬ str "@@ -" <+: t) (hn : '\n' ∉ t) : ¬ ∃ n m, HunkHeaderLine (t ++ ['\n']) n m := by
  rintro ⟨n, m, hh⟩
  rcases List.prefix_concat_iff.1 (hunkHeader_at hh) with e | e
  · have : '\n' ∈ str "@@ -" := by rw [e]; simp
    revert this; decide
  · exact h e

theorem shown_other {t : Str} {ts : List Str} (h : ¬ str "@@ -" <+: t) (hn : '\n' ∉ t) : UnifiedShown (ended (t :: ts)) [] (ended (t :: ts)) := by
  refine .stop _ (fun l hl => ?_)
  cases hl
  exact not_header h hn

theorem complaint_of {t : Str} {ts : List Str} (h : ¬ SeparatorLine t) (hn : '\n' ∉ t) : Complaint (ended (t :: ts)) := by
  have up : ∀ s : Str, '\n' ∉ s → ¬ s <+: t → ¬ s <+: t ++ ['\n'] := by
    intro s hs h1 h2
    rcases List.prefix_concat_iff.1 h2 with e | e
    · exact hs (by rw [e]; simp)
    · exact h1 e
  exact ⟨_, _, rfl, up _ (by decide) (fun q => h (.inl q)), up _ (by decide) (fun q => h (.inr (.inl q))), up _ (by decide) (fun q => h (.inr (.inr q)))⟩

theorem flatMap_same {α β : Type} {f g : α → List β} (as : List α) (h : ∀ a ∈ as, f a = g a) : as.flatMap f = as.flatMap g := by
  induction as with
  | nil => rfl
  | cons a as ih =>
    simp only [List.flatMap_cons]
    rw [h a (List.mem_cons_self ..), ih (fun b hb => h b (List.mem_cons_of_mem _ hb))]

/-- **C77, what is false.** The damage does not end before the next file: once a line stands where a hunk should begin, everything up to the
next file is lost, well-formed hunks as well.  Two diffs that differ only in what stands after that line show the same. -/
theorem C77_lost_defect (d d' : PartDiff) (ok : d.Ok) (ok' : d'.Ok) (as bs : List PartFile) (f : UFile) (t : Str) (ts ts' : List Str)
    (h : d.files = as ++ ⟨f, t :: ts⟩ :: bs) (h' : d'.files = as ++ ⟨f, t :: ts'⟩ :: bs) (ht : ¬ str "@@ -" <+: t)
    (win : Bool) (cmp : Str → Str → Int) (heap heap' : Heap) :
    ∃ r r', parse win cmp heap (split d.render.flatten) = Res.ok r ∧ parse win cmp heap' (split d'.render.flatten) = Res.ok r' ∧ r.shown.Perm r'.shown ∧
      (¬ SeparatorLine t → r.malformed = true ∧ r'.malformed = true) := by
  have hp : (⟨f, t :: ts⟩ : PartFile) ∈ d.files := by rw [h]; simp
  have hp' : (⟨f, t :: ts'⟩ : PartFile) ∈ d'.files := by rw [h']; simp
  have hn : '\n' ∉ t := (ok.mess _ hp t (List.mem_cons_self ..)).1
  obtain ⟨r, more, left, a1, a2, a3, a4⟩ := C77_contained d ok (List.ne_nil_of_mem hp) win cmp heap
  obtain ⟨r', more', left', b1, b2, b3, b4⟩ := C77_contained d' ok' (List.ne_nil_of_mem hp') win cmp heap'
  obtain ⟨x1, x2⟩ := unifiedShown_det (a2 _ hp) (shown_other (ts := ts) ht hn)
  obtain ⟨y1, y2⟩ := unifiedShown_det (b2 _ hp') (shown_other (ts := ts') ht hn)
  have same : ∀ p, p ∈ as ∨ p ∈ bs → more p = more' p := by
    intro p hq
    refine (unifiedShown_det (a2 p ?_) (b2 p ?_)).1
    · rw [h]; rcases hq with q | q <;> simp [q]
    · rw [h']; rcases hq with q | q <;> simp [q]
  refine ⟨r, r', a1, b1, ?_, fun hs => ⟨a4.2 ⟨_, hp, ?_⟩, b4.2 ⟨_, hp', ?_⟩⟩⟩
  · refine a3.trans (List.Perm.trans (List.Perm.of_eq ?_) b3.symm)
    rw [h, h']
    simp only [List.flatMap_append, List.flatMap_cons, x1, y1]
    rw [flatMap_same as (fun p hq => by rw [same p (.inl hq)]), flatMap_same bs (fun p hq => by rw [same p (.inr hq)])]
  · rw [x2]; exact complaint_of hs hn
  · rw [y2]; exact complaint_of hs hn

theorem render_eol {bs : List Block} (h : ∀ b ∈ bs, ∀ l ∈ b.old ++ b.new, l.eol = true) : bs.flatMap Block.render = bs.flatMap Block.clean := by
  have one : ∀ (p : Char) (ls : List Line), (∀ l ∈ ls, l.eol = true) → ls.flatMap (Line.render p) = (ls.map Line.value).map (fun v => p :: v) := by
    intro p ls hl
    induction ls with
    | nil => rfl
    | cons l ls ih =>
      simp only [List.flatMap_cons, List.map_cons]
      rw [ih (fun x hx => hl x (List.mem_cons_of_mem _ hx))]
      simp [Line.render, Line.value, hl l (List.mem_cons_self ..)]
  refine flatMap_same bs (fun b hb => ?_)
  cases b with
  | context ls => exact one ' ' ls (fun l hl => h _ hb l (List.mem_append_left _ hl))
  | change o n =>
    simp only [Block.render, Block.clean]
    rw [one '-' o (fun l hl => h _ hb l (List.mem_append_left _ hl)), one '+' n (fun l hl => h _ hb l (List.mem_append_right _ hl))]

/-- **C77, what is false.** A line within a hunk that begins neither with a space nor with `-` or `+` — an empty line, as
`diff --suppress-blank-empty` and editors write it — ends the hunk although lines are missing.  The file is shown with the hunk cut off at that
line and without its later hunks; the diff is malformed. -/
theorem C77_blank_defect (d : PartDiff) (ok : d.Ok) (f : UFile) (mess : List Str) (hp : (⟨f, mess⟩ : PartFile) ∈ d.files) (k : UHunk) (hk : k.Ok)
    (bs : List Block) (t : Str) (ts : List Str) (hm : ended mess = k.header :: (bs.flatMap Block.render ++ ended (t :: ts)))
    (heol : ∀ b ∈ bs, ∀ l ∈ b.old ++ b.new, l.eol = true) (hne : ∀ b ∈ bs, b.NonEmpty) (hsep : SeparatedBlocks bs)
    (hold : (bs.map (fun b => b.old.length)).sum ≤ k.srcCount) (hnew : (bs.map (fun b => b.new.length)).sum ≤ k.dstCount)
    (h1 : t.head? ≠ some ' ' ∧ t.head? ≠ some '-' ∧ t.head? ≠ some '+') (h2 : ¬ str "@@ -" <+: t) (h3 : ¬ SeparatorLine t)
    (win : Bool) (cmp : Str → Str → Int) (heap : Heap) :
    ∃ r, parse win cmp heap (split d.render.flatten) = Res.ok r ∧ r.malformed = true ∧
      ∀ v ∈ (f.names (unescapePath win)).shown (f.hunks.map UHunk.view ++ [k.cutView bs]), v ∈ r.shown := by
  obtain ⟨r, more, left, a1, a2, a3, a4⟩ := C77_contained d ok (List.ne_nil_of_mem hp) win cmp heap
  have hn : '\n' ∉ t := by
    have e : t ++ ['\n'] ∈ ended mess := by rw [hm]; simp [ended]
    obtain ⟨u, hu, e⟩ := ended_mem e
    rw [List.append_cancel_right e]
    exact (ok.mess _ hp u hu).1
  have key : UnifiedShown (ended mess) [k.cutView bs] (ended (t :: ts)) := by
    rw [hm, render_eol heol]
    refine hunk_shown hk hsep hne (n := k.srcCount - (bs.map (fun b => b.old.length)).sum) (m := k.dstCount - (bs.map (fun b => b.new.length)).sum)
      (by omega) (by omega) (.other _ _ _ (fun l hl => ?_)) (shown_other h2 hn)
    cases hl
    cases t with
    | nil => simp
    | cons c t => simpa using h1
  obtain ⟨x1, x2⟩ := unifiedShown_det (a2 _ hp) key
  refine ⟨r, a1, a4.2 ⟨_, hp, by rw [x2]; exact complaint_of h3 hn⟩, fun v hv => a3.mem_iff.2 (List.mem_flatMap.2 ⟨_, hp, ?_⟩)⟩
  rw [x1]
  exact hv

theorem header_dropLast (h : Header) (ok : h.Ok) : h.render.dropLast ++ ['\n'] = h.render ∧ '\n' ∉ h.render.dropLast := by
  have e : ∃ u : Str, h.render = u ++ ['\n'] ∧ '\n' ∉ u := by
    refine ⟨_, rfl, ?_⟩
    have h1 := ok.name.2.2
    cases hs : h.stamp with
    | none => simpa using h1
    | some ts =>
      have h2 := (ok.stamp ts hs).2.2
      cases he : h.extra with
      | none => simp [h1, h2]
      | some x => simp [h1, h2, ok.extra x he]
  obtain ⟨u, e, hu⟩ := e
  rw [e]
  simp [hu]

theorem separated_last {bs : List Block} {o n o' n' : List Line} (h : SeparatedBlocks (bs ++ [.change o n])) (ho : o' ≠ []) : SeparatedBlocks (bs ++ [.change o' n']) := by
  induction bs with
  | nil => trivial
  | cons b bs ih =>
    cases bs with
    | nil =>
      refine ⟨?_, trivial⟩
      have := h.1
      cases b with
      | context ls => trivial
      | change x y => exact ⟨this.1, ho⟩
    | cons c bs => exact ⟨h.1, ih h.2⟩

/-- **C77, what is false.** Damage that does not stay in its file.  If the last changed line of a file is missing in the diff and the next file is
not announced, the headers of the next file are taken for the missing line: the next file is not shown, its hunks are shown as hunks of the
first one, and the diff is not malformed. -/
theorem C77_swallow_defect (f g : UFile) (k : UHunk) (bs : List Block) (o n : Line) (hf : f.Ok) (hg : g.Ok) (hk : k.Ok) (hb : k.blocks = bs ++ [.change [o] [n]])
    (hg0 : g.preamble = []) (hpre : ∀ t ∈ f.preamble, PreambleLine t) (hidx : (∃ t ∈ f.preamble, str "Index: " <+: t) → f.src.stamp ≠ none)
    (hlen : g.src.render.length < 65530 ∧ g.dst.render.length < 65530) (win : Bool) (cmp : Str → Str → Int) (heap : Heap) :
    ∃ m h', parse win cmp heap (split (f.render ++ k.header :: bs.flatMap Block.render ++ g.render).flatten) = Res.ok { models := some [m], malformed := false, heap := h' } ∧
      m.view h' = ({ f with hunks := f.hunks ++ { k with blocks := bs ++ [g.asChange] } :: g.hunks } : UFile).view (unescapePath win) := by
  obtain ⟨e1, n1⟩ := header_dropLast g.src hg.src
  obtain ⟨e2, n2⟩ := header_dropLast g.dst hg.dst
  let k' : UHunk := { k with blocks := bs ++ [g.asChange] }
  have c1 : k'.srcCount = k.srcCount := by simp [k', UHunk.srcCount, hb, UFile.asChange, Block.old]
  have c2 : k'.dstCount = k.dstCount := by simp [k', UHunk.dstCount, hb, UFile.asChange, Block.new]
  have hk' : k'.Ok := by
    refine ⟨by rw [c1]; exact hk.src, by rw [c2]; exact hk.dst, hk.function, ?_, ?_, ?_⟩
    · intro b hbm
      rcases List.mem_append.1 hbm with q | q
      · exact hk.nonEmpty b (by rw [hb]; exact List.mem_append_left _ q)
      · rw [List.mem_singleton.1 q]; simp [UFile.asChange, Block.NonEmpty]
    · refine separated_last (o := [o]) (n := [n]) ?_ (by simp)
      rw [← hb]; exact hk.separated
    · intro b hbm l hl
      rcases List.mem_append.1 hbm with q | q
      · exact hk.lines b (by rw [hb]; exact List.mem_append_left _ q) l hl
      · rw [List.mem_singleton.1 q] at hl
        simp only [UFile.asChange, Block.old, Block.new, List.cons_append, List.nil_append, List.mem_cons, List.not_mem_nil, or_false] at hl
        have s1 : '\n' ∉ str "-- " := by decide
        have s2 : '\n' ∉ str "++ " := by decide
        have l1 : (str "-- ").length = 3 := rfl
        have l2 : (str "++ ").length = 3 := rfl
        rcases hl with rfl | rfl
        · refine ⟨by simp [s1, n1], ?_⟩
          simp only [List.length_append, List.length_dropLast, l1]; omega
        · refine ⟨by simp [s2, n2], ?_⟩
          simp only [List.length_append, List.length_dropLast, l2]; omega
  let F : UFile := { f with hunks := f.hunks ++ k' :: g.hunks }
  let D : UDiff := { files := [F] }
  have okF : F.Ok := by
    refine ⟨hf.src, hf.dst, ?_, hf.between⟩
    intro h hh
    rcases List.mem_append.1 hh with q | q
    · exact hf.hunks h q
    · rcases List.mem_cons.1 q with rfl | q
      · exact hk'
      · exact hg.hunks h q
  have okD : D.Ok := by
    refine ⟨?_, ?_, ?_, ?_⟩
    · intro x hx; rw [List.mem_singleton.1 hx]; exact okF
    · intro x xs e
      cases e
      refine ⟨hpre, ?_⟩
      rintro (⟨x, hx, h⟩ | ⟨t, ht, _⟩)
      · rw [List.mem_singleton.1 hx] at h; exact hidx h
      · cases ht
    · intro x xs e y hy; cases e; cases hy
    · exact ⟨(by intro t ht; cases ht), (by intro t ts e; cases e)⟩
  have hc : F.changes = true := by
    simp [F, UFile.changes, k', UFile.asChange, Block.isChange]
  have er : D.render = f.render ++ k.header :: bs.flatMap Block.render ++ g.render := by
    have hh : k'.header = k.header := by
      unfold UHunk.header
      rw [c1, c2]
    have hr : g.asChange.render = [str "--- " ++ g.src.render, str "+++ " ++ g.dst.render] := by
      have x1 : str "--- " = '-' :: str "-- " := rfl
      have x2 : str "+++ " = '+' :: str "++ " := rfl
      simp only [UFile.asChange, Block.render, Line.render, List.flatMap_cons, List.flatMap_nil, if_true, List.append_nil, List.cons_append, List.nil_append, List.append_assoc]
      rw [e1, e2, x1, x2]
      rfl
    have hkr : k'.render = k.header :: (bs.flatMap Block.render ++ [str "--- " ++ g.src.render, str "+++ " ++ g.dst.render]) := by
      unfold UHunk.render
      rw [hh]
      simp [k', hr]
    have hgr : g.render = [str "--- " ++ g.src.render, str "+++ " ++ g.dst.render] ++ g.hunks.flatMap UHunk.render := by
      unfold UFile.render; rw [hg0]; rfl
    rw [hgr]
    simp [D, UDiff.render, F, UFile.render, hkr]
  have := C26_unified_single D okD F rfl hc win cmp heap
  rw [er] at this
  exact this

/-! ### Examples -/

theorem plain_header {n : Str} (h1 : n ≠ [] ∧ '\t' ∉ n ∧ '\n' ∉ n) : Header.Ok { name := n } :=
  ⟨h1, by intro ts hts; simp at hts, by intro e he; simp at he⟩

/-- The hunk `@@ -1,2 +1,2 @@`: a line stays, a line changes. -/
def damageHunk : UHunk := { srcLine := 1, dstLine := 1, blocks := [.context [{ text := str "x" }], .change [{ text := str "old" }] [{ text := str "new" }]] }

theorem damageHunk_ok : damageHunk.Ok :=
  ⟨⟨by decide, by decide, by decide, by decide⟩, ⟨by decide, by decide, by decide, by decide⟩, by intro f hf; simp [damageHunk] at hf,
    by intro b hb; simp only [damageHunk, List.mem_cons, List.not_mem_nil, or_false] at hb; rcases hb with rfl | rfl <;> simp [Block.NonEmpty],
    by simp [damageHunk, SeparatedBlocks, Block.Separated], by decide⟩

/-- A file with that hunk. -/
def damageFile (pre : List Str) (n : String) : UFile := { preamble := pre, src := { name := str n }, dst := { name := str n }, hunks := [damageHunk] }

theorem damageFile_ok {pre : List Str} {n : String} (h : str n ≠ [] ∧ '\t' ∉ str n ∧ '\n' ∉ str n) (hp : ∀ t ∈ pre, BetweenLine t) : (damageFile pre n).Ok :=
  ⟨plain_header h, plain_header h, by intro h hm; rw [List.mem_singleton.1 hm]; exact damageHunk_ok, hp⟩

/-- Three files; in the second one an empty line stands in the second hunk, which is followed by a well-formed hunk if `more` is given. -/
def damageDiff (more : List Str) : PartDiff where
  files := [⟨damageFile [str "diff a a"] "a", []⟩,
    ⟨damageFile [str "diff b b"] "b", [str "@@ -11,2 +11,2 @@", str " x", str "", str "-old", str "+new"] ++ more⟩,
    ⟨damageFile [str "diff c c"] "c", []⟩]

theorem damageDiff_ok (more : List Str) (hm : ∀ t ∈ more, BetweenLine t ∧ ¬ str "Index: " <+: t ∧ t.length < 65534) : (damageDiff more).Ok := by
  have hb : ∀ n : String, n = "a" ∨ n = "b" ∨ n = "c" → ∀ t ∈ [str "diff " ++ str n ++ str " " ++ str n], BetweenLine t ∧ PreambleLine t := by
    rintro n (rfl | rfl | rfl) t ht <;> rw [List.mem_singleton.1 ht] <;> refine ⟨?_, ?_, ?_, ?_, ?_⟩ <;>
      first
        | (simp only [BetweenLine]; decide)
        | decide
        | (intro x s e; simp only [str] at e; cases e; decide)
        | (intro x y s e; simp only [str] at e; cases e; decide)
  have hr : ∀ l ∈ (damageDiff more).render, (¬ str "Index: " <+: l) ∧ l.length < 65535 := by
    intro l hl
    replace hl : l ∈ (damageDiff []).render ∨ l ∈ ended more := by
      simp only [damageDiff, PartDiff.render, PartFile.render, List.flatMap_cons, List.flatMap_nil, ended, List.map_append, List.mem_append, List.map_nil, List.not_mem_nil, or_false, false_or, List.append_nil] at hl ⊢
      grind
    rcases hl with hl | hl
    · exact (by decide +kernel : ∀ l ∈ (damageDiff []).render, (¬ str "Index: " <+: l) ∧ l.length < 65535) l hl
    · obtain ⟨t, ht, rfl⟩ := ended_mem hl
      obtain ⟨_, h2, h3⟩ := hm t ht
      refine ⟨fun q => ?_, by simp; omega⟩
      rcases List.prefix_concat_iff.1 q with e | e
      · have : '\n' ∈ str "Index: " := by rw [e]; simp
        revert this; decide
      · exact h2 e
  refine ⟨?_, ?_, ?_, ?_, ?_, ⟨(by intro t ht; cases ht), (by intro t ts e; cases e)⟩, ?_, fun l hl => (hr l hl).2⟩
  · intro p hp
    simp only [damageDiff, List.mem_cons, List.not_mem_nil, or_false] at hp
    rcases hp with rfl | rfl | rfl
    · exact damageFile_ok (by decide) (fun t ht => (hb "a" (by simp) t ht).1)
    · exact damageFile_ok (by decide) (fun t ht => (hb "b" (by simp) t ht).1)
    · exact damageFile_ok (by decide) (fun t ht => (hb "c" (by simp) t ht).1)
  · intro p hp
    simp only [damageDiff, List.mem_cons, List.not_mem_nil, or_false] at hp
    rcases hp with rfl | rfl | rfl
    · intro t ht; cases ht
    · intro t ht
      rcases List.mem_append.1 ht with q | q
      · clear ht; revert t; simp only [BetweenLine]; decide
      · exact (hm t q).1
    · intro t ht; cases ht
  · intro ps p q qs e hne
    simp only [damageDiff] at e
    rcases ps with _ | ⟨_, _ | ⟨_, _ | ⟨_, ps⟩⟩⟩ <;> simp at e
    · obtain ⟨rfl, rfl, _⟩ := e; exact absurd rfl hne
    · obtain ⟨_, rfl, rfl, _⟩ := e; exact ⟨_, _, rfl, .inr (by decide)⟩
  · intro p ps e
    simp only [damageDiff] at e
    cases e
    exact ⟨fun t ht => (hb "a" (by simp) t ht).2, fun ⟨l, hl, h⟩ => absurd h (hr l hl).1⟩
  · intro p ps e q hq t ts ht
    simp only [damageDiff] at e
    cases e
    simp only [List.mem_cons, List.not_mem_nil, or_false] at hq
    rcases hq with rfl | rfl <;> (cases ht; exact .inr (.inl (by decide)))
  · intro ps p e _; rfl

/-- The well-formed hunk after the damage. -/
def damageMore : List Str := [str "@@ -21 +21 @@", str "-p", str "+q"]

theorem damageMore_ok : ∀ t ∈ damageMore, BetweenLine t ∧ ¬ str "Index: " <+: t ∧ t.length < 65534 := by
  simp only [BetweenLine]; decide

/-- The other two files are shown although the second one is damaged. -/
example (win : Bool) (cmp : Str → Str → Int) (heap : Heap) :
    ∃ r, parse win cmp heap (split (damageDiff damageMore).render.flatten) = Res.ok r ∧ (damageFile [str "diff c c"] "c").view (unescapePath win) ∈ r.shown :=
  C77_others _ (damageDiff_ok _ damageMore_ok) win cmp heap (p := ⟨damageFile [str "diff c c"] "c", []⟩) (by simp [damageDiff]) rfl (by decide)

/-- The second file: its second hunk ends at the empty line. -/
example (win : Bool) (cmp : Str → Str → Int) (heap : Heap) :
    ∃ r, parse win cmp heap (split (damageDiff damageMore).render.flatten) = Res.ok r ∧ r.malformed = true ∧
      ∀ v ∈ ((damageFile [str "diff b b"] "b").names (unescapePath win)).shown
        [damageHunk.view, ({ damageHunk with srcLine := 11, dstLine := 11 } : UHunk).cutView [.context [{ text := str "x" }]]], v ∈ r.shown :=
  C77_blank_defect _ (damageDiff_ok _ damageMore_ok) (damageFile [str "diff b b"] "b")
    ([str "@@ -11,2 +11,2 @@", str " x", str "", str "-old", str "+new"] ++ damageMore) (by simp [damageDiff]) { damageHunk with srcLine := 11, dstLine := 11 }
    ⟨⟨by decide, by decide, by decide, by decide⟩, ⟨by decide, by decide, by decide, by decide⟩, damageHunk_ok.function, damageHunk_ok.nonEmpty, damageHunk_ok.separated,
      damageHunk_ok.lines⟩ [.context [{ text := str "x" }]] [] ([str "-old", str "+new"] ++ damageMore) (by decide +kernel) (by decide) (by simp [Block.NonEmpty]) trivial (by decide)
    (by decide) (by decide) (by decide) (by simp only [SeparatorLine]; decide) win cmp heap

/-- The same with a bad line where a hunk should begin: whether a well-formed hunk follows makes no difference. -/
def lostDiff (more : List Str) : PartDiff where
  files := [⟨damageFile [] "a", [str "garbage"] ++ more⟩]

theorem lostDiff_ok (more : List Str) (hm : ∀ t ∈ more, BetweenLine t ∧ ¬ str "Index: " <+: t ∧ t.length < 65534) : (lostDiff more).Ok := by
  have hr : ∀ l ∈ (lostDiff more).render, (¬ str "Index: " <+: l) ∧ l.length < 65535 := by
    intro l hl
    replace hl : l ∈ (lostDiff []).render ∨ l ∈ ended more := by
      simp only [lostDiff, PartDiff.render, PartFile.render, List.flatMap_cons, List.flatMap_nil, ended, List.map_append, List.mem_append, List.map_nil, List.not_mem_nil, or_false, false_or, List.append_nil] at hl ⊢
      grind
    rcases hl with hl | hl
    · exact (by decide +kernel : ∀ l ∈ (lostDiff []).render, (¬ str "Index: " <+: l) ∧ l.length < 65535) l hl
    · obtain ⟨t, ht, rfl⟩ := ended_mem hl
      obtain ⟨_, h2, h3⟩ := hm t ht
      refine ⟨fun q => ?_, by simp; omega⟩
      rcases List.prefix_concat_iff.1 q with e | e
      · have : '\n' ∈ str "Index: " := by rw [e]; simp
        revert this; decide
      · exact h2 e
  refine ⟨?_, ?_, ?_, ?_, ?_, ⟨(by intro t ht; cases ht), (by intro t ts e; cases e)⟩, ?_, fun l hl => (hr l hl).2⟩
  · intro p hp
    rw [List.mem_singleton.1 hp]
    exact damageFile_ok (by decide) (by intro t ht; cases ht)
  · intro p hp t ht
    rw [List.mem_singleton.1 hp] at ht
    rcases List.mem_append.1 ht with q | q
    · rw [List.mem_singleton.1 q]; simp only [BetweenLine]; decide
    · exact (hm t q).1
  · intro ps p q qs e hne
    have := congrArg List.length e
    simp [lostDiff] at this
    omega
  · intro p ps e
    cases e
    exact ⟨fun t ht => (by cases ht), fun ⟨l, hl, h⟩ => absurd h (hr l hl).1⟩
  · intro p ps e q hq
    cases e; cases hq
  · intro ps p e _; rfl

example (win : Bool) (cmp : Str → Str → Int) (heap : Heap) :
    ∃ r r', parse win cmp heap (split (lostDiff damageMore).render.flatten) = Res.ok r ∧ parse win cmp heap (split (lostDiff []).render.flatten) = Res.ok r' ∧
      r.shown.Perm r'.shown ∧ (¬ SeparatorLine (str "garbage") → r.malformed = true ∧ r'.malformed = true) :=
  C77_lost_defect _ _ (lostDiff_ok _ damageMore_ok) (lostDiff_ok [] (by simp)) [] [] (damageFile [] "a") (str "garbage") damageMore [] rfl rfl (by decide) win cmp heap heap

/-- A file whose last changed line is missing, and another one after it: the second file is not shown, its hunk is shown in the first one. -/
example (win : Bool) (cmp : Str → Str → Int) (heap : Heap) :
    ∃ m h', parse win cmp heap (split (str "--- a\n+++ a\n@@ -1,2 +1,2 @@\n x\n--- b\n+++ b\n@@ -1,2 +1,2 @@\n x\n-old\n+new\n")) =
        Res.ok { models := some [m], malformed := false, heap := h' } ∧ m.source = str "a" ∧ m.hunks.length = 2 := by
  obtain ⟨m, h', h1, h2⟩ := C77_swallow_defect { src := { name := str "a" }, dst := { name := str "a" }, hunks := [] } (damageFile [] "b") damageHunk
    [.context [{ text := str "x" }]] { text := str "old" } { text := str "new" }
    ⟨plain_header (by decide), plain_header (by decide), (by intro h hh; cases hh), (by intro h hh; cases hh)⟩ (damageFile_ok (by decide) (by intro h hh; cases hh)) damageHunk_ok rfl rfl
    (by intro h hh; cases hh) (by rintro ⟨t, ht, _⟩; cases ht) (by decide +kernel) win cmp heap
  have et : str "--- a\n+++ a\n@@ -1,2 +1,2 @@\n x\n--- b\n+++ b\n@@ -1,2 +1,2 @@\n x\n-old\n+new\n" =
      (({ src := { name := str "a" }, dst := { name := str "a" }, hunks := [] } : UFile).render ++ damageHunk.header ::
        [Block.context [{ text := str "x" }]].flatMap Block.render ++ (damageFile [] "b").render).flatten := by decide +kernel
  refine ⟨m, h', by rw [et]; exact h1, ?_, ?_⟩
  · have := congrArg MView.source h2
    refine Eq.trans this ?_
    cases win <;> decide +kernel
  · have := congrArg (fun v => v.hunks.length) h2
    simpa [DModel.view, UFile.view, damageFile] using this

end KompareDiff2
