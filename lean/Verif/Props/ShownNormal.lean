import Verif.Proofs.ShownNormal
import Verif.Props.ParserSound
import Verif.Props.ShownContext
/-
C72: what is shown of an arbitrary normal diff.
-/
namespace KompareDiff2
open Spec

/-- **C72.** Normal format: what the parser returns for arbitrary lines is what the lines show according to Spec/ShownNormal.lean.  No list
of files is returned exactly if the lines show none. -/
theorem C72_normal_shown (win : Bool) (cmp : Str → Str → Int) (g : Generator) (heap : Heap) (lines : List Str) (r : ParseResult)
    (hf : determineFormat g lines = .Normal) (h : parseLines win cmp g heap lines = Res.ok r) :
    ∃ ms, NormalFiles (unescapePath win) g lines ms ∧ r.shown.Perm ms ∧ (r.models = none ↔ ms = []) := by
  unfold parseLines at h
  simp only [hf] at h
  obtain ⟨st, hst, h⟩ := Res.bind_eq_ok.1 h
  simp only [Res.ok.injEq] at h
  rw [← h]
  obtain ⟨ms, h1, h2⟩ := normalFiles_shown (start_found _ heap lines) rfl rfl hst
  simp only [List.map_nil, List.nil_append] at h2
  obtain ⟨k1, k2⟩ := finishParse_shown cmp st
  refine ⟨ms, h1, by rw [← h2]; exact k1, ?_⟩
  rw [k2, ← h2]; simp

/-- **C72.** Parsing a normal diff always ends, without undefined behaviour. -/
theorem C72_normal_defined (win : Bool) (cmp : Str → Str → Int) (g : Generator) (heap : Heap) (lines : List Str)
    (hf : determineFormat g lines = .Normal) : ∃ r, parseLines win cmp g heap lines = Res.ok r := by
  unfold parseLines
  simp only [hf]
  cases h : normalFiles win g { lines := lines, rest := lines, heap := heap, cur := {}, models := [], single := false, malformed := false } with
  | ub => exact absurd h (normalFiles_defined _ _ _)
  | hang => exact absurd h (normalFiles_ends _ _ _)
  | ok st => exact ⟨_, rfl⟩

/-- **C72.** There is only one way to read the lines. -/
theorem C72_normal_once (unesc : Str → Str) (g : Generator) (lines : List Str) (ms ms' : List MView) (h : NormalFiles unesc g lines ms)
    (h' : NormalFiles unesc g lines ms') : ms = ms' := normalFiles_det h h'

/-- **C72.** So whatever the lines show is what is returned. -/
theorem C72_normal_exact (win : Bool) (cmp : Str → Str → Int) (g : Generator) (heap : Heap) (lines : List Str) (ms : List MView)
    (hf : determineFormat g lines = .Normal) (hs : NormalFiles (unescapePath win) g lines ms) :
    ∃ r, parseLines win cmp g heap lines = Res.ok r ∧ r.shown.Perm ms ∧ (r.models = none ↔ ms = []) := by
  obtain ⟨r, h⟩ := C72_normal_defined win cmp g heap lines hf
  obtain ⟨ms', h1, h2⟩ := C72_normal_shown win cmp g heap lines r hf h
  rw [C72_normal_once _ _ _ _ _ hs h1]
  exact ⟨r, h, h2⟩

/-- **C72.** The whole parser: the same of the lines without the remarks about missing line ends. -/
theorem C72_normal_parse (win : Bool) (cmp : Str → Str → Int) (heap : Heap) (lines : List Str) (r : ParseResult)
    (hf : ∀ cleaned, cleanUpCrap lines = Res.ok cleaned → determineFormat (determineGenerator lines) cleaned = .Normal)
    (h : parse win cmp heap lines = Res.ok r) :
    ∃ cleaned ms, cleanUpCrap lines = Res.ok cleaned ∧ NormalFiles (unescapePath win) (determineGenerator lines) cleaned ms ∧ r.shown.Perm ms ∧
      (r.models = none ↔ ms = []) := by
  unfold parse at h
  obtain ⟨cleaned, hc, h⟩ := Res.bind_eq_ok.1 h
  obtain ⟨ms, h1, h2⟩ := C72_normal_shown win cmp _ heap cleaned r (hf cleaned hc) h
  exact ⟨cleaned, ms, hc, h1, h2⟩

/-- **C72.** Nothing is invented or shown twice: in some order, the returned files are, if there are any, one without names, whose hunks
stand at the beginning of the lines, and others that stand after them one after the other without overlap, each with a header that holds
its names, and its hunks. -/
theorem C72_normal_stands (win : Bool) (cmp : Str → Str → Int) (g : Generator) (heap : Heap) (lines : List Str) (r : ParseResult)
    (hf : determineFormat g lines = .Normal) (h : parseLines win cmp g heap lines = Res.ok r) :
    ∃ hs fs rest, r.shown.Perm (nameless.shown hs ++ fs) ∧ HunksStand NormalText hs lines rest ∧
      FilesStand (normalForm (unescapePath win) g) NormalText fs rest := by
  obtain ⟨ms, ⟨fs, h1, h2⟩, h3, _⟩ := C72_normal_shown win cmp g heap lines r hf h
  have hst : ∀ ls hs rest, NormalShown ls hs rest → rest <:+ ls ∧ (hs ≠ [] → ∃ r, HunksStand NormalText hs ls r ∧ rest <:+ r) :=
    fun ls hs rest k => ⟨hunksStand_suffix (normalShown_stands k), fun _ => ⟨rest, normalShown_stands k, List.suffix_refl _⟩⟩
  rcases h2 with ⟨hg, rfl⟩ | ⟨hg, hs, rest, k, rfl⟩
  · exact ⟨[], ms, lines, h3, .nil _, filesStand_shows hst h1⟩
  · refine ⟨hs, fs, rest, h3.trans List.perm_append_comm, normalShown_stands k, ?_⟩
    exact filesStand_shows hst (shows_after_top hg k h1)

/-- **C72.** Every line of a difference that is shown is a line of the text with its mark. -/
theorem C72_normal_lines (win : Bool) (cmp : Str → Str → Int) (g : Generator) (heap : Heap) (lines : List Str) (r : ParseResult)
    (hf : determineFormat g lines = .Normal) (h : parseLines win cmp g heap lines = Res.ok r) (m : MView) (hm : m ∈ r.shown) (k : HView) (hk : k ∈ m.hunks)
    (v : DView) (hv : v ∈ k.diffs) : (∀ t ∈ v.src, markedLine '<' t ∈ lines) ∧ (∀ t ∈ v.dst, markedLine '>' t ∈ lines) := by
  obtain ⟨hs, fs, rest, h1, h2, h3⟩ := C72_normal_stands win cmp g heap lines r hf h
  have text : ∀ (k : HView) (t : List Str), NormalText k t → ∀ v ∈ k.diffs, (∀ s ∈ v.src, markedLine '<' s ∈ t) ∧ (∀ s ∈ v.dst, markedLine '>' s ∈ t) := by
    rintro k t ⟨l, w, e, _, ⟨rfl, _⟩ | ⟨_, rfl⟩⟩ v hv
    · rw [e, List.mem_singleton] at hv
      subst hv
      exact ⟨fun s hs => by simp only [List.cons_append, List.mem_cons, List.mem_append]; exact .inr (.inl (List.mem_map.2 ⟨s, hs, rfl⟩)), fun s hs => by simp only [List.cons_append, List.mem_cons, List.mem_append]; exact .inr (.inr (List.mem_map.2 ⟨s, hs, rfl⟩))⟩
    · rw [e, List.mem_singleton] at hv
      subst hv
      exact ⟨fun s hs => by simp only [List.cons_append, List.mem_cons, List.mem_append]; exact .inr (.inl (List.mem_map.2 ⟨s, hs, rfl⟩)), fun s hs => by simp only [List.cons_append, List.mem_cons, List.mem_append]; exact .inr (.inr (.inr (List.mem_map.2 ⟨s, hs, rfl⟩)))⟩
  have hunks : ∀ (hs : List HView) (ls rest : List Str), HunksStand NormalText hs ls rest → ∀ k ∈ hs, ∀ v ∈ k.diffs,
      (∀ s ∈ v.src, markedLine '<' s ∈ ls) ∧ (∀ s ∈ v.dst, markedLine '>' s ∈ ls) := by
    intro hs ls rest h
    induction h with
    | nil => simp
    | cons gap t ls rest k hs h1 _ ih =>
      intro k' hk' v hv
      rcases List.mem_cons.1 hk' with rfl | hk'
      · have := text _ _ h1 v hv
        exact ⟨fun s hs => by simp [this.1 s hs], fun s hs => by simp [this.2 s hs]⟩
      · have := ih k' hk' v hv
        exact ⟨fun s hs => by simp [this.1 s hs], fun s hs => by simp [this.2 s hs]⟩
  have files : ∀ (fs : List MView) (ls : List Str), FilesStand (normalForm (unescapePath win) g) NormalText fs ls → ∀ m ∈ fs, ∀ k ∈ m.hunks, ∀ v ∈ k.diffs,
      (∀ s ∈ v.src, markedLine '<' s ∈ ls) ∧ (∀ s ∈ v.dst, markedLine '>' s ∈ ls) := by
    intro fs ls h
    induction h with
    | nil => simp
    | cons gap hdr ls rest f hs ms _ h1 _ ih =>
      intro m hm k hk v hv
      rcases List.mem_cons.1 hm with rfl | hm
      · have := hunks _ _ _ h1 k hk v hv
        exact ⟨fun s hs => by simp [this.1 s hs], fun s hs => by simp [this.2 s hs]⟩
      · have := ih m hm k hk v hv
        have sub := (hunksStand_suffix h1).subset
        exact ⟨fun s hs => by simp [sub (this.1 s hs)], fun s hs => by simp [sub (this.2 s hs)]⟩
  rcases List.mem_append.1 (h1.mem_iff.1 hm) with hm | hm
  · unfold FileNames.shown at hm
    split at hm
    · simp at hm
    · rw [List.mem_singleton] at hm
      subst hm
      exact hunks _ _ _ h2 k hk v hv
  · have := files _ _ h3 m hm k hk v hv
    have sub := (hunksStand_suffix h2).subset
    exact ⟨fun s hs => sub (this.1 s hs), fun s hs => sub (this.2 s hs)⟩

/-! ### The hypotheses are met -/

/-- A command without a file, a file with an incomplete command, and rubbish after it. -/
def oddNormal : List Str :=
  [str "1a2\n", str "> x\n", str "diff -r a b\n", str "3,4c5\n", str "< u\n", str "oops\n"]

/-- The hunk of the command without a file. -/
def oddNormalTop : HView :=
  { srcLine := 1, dstLine := 2, function := [], type := .Normal
    diffs := [{ type := .Insert, srcLine := 1, dstLine := 2, tracking := 1, src := [], dst := [str "x"], applied := false, unsaved := false, conflicts := false }] }

/-- The hunk of the other. -/
def oddNormalHunk : HView :=
  { srcLine := 3, dstLine := 5, function := [], type := .Normal
    diffs := [{ type := .Change, srcLine := 3, dstLine := 5, tracking := 3, src := [str "u"], dst := [], applied := false, unsaved := false, conflicts := false }] }

/-- What is shown of it. -/
def oddNormalShown : List MView :=
  [FileNames.view { source := str "a", destination := str "b" } [oddNormalHunk], nameless.view [oddNormalTop]]

theorem not_command_head {l : Str} (h : ∀ x, l.head? = some x → ¬ Digit x) : ¬ CommandLine l := by
  rintro ⟨ty, x, y, a, e, c, b, t, rfl, ha, _⟩
  cases a with
  | nil => exact ha.1 rfl
  | cons d a => exact h d rfl (ha.2 d (by simp))

theorem option_r : OptionWord (str "-r") := ⟨['r'], by simp, fun x hx => by simp only [List.mem_singleton] at hx; subst hx; exact .inl (by decide), .inl rfl⟩

theorem oddNormal_shows : NormalFiles (unescapePath false) .Diff oddNormal oddNormalShown := by
  have hd : ∀ s : Str, s ≠ [] → (∀ d ∈ s, '0' ≤ d ∧ d ≤ '9') → Digits s := fun s h1 h2 => ⟨h1, h2⟩
  have nofirst : ∀ l : Str, ¬ str "diff " <+: l → ¬ DiffHeaderLine l := by
    rintro l h ⟨r, rfl, _⟩
    exact h ⟨r ++ ['\n'], by simp⟩
  refine ⟨[FileNames.view { source := str "a", destination := str "b" } [oddNormalHunk]], ?_, .inr ⟨by simp, [oddNormalTop], oddNormal.drop 2, ?_, rfl⟩⟩
  · refine ShowsFiles.file [str "1a2\n", str "> x\n"] [str "diff -r a b\n"] (oddNormal.drop 3) [str "oops\n"]
      { source := str "a", destination := str "b" } [oddNormalHunk] [] ?_ ?_ ?_ ?_
    · intro x hx
      simp only [List.mem_cons, List.not_mem_nil, or_false] at hx
      rcases hx with rfl | rfl <;> exact nofirst _ (by decide)
    · refine ⟨_, str "a", str "b", rfl, ⟨[str "-r"], by decide, ?_, by decide, by decide, by decide, ?_⟩, by decide, by decide, rfl, rfl⟩
      · intro w hw
        simp only [List.mem_singleton] at hw
        subst hw; exact option_r
      · rintro w ⟨n, hn, _, rfl | rfl⟩ hp
        · simp [str] at hp
        · simp [str] at hp
    · refine NormalShown.hunk (str "3,4c5\n") [str "< u\n", str "oops\n"] [str "oops\n"] oddNormalHunk _ [] [str "oops\n"] ?_ ?_ rfl rfl ?_ (.stop _ ?_)
      · exact ⟨str "3", str ",4", 'c', str "5", [], by decide, hd _ (by decide) (by decide), .inr ⟨str "4", by decide, hd _ (by decide) (by decide)⟩,
          hd _ (by decide) (by decide), by decide, by simp, by decide, by decide, .inr (.inr ⟨rfl, rfl⟩)⟩
      · exact .undivided _ _ rfl ⟨by decide, by decide, not_begins_head (by decide)⟩ rfl (by decide)
      · exact ⟨rfl, _, rfl, rfl, rfl, ⟨rfl, rfl, rfl, rfl⟩, by simp, by simp, by simp⟩
      · intro l hl
        simp only [List.head?_cons, Option.some.injEq] at hl
        subst hl
        exact not_command_head (by intro x hx; simp [str] at hx; subst hx; unfold Digit; decide)
    · refine .finished _ ?_
      intro x hx
      simp only [List.mem_singleton] at hx
      subst hx
      exact nofirst _ (by decide)
  · refine NormalShown.hunk (str "1a2\n") (oddNormal.drop 1) (oddNormal.drop 2) oddNormalTop _ [] _ ?_ ?_ rfl rfl ?_ (.stop _ ?_)
    · exact ⟨str "1", [], 'a', str "2", [], by decide, hd _ (by decide) (by decide), .inl rfl, hd _ (by decide) (by decide), by decide, by simp, by decide, by decide,
        .inl ⟨rfl, rfl, rfl⟩⟩
    · exact .insert _ _ rfl rfl ⟨by decide, by decide, not_begins_head (by decide)⟩
    · exact ⟨rfl, _, rfl, rfl, rfl, ⟨rfl, rfl, rfl, rfl⟩, by simp, by simp, by simp⟩
    · intro l hl
      simp only [oddNormal, List.drop, List.head?_cons, Option.some.injEq] at hl
      subst hl
      exact not_command_head (by intro x hx; simp [str] at hx; subst hx; unfold Digit; decide)

/-- The parser returns exactly this. -/
example (cmp : Str → Str → Int) (heap : Heap) : ∃ r, parseLines false cmp .Diff heap oddNormal = Res.ok r ∧ r.shown.Perm oddNormalShown ∧ r.models ≠ none := by
  obtain ⟨r, h1, h2, h3⟩ := C72_normal_exact false cmp .Diff heap oddNormal oddNormalShown (by decide) oddNormal_shows
  exact ⟨r, h1, h2, fun h => by simpa [oddNormalShown] using h3.1 h⟩

end KompareDiff2
