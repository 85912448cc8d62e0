import Verif.Proofs.Structure
import Verif.Proofs.ReadingContext
import Verif.Proofs.Truncated
import Verif.Props.Parser
/-
Property theorems about the parser on arbitrary input: C27, C29, C30.
-/
namespace KompareDiff2
open Spec

/-! ### C27 – the models returned are sound, whatever the input -/

/-- **C27.** Unified format, arbitrary lines: whenever models are returned, each has a difference; its differences are exactly the
changed ones of its hunks, in order; in a hunk each difference starts where the previous one ended, on both sides; unchanged
differences have equal sides and the types say which sides are empty; nothing is applied, unsaved or selected; no `Difference`
object is shared and none existed before. -/
theorem C27_unified_sound (win : Bool) (cmp : Str → Str → Int) (g : Generator) (heap : Heap) (lines : List Str) (r : ParseResult)
    (ms : List DModel) (hf : determineFormat g lines = .Unified) (h : parseLines win cmp g heap lines = Res.ok r)
    (hm : r.models = some ms) : ParsedModels HView.UnifiedOk heap r.heap ms := by
  have := parseLines_sound h ms hm
  rw [hf] at this
  exact this

/-- **C27.** Context format: the same, but a `Change` may have one empty side. -/
theorem C27_context_sound (win : Bool) (cmp : Str → Str → Int) (g : Generator) (heap : Heap) (lines : List Str) (r : ParseResult)
    (ms : List DModel) (hf : determineFormat g lines = .Context) (h : parseLines win cmp g heap lines = Res.ok r)
    (hm : r.models = some ms) : ParsedModels HView.ContextOk heap r.heap ms := by
  have := parseLines_sound h ms hm
  rw [hf] at this
  exact this

/-- **C27.** Normal format: every hunk has exactly one difference, at the position of the hunk. -/
theorem C27_normal_sound (win : Bool) (cmp : Str → Str → Int) (g : Generator) (heap : Heap) (lines : List Str) (r : ParseResult)
    (ms : List DModel) (hf : determineFormat g lines = .Normal) (h : parseLines win cmp g heap lines = Res.ok r)
    (hm : r.models = some ms) : ParsedModels HView.NormalOk heap r.heap ms := by
  have := parseLines_sound h ms hm
  rw [hf] at this
  exact this

/-- **C27.** `parse` on arbitrary lines: models are returned only for a unified, context or normal diff, and are sound as above. -/
theorem C27_parse_sound (win : Bool) (cmp : Str → Str → Int) (heap : Heap) (lines : List Str) (r : ParseResult)
    (ms : List DModel) (h : parse win cmp heap lines = Res.ok r) (hm : r.models = some ms) :
    ParsedModels HView.UnifiedOk heap r.heap ms ∨ ParsedModels HView.ContextOk heap r.heap ms ∨
      ParsedModels HView.NormalOk heap r.heap ms := by
  unfold parse at h
  obtain ⟨cl, _, h⟩ := Res.bind_eq_ok.1 h
  cases hf : determineFormat (determineGenerator lines) cl with
  | Unified => exact .inl (C27_unified_sound win cmp _ heap cl r ms hf h hm)
  | Context => exact .inr (.inl (C27_context_sound win cmp _ heap cl r ms hf h hm))
  | Normal => exact .inr (.inr (C27_normal_sound win cmp _ heap cl r ms hf h hm))
  | Ed => unfold parseLines at h; simp only [hf, Res.ok.injEq] at h; rw [← h] at hm; simp at hm
  | RCS => unfold parseLines at h; simp only [hf, Res.ok.injEq] at h; rw [← h] at hm; simp at hm
  | UnknownFormat => unfold parseLines at h; simp only [hf, Res.ok.injEq] at h; rw [← h] at hm; simp at hm

/-- The hypotheses of C27 are met: the diff of `exampleDiff` is parsed to models. -/
example (cmp : Str → Str → Int) (heap : Heap) :
    ∃ r ms, parse false cmp heap (split exampleDiff.render.flatten) = Res.ok r ∧ r.models = some ms ∧ ms ≠ [] := by
  obtain ⟨r, h, _, hr⟩ := C26_unified exampleDiff exampleDiff_ok (by simp [exampleDiff]) false cmp heap
  cases hms : r.models with
  | none =>
    rw [hms] at hr
    have hx : ∃ f ∈ exampleDiff.files, f.changes = true := by decide
    obtain ⟨f, hf, hc⟩ := hx
    rw [hr f hf] at hc
    exact absurd hc (by decide)
  | some ms => rw [hms] at hr; exact ⟨r, ms, h, hms, hr.1⟩

/-! ### C29 – undefined behaviour -/

/-- **C29.** Every input can be read in the sense of Spec/Reading.lean, as a unified and as a context diff. -/
theorem C29_every_input_has_a_reading (g : Generator) (lines : List Str) (hs : ∀ l ∈ lines, l.length < 65535) :
    (∃ stops out, Reading (unifiedOpening g) UnifiedHunks lines stops out) ∧
      ∃ stops out, Reading (contextOpening g) ContextHunks lines stops out := by
  have key : ∀ {hunks : PState → Res PState} {Hunks : List Str → Option (List Str) → Prop} (o : Opening), ReadsHunks hunks Hunks →
      ∃ stops out, Reading o (fun ls r => AllShort ls → Hunks ls r) lines stops out := by
    intro hunks Hunks o hk
    refine reading_total o (fun ls => ?_) lines
    by_cases h : AllShort ls
    · rcases hk.total ls h with h1 | ⟨rest, h1, h2⟩
      · exact .inl (fun _ => h1)
      · exact .inr ⟨rest, fun _ => h1, h2⟩
    · exact .inl (fun x => absurd x h)
  have keep : ∀ {hunks : PState → Res PState} {Hunks : List Str → Option (List Str) → Prop} (o : Opening), ReadsHunks hunks Hunks →
      (∀ ls r1 r2, Hunks ls r1 → Hunks ls r2 → r1 = r2) →
      ∀ {ls stops out}, Reading o (fun ls r => AllShort ls → Hunks ls r) ls stops out → AllShort ls → Reading o Hunks ls stops out := by
    intro hunks Hunks o hk hdet ls stops out hr
    have suf : ∀ ls rest, AllShort ls → Hunks ls (some rest) → rest <:+ ls := by
      intro ls rest hs h
      rcases hk { lines := ls, rest := ls, heap := { cell := fun _ => Diff.new 0 0, next := 0 }, cur := {}, models := [], single := false, malformed := false } hs with
        ⟨st', _, _, h3, h4⟩ | ⟨_, h2⟩
      · have := hdet _ _ _ h3 h
        simp only [Option.some.injEq] at this
        rw [← this]; exact h4
      · exact absurd (hdet _ _ _ h2 h) (by simp)
    induction hr with
    | finished ls h => intro _; exact .finished ls h
    | truncated pre l S h1 h2 h3 => intro _; exact .truncated pre l S h1 h2 h3
    | abandoned pre l l2 ls S h1 h2 h3 h4 => intro _; exact .abandoned pre l l2 ls S h1 h2 h3 h4
    | two pre l l2 ls rest S stops out h1 h2 h3 h4 h5 _ ih =>
      intro hs
      have hs' : AllShort ls := hs.suffix ⟨pre ++ [l, l2], by simp⟩
      exact .two pre l l2 ls rest S stops out h1 h2 h3 h4 (h5 hs') (ih (hs'.suffix (suf _ _ hs' (h5 hs'))))
    | one pre l ls rest stops out h1 h2 h3 h4 _ ih =>
      intro hs
      have hs' : AllShort ls := hs.suffix ⟨pre ++ [l], by simp⟩
      exact .one pre l ls rest stops out h1 h2 h3 (h4 hs') (ih (hs'.suffix (suf _ _ hs' (h4 hs'))))
    | badTwo pre l l2 ls S h1 h2 h3 h4 h5 =>
      intro hs
      exact .badTwo pre l l2 ls S h1 h2 h3 h4 (h5 (hs.suffix ⟨pre ++ [l, l2], by simp⟩))
    | badOne pre l ls h1 h2 h3 h4 =>
      intro hs
      exact .badOne pre l ls h1 h2 h3 (h4 (hs.suffix ⟨pre ++ [l], by simp⟩))
  constructor
  · obtain ⟨stops, out, h⟩ := key (unifiedOpening g) unifiedHunks_reads
    exact ⟨stops, out, keep _ unifiedHunks_reads (fun _ _ _ => unifiedHunks_det) h hs⟩
  · obtain ⟨stops, out, h⟩ := key (contextOpening g) contextHunks_reads
    exact ⟨stops, out, keep _ contextHunks_reads (fun _ _ _ => contextHunks_det) h hs⟩

/-- **C29.** Unified format: for lines of less than 65535 characters the parser leaves defined behaviour exactly if the reading says so,
that is if the input ends after the first line of a file header, or if an empty line follows the lines of a hunk. -/
theorem C29_unified_ub_iff (win : Bool) (cmp : Str → Str → Int) (g : Generator) (heap : Heap) (lines : List Str) (stops : List (List Str))
    (out : Outcome) (hf : determineFormat g lines = .Unified) (hs : ∀ l ∈ lines, l.length < 65535)
    (hr : Reading (unifiedOpening g) UnifiedHunks lines stops out) :
    parseLines win cmp g heap lines = Res.ub ↔ out = .undefined := by
  have := unifiedFiles_follows win g
    { lines := lines, rest := lines, heap := heap, cur := {}, models := [], single := false, malformed := false } hs hr
  unfold parseLines
  simp only [hf]
  unfold Follows at this
  cases out with
  | undefined => simp only at this; rw [this]; simp
  | finished => obtain ⟨st', h, _⟩ := this; rw [h]; simp
  | abandoned => obtain ⟨st', h, _⟩ := this; rw [h]; simp

/-- **C29.** The same for the context format: undefined exactly if the input ends after the first line of a file header or inside the
old section of a hunk. -/
theorem C29_context_ub_iff (win : Bool) (cmp : Str → Str → Int) (g : Generator) (heap : Heap) (lines : List Str) (stops : List (List Str))
    (out : Outcome) (hf : determineFormat g lines = .Context) (hs : ∀ l ∈ lines, l.length < 65535)
    (hr : Reading (contextOpening g) ContextHunks lines stops out) :
    parseLines win cmp g heap lines = Res.ub ↔ out = .undefined := by
  have := contextFiles_follows win g
    { lines := lines, rest := lines, heap := heap, cur := {}, models := [], single := false, malformed := false } hs hr
  unfold parseLines
  simp only [hf]
  unfold Follows at this
  cases out with
  | undefined => simp only at this; rw [this]; simp
  | finished => obtain ⟨st', h, _⟩ := this; rw [h]; simp
  | abandoned => obtain ⟨st', h, _⟩ := this; rw [h]; simp

/-- **C29.** Every other format (normal, ed, RCS, unknown): never undefined, whatever the lines are. -/
theorem C29_other_formats_defined (win : Bool) (cmp : Str → Str → Int) (g : Generator) (heap : Heap) (lines : List Str)
    (h1 : determineFormat g lines ≠ .Unified) (h2 : determineFormat g lines ≠ .Context) :
    ∃ r, parseLines win cmp g heap lines = Res.ok r := by
  unfold parseLines
  simp only
  split
  · rename_i e; exact absurd e h2
  · cases h : normalFiles win g { lines := lines, rest := lines, heap := heap, cur := {}, models := [], single := false, malformed := false } with
    | ub => exact absurd h (normalFiles_defined _ _ _)
    | hang => exact absurd h (normalFiles_ends _ _ _)
    | ok st => exact ⟨_, rfl⟩
  · rename_i e; exact absurd e h1
  · exact ⟨_, rfl⟩

theorem unifiedHunks_none {ls : List Str} {r : Option (List Str)} (h : UnifiedHunks ls r) (hr : r = none) : [] ∈ ls := by
  induction h with
  | stop ls _ => simp at hr
  | skipped l ls n m r _ _ _ ih => simp [ih hr]
  | hunk l ls rest n m r _ _ _ hb _ _ ih => exact List.mem_cons_of_mem _ ((unifiedBody_suffix hb).subset (ih hr))
  | empty l ls more n m _ _ _ hb => exact List.mem_cons_of_mem _ ((unifiedBody_suffix hb).subset (by simp))

theorem unifiedHunks_suffix {ls : List Str} {r : Option (List Str)} (h : UnifiedHunks ls r) : ∀ rest, r = some rest → rest <:+ ls := by
  induction h with
  | stop ls _ => intro rest e; simp only [Option.some.injEq] at e; rw [e]; exact List.suffix_refl _
  | skipped l ls n m r _ _ _ ih => intro rest e; exact (ih rest e).trans (List.suffix_cons _ _)
  | hunk l ls rest n m r _ _ _ hb _ _ ih => intro rest e; exact ((ih rest e).trans (unifiedBody_suffix hb)).trans (List.suffix_cons _ _)
  | empty l ls more n m _ _ _ hb => intro rest e; simp at e

theorem reading_undefined {o : Opening} {ls : List Str} {stops : List (List Str)} {out : Outcome} (h : Reading o UnifiedHunks ls stops out)
    (he : [] ∉ ls) (ho : out = .undefined) : o.second ≠ none ∧ ∃ pre l, ls = pre ++ [l] ∧ o.first l := by
  have step : ∀ ls rest, UnifiedHunks ls (some rest) → [] ∉ ls → [] ∉ rest := fun ls rest h1 h2 h3 => h2 ((unifiedHunks_suffix h1 rest rfl).subset h3)
  have app : ∀ pre ls : List Str, [] ∉ pre ++ ls → [] ∉ ls := by intro pre ls h h'; exact h (by simp [h'])
  have lift : ∀ a b : List Str, a <:+ b → (∃ pre l, a = pre ++ [l] ∧ o.first l) → ∃ pre l, b = pre ++ [l] ∧ o.first l := by
    rintro a b ⟨c, rfl⟩ ⟨pre, l, rfl, hl⟩; exact ⟨c ++ pre, l, by simp, hl⟩
  induction h with
  | finished => simp at ho
  | abandoned => simp at ho
  | truncated pre l S h1 _ h3 => exact ⟨by rw [h1]; simp, pre, l, rfl, h3⟩
  | two pre l l2 ls rest S stops out h1 h2 h3 h4 h5 _ ih =>
    have e : pre ++ l :: l2 :: ls = (pre ++ [l, l2]) ++ ls := by simp
    rw [e] at he ⊢
    have h7 := ih (step _ _ h5 (app _ _ he)) ho
    exact ⟨h7.1, lift _ _ ((unifiedHunks_suffix h5 _ rfl).trans (List.suffix_append _ _)) h7.2⟩
  | one pre l ls rest stops out h1 h2 h3 h4 _ ih =>
    have e : pre ++ l :: ls = (pre ++ [l]) ++ ls := by simp
    rw [e] at he ⊢
    have h7 := ih (step _ _ h4 (app _ _ he)) ho
    exact ⟨h7.1, lift _ _ ((unifiedHunks_suffix h4 _ rfl).trans (List.suffix_append _ _)) h7.2⟩
  | badTwo pre l l2 ls S h1 h2 h3 h4 h5 => exact absurd (unifiedHunks_none h5 rfl) (fun h => he (by simp [h]))
  | badOne pre l ls h1 h2 h3 h4 => exact absurd (unifiedHunks_none h4 rfl) (fun h => he (by simp [h]))

/-- **C29.** Unified format, any list of lines without an empty string and without a line of 65535 or more characters: if the last line is
not the first line of a file header (or the generator is Perforce) the parser returns. -/
theorem C29_unified_defined (win : Bool) (cmp : Str → Str → Int) (g : Generator) (heap : Heap) (lines : List Str)
    (hf : determineFormat g lines = .Unified) (hs : ∀ l ∈ lines, l ≠ [] ∧ l.length < 65535)
    (hl : g = .Perforce ∨ ∀ l, lines.getLast? = some l → ¬ UnifiedHeaderLine "--- " l) :
    ∃ r, parseLines win cmp g heap lines = Res.ok r := by
  have hs' : ∀ l ∈ lines, l.length < 65535 := fun l h => (hs l h).2
  obtain ⟨stops, out, hr⟩ := (C29_every_input_has_a_reading g lines hs').1
  have hiff := C29_unified_ub_iff win cmp g heap lines stops out hf hs' hr
  have hne : out ≠ .undefined := by
    intro ho
    obtain ⟨h1, pre, l, h2, h3⟩ := reading_undefined hr (fun h => (hs [] h).1 rfl) ho
    rcases hl with rfl | hl
    · exact h1 rfl
    · refine hl l (by rw [h2]; simp) ?_
      cases g with
      | Perforce => exact absurd rfl h1
      | Diff => exact h3
      | CVSDiff => exact h3
  cases h : parseLines win cmp g heap lines with
  | ub => exact absurd (hiff.1 h) hne
  | ok r => exact ⟨r, rfl⟩
  | hang =>
    exfalso
    unfold parseLines at h
    simp only [hf] at h
    exact (Res.Ends.bind (unifiedFiles_ends win g _) (fun _ _ => Res.Ends.ok _)) h

/-- **C29.** The same from the text: `parse` returns on the lines of every text without "no newline" remarks and over-long lines whose
format is unified and whose last line does not begin with `--- `. -/
theorem C29_text_defined (win : Bool) (cmp : Str → Str → Int) (heap : Heap) (text : Str) (hm : ∀ l ∈ split text, ¬ Remark l)
    (hs : ∀ l ∈ split text, l.length < 65535) (hf : determineFormat (determineGenerator (split text)) (split text) = .Unified)
    (hl : ∀ l, (split text).getLast? = some l → ¬ str "--- " <+: l) : ∃ r, parse win cmp heap (split text) = Res.ok r := by
  unfold parse
  rw [C23_clean_plain _ hm]
  refine C29_unified_defined win cmp _ heap _ hf (fun l h => ⟨?_, hs l h⟩) (.inr ?_)
  · have : ∀ acc s, [] ∉ splitAux acc s := by
      intro acc s
      induction s generalizing acc with
      | nil => unfold splitAux; split <;> simp_all
      | cons c s ih => unfold splitAux; split <;> simp [ih]
    rintro rfl; exact this [] text h
  · rintro l h ⟨name, tail, rfl, _⟩
    exact hl _ h ⟨name ++ tail ++ ['\n'], by simp⟩

/-- **C29 (defect).** A well-formed unified diff of at least one file followed by the first header line of another file: the parser reads
behind the end of the input. -/
theorem C29_truncated_header_ub (d : UDiff) (ok : d.Ok) (hne : d.files ≠ []) (ht : d.trailer = []) (h : Header) (hok : h.Ok) (win : Bool)
    (cmp : Str → Str → Int) (heap : Heap) : parse win cmp heap (d.render ++ [str "--- " ++ h.render]) = Res.ub :=
  parse_truncated d ok hne ht h hok win cmp heap

/-- **C29 (defect).** A context diff that ends in the old section of a hunk: the parser reads behind the end of the input. -/
theorem C29_context_truncated_ub (win : Bool) (cmp : Str → Str → Int) (heap : Heap) (l1 l2 l3 l4 : Str) (old : List Str)
    (h1 : ContextHeaderLine "*** " l1) (h2 : ContextHeaderLine "--- " l2) (h3 : StarLine l3) (h4 : OldRange l4)
    (ho : ∀ x ∈ old, SectionLine x) (hs : ∀ l ∈ l1 :: l2 :: l3 :: l4 :: old, l.length < 65535) :
    parseLines win cmp .Diff heap (l1 :: l2 :: l3 :: l4 :: old) = Res.ub := by
  have hf : determineFormat .Diff (l1 :: l2 :: l3 :: l4 :: old) = .Context := by
    obtain ⟨name, tail, rfl, _⟩ := h1
    simp only [determineFormat, lineFormat, formatPatterns, List.append_assoc, str]
    rfl
  refine (C29_context_ub_iff win cmp .Diff heap _ [] .undefined hf hs ?_).2 rfl
  exact Reading.badTwo [] l1 l2 _ (ContextHeaderLine "--- ") rfl (by simp) h1 h2 (.truncated l3 l4 old h3 h4 ho)

/-- The hypotheses of the C29 theorems are met: a context diff cut off in the old section. -/
example (cmp : Str → Str → Int) (heap : Heap) :
    parseLines false cmp .Diff heap [str "*** a\n", str "--- b\n", str "***************\n", str "*** 1,2 ****\n", str "- x\n"] = Res.ub := by
  refine C29_context_truncated_ub false cmp heap _ _ _ _ [str "- x\n"] ?_ ?_ ?_ ?_ ?_ ?_
  · exact ⟨str "a", [], by decide, by decide, by decide, .inl rfl⟩
  · exact ⟨str "b", [], by decide, by decide, by decide, .inl rfl⟩
  · exact ⟨[], by decide, by simp⟩
  · refine ⟨str "1", str "2", [], by decide, ⟨by decide, ?_⟩, ⟨by decide, ?_⟩, by simp⟩ <;>
    · intro d hd; simp [str] at hd; subst hd; exact ⟨by decide, by decide⟩
  · intro x hx
    simp only [List.mem_singleton] at hx
    subst hx
    exact ⟨'-', ['x'], by decide, .inr (.inl rfl), by decide⟩
  · decide

/-! ### C30 – the malformed flag -/

/-- **C30.** Unified format, any lines of less than 65535 characters on which the parser returns: `malformed` is set exactly if after the
hunks of some file the next line exists and is neither a file header nor begins with `Index: `, `diff ` or `-- `. -/
theorem C30_unified_malformed_iff (win : Bool) (cmp : Str → Str → Int) (g : Generator) (heap : Heap) (lines : List Str) (stops : List (List Str))
    (out : Outcome) (r : ParseResult) (hf : determineFormat g lines = .Unified) (hs : ∀ l ∈ lines, l.length < 65535)
    (hr : Reading (unifiedOpening g) UnifiedHunks lines stops out) (h : parseLines win cmp g heap lines = Res.ok r) :
    r.malformed = true ↔ ∃ rest ∈ stops, BadStop (unifiedOpening g) rest := by
  have := unifiedFiles_follows win g
    { lines := lines, rest := lines, heap := heap, cur := {}, models := [], single := false, malformed := false } hs hr
  unfold parseLines at h
  simp only [hf] at h
  obtain ⟨st, h1, h2⟩ := Res.bind_eq_ok.1 h
  simp only [Res.ok.injEq] at h2
  rw [← h2]
  unfold Follows at this
  rw [h1] at this
  cases out with
  | undefined => simp at this
  | finished => obtain ⟨st', h, hi⟩ := this; simp only [Res.ok.injEq] at h; subst h; show st.malformed = true ↔ _; simpa using hi
  | abandoned => obtain ⟨st', h, hi⟩ := this; simp only [Res.ok.injEq] at h; subst h; show st.malformed = true ↔ _; simpa using hi

/-- **C30.** The same for the context format. -/
theorem C30_context_malformed_iff (win : Bool) (cmp : Str → Str → Int) (g : Generator) (heap : Heap) (lines : List Str) (stops : List (List Str))
    (out : Outcome) (r : ParseResult) (hf : determineFormat g lines = .Context) (hs : ∀ l ∈ lines, l.length < 65535)
    (hr : Reading (contextOpening g) ContextHunks lines stops out) (h : parseLines win cmp g heap lines = Res.ok r) :
    r.malformed = true ↔ ∃ rest ∈ stops, BadStop (contextOpening g) rest := by
  have := contextFiles_follows win g
    { lines := lines, rest := lines, heap := heap, cur := {}, models := [], single := false, malformed := false } hs hr
  unfold parseLines at h
  simp only [hf] at h
  obtain ⟨st, h1, h2⟩ := Res.bind_eq_ok.1 h
  simp only [Res.ok.injEq] at h2
  rw [← h2]
  unfold Follows at this
  rw [h1] at this
  cases out with
  | undefined => simp at this
  | finished => obtain ⟨st', h, hi⟩ := this; simp only [Res.ok.injEq] at h; subst h; show st.malformed = true ↔ _; simpa using hi
  | abandoned => obtain ⟨st', h, hi⟩ := this; simp only [Res.ok.injEq] at h; subst h; show st.malformed = true ↔ _; simpa using hi

/-- A header line of a unified diff shows the format. -/
theorem format_of_header {l : Str} {ls : List Str} (h : UnifiedHeaderLine "--- " l) : determineFormat .Diff (l :: ls) = .Unified := by
  obtain ⟨name, tail, rfl, _⟩ := h
  simp only [determineFormat, lineFormat, formatPatterns, List.append_assoc, str]
  rfl

/-- **C30 (defect).** A hunk cut off by the end of the input is not reported: whatever number of lines the header announces, if the
input ends before all of them were read, `malformed` stays false. -/
theorem C30_truncated_hunk_not_flagged (win : Bool) (cmp : Str → Str → Int) (heap : Heap) (l1 l2 l3 : Str) (body : List Str) (n m : Nat)
    (h1 : UnifiedHeaderLine "--- " l1) (h2 : UnifiedHeaderLine "+++ " l2) (h3 : HunkHeaderLine l3 n m) (hn : n ≤ intMax) (hm : m ≤ intMax)
    (hb : UnifiedBody n m body []) (hs : ∀ l ∈ l1 :: l2 :: l3 :: body, l.length < 65535) :
    ∃ r, parseLines win cmp .Diff heap (l1 :: l2 :: l3 :: body) = Res.ok r ∧ r.malformed = false := by
  have hr : Reading (unifiedOpening .Diff) UnifiedHunks (l1 :: l2 :: l3 :: body) [[]] .finished :=
    Reading.two [] l1 l2 _ [] (UnifiedHeaderLine "+++ ") [] .finished rfl (by simp) h1 h2
      (.hunk l3 body [] n m _ h3 hn hm hb (by simp) (.stop [] (by simp))) (.finished [] (by simp))
  have hf := format_of_header (ls := l2 :: l3 :: body) h1
  have hiff := C29_unified_ub_iff win cmp .Diff heap _ _ _ hf hs hr
  cases h : parseLines win cmp .Diff heap (l1 :: l2 :: l3 :: body) with
  | ub => exact absurd (hiff.1 h) (by simp)
  | hang =>
    exfalso
    unfold parseLines at h
    simp only [hf] at h
    exact (Res.Ends.bind (unifiedFiles_ends win .Diff _) (fun _ _ => Res.Ends.ok _)) h
  | ok r =>
    refine ⟨r, rfl, ?_⟩
    have := C30_unified_malformed_iff win cmp .Diff heap _ _ _ r hf hs hr h
    rw [Bool.eq_false_iff, ne_eq, this]
    simp [BadStop]

/-- **C30 (defect).** A `--- ` header line not followed by a `+++ ` line ends the parsing without any report: nothing after it is read and
`malformed` stays as it was. -/
theorem C30_broken_header_not_flagged (win : Bool) (cmp : Str → Str → Int) (heap : Heap) (l1 l2 : Str) (more : List Str)
    (h1 : UnifiedHeaderLine "--- " l1) (h2 : ¬ UnifiedHeaderLine "+++ " l2) (hs : ∀ l ∈ l1 :: l2 :: more, l.length < 65535) :
    ∃ r, parseLines win cmp .Diff heap (l1 :: l2 :: more) = Res.ok r ∧ r.malformed = false ∧ r.models = none := by
  have hf := format_of_header (ls := l2 :: more) h1
  have hh := (unifiedHeader_reads win .Diff).abandoned
    { lines := l1 :: l2 :: more, rest := l1 :: l2 :: more, heap := heap, cur := {}, models := [], single := false, malformed := false } [] l1 l2 more
    (UnifiedHeaderLine "+++ ") rfl rfl (by simp) h1 h2
  obtain ⟨st', h, hmal⟩ := hh
  have hstep := (unifiedHeader_step h).models
  refine ⟨finishParse cmp st', ?_, ?_, ?_⟩
  · unfold parseLines
    simp only [hf, unifiedFiles, fileLoop, h]
    rfl
  · exact hmal
  · simp [finishParse, hstep]

/-- The hypotheses of C30 are met: a hunk that announces three lines and has one. -/
example (cmp : Str → Str → Int) (heap : Heap) :
    ∃ r, parseLines false cmp .Diff heap [str "--- a\n", str "+++ b\n", str "@@ -1,3 +1 @@\n", str "-x\n"] = Res.ok r ∧ r.malformed = false := by
  have hd : ∀ s : Str, s ≠ [] → (∀ d ∈ s, '0' ≤ d ∧ d ≤ '9') → Digits s := fun s h1 h2 => ⟨h1, h2⟩
  refine C30_truncated_hunk_not_flagged false cmp heap _ _ _ [str "-x\n"] 3 1 ?_ ?_ ?_ (by decide) (by decide) ?_ ?_
  · exact ⟨str "a", [], by decide, by decide, by decide, .inl rfl⟩
  · exact ⟨str "b", [], by decide, by decide, by decide, .inl rfl⟩
  · refine ⟨str "1", str "1", str ",3", [], [], by decide, hd _ (by decide) (by decide), hd _ (by decide) (by decide), by simp, ?_, .inl ⟨rfl, rfl⟩⟩
    exact .inr ⟨str "3", by decide, hd _ (by decide) (by decide), by decide⟩
  · exact .old _ _ (str "x\n") _ _ (by simp) (.other _ _ _ (by simp))
  · decide

end KompareDiff2
