import Verif.Proofs.UnifiedFile
import Verif.Proofs.Lines
/-
A whole unified diff: cleaning, generator, format, and the result of the parser.
-/
namespace KompareDiff2
open Spec Re

/-! ### Cleaning -/

/-- Cleaning turns `raw` into `clean`, wherever it occurs. -/
def Cleans (raw clean : List Str) : Prop :=
  ∀ before rest, cleanUpLoop before (raw ++ rest) = cleanUpLoop (before ++ clean) rest

theorem Cleans.nil : Cleans [] [] := by intro b r; simp
theorem Cleans.append {a b c d : List Str} (h1 : Cleans a b) (h2 : Cleans c d) : Cleans (a ++ c) (b ++ d) := by
  intro before rest
  rw [List.append_assoc, h1, h2, List.append_assoc]
theorem Cleans.plain {l : Str} (h : (str "\\ No newline").isPrefixOf l = false) : Cleans [l] [l] := by
  intro before rest
  exact cleanUpLoop_plain before l rest h
theorem Cleans.cons {l : Str} {a b : List Str} (h : (str "\\ No newline").isPrefixOf l = false) (h2 : Cleans a b) :
    Cleans (l :: a) (l :: b) := (Cleans.plain h).append h2
theorem Cleans.flatMap {α : Type} {f g : α → List Str} (l : List α) (h : ∀ x ∈ l, Cleans (f x) (g x)) :
    Cleans (l.flatMap f) (l.flatMap g) := by
  induction l with
  | nil => exact Cleans.nil
  | cons x l ih =>
    simp only [List.flatMap_cons]
    exact (h x (by simp)).append (ih (fun y hy => h y (by simp [hy])))
theorem Cleans.id (ls : List Str) (h : ∀ l ∈ ls, (str "\\ No newline").isPrefixOf l = false) : Cleans ls ls := by
  induction ls with
  | nil => exact Cleans.nil
  | cons l ls ih => exact Cleans.cons (h l (by simp)) (ih (fun l hl => h l (by simp [hl])))
theorem Cleans.run {raw clean : List Str} (h : Cleans raw clean) : cleanUpCrap raw = Res.ok clean := by
  have := h [] []
  simp only [List.append_nil, List.nil_append] at this
  rw [cleanUpCrap, this]; rfl

theorem not_marker {c : Char} {s : Str} (h : c ≠ '\\') : (str "\\ No newline").isPrefixOf (c :: s) = false := by
  have : ('\\' == c) = false := by simpa using fun e => h e.symm
  simp [str, List.isPrefixOf, this]

theorem Line.cleans (p : Char) (hp : p ≠ '\\') (hn : p ≠ '\n') (l : Line) (h : '\n' ∉ l.text) :
    Cleans (l.render p) [p :: l.value] := by
  unfold Line.render Line.value
  cases l.eol with
  | true =>
    simp only [if_true]
    exact Cleans.plain (not_marker hp)
  | false =>
    simp only [Bool.false_eq_true, if_false, List.append_nil]
    intro before rest
    have := cleanUpLoop_marked before (p :: l.text) noNewlineMarker rest
      (by simpa using not_marker hp) (by simp [h, Ne.symm hn]) (by decide)
    exact this

theorem flatMap_singleton {α β : Type} (f : α → β) (l : List α) : l.flatMap (fun x => [f x]) = l.map f := by
  induction l with
  | nil => rfl
  | cons x l ih => simp [ih]

theorem Lines.cleans (p : Char) (hp : p ≠ '\\') (hn : p ≠ '\n') (ls : List Line) (h : ∀ l ∈ ls, '\n' ∉ l.text) :
    Cleans (ls.flatMap (Line.render p)) ((ls.map Line.value).map (fun v => p :: v)) := by
  have := Cleans.flatMap (f := Line.render p) (g := fun l => [p :: l.value]) ls (fun l hl => Line.cleans p hp hn l (h l hl))
  rw [flatMap_singleton] at this
  rw [List.map_map]
  exact this

theorem Block.cleans (b : Block) (h : ∀ l ∈ b.old ++ b.new, '\n' ∉ l.text) : Cleans b.render b.clean := by
  cases b with
  | context ls => exact Lines.cleans ' ' (by decide) (by decide) ls (fun l hl => h l (by simp [Block.old, hl]))
  | change r a =>
    exact (Lines.cleans '-' (by decide) (by decide) r (fun l hl => h l (by simp [Block.old, hl]))).append
      (Lines.cleans '+' (by decide) (by decide) a (fun l hl => h l (by simp [Block.new, hl])))

theorem UHunk.cleans (h : UHunk) (ok : h.Ok) : Cleans h.render h.clean := by
  refine Cleans.cons ?_ (Cleans.flatMap _ (fun b hb => Block.cleans b (fun l hl => (ok.lines b hb l hl).1)))
  simp [UHunk.header, str, List.isPrefixOf]

theorem UFile.cleans (f : UFile) (ok : f.Ok) : Cleans f.render f.clean := by
  unfold UFile.render UFile.clean
  rw [List.append_assoc]
  refine Cleans.append ?_ ?_
  · apply Cleans.id
    intro l hl
    obtain ⟨t, ht, rfl⟩ := List.mem_map.1 hl
    exact not_prefix_newline (by decide) (ok.between t ht).2.2.2
  · refine Cleans.cons (by simp [str, List.isPrefixOf]) (Cleans.cons (by simp [str, List.isPrefixOf]) ?_)
    exact Cleans.flatMap _ (fun h hh => UHunk.cleans h (ok.hunks h hh))

/-- The lines of a diff after folding. -/
def Spec.UDiff.clean (d : UDiff) : List Str := d.files.flatMap UFile.clean ++ d.trailer.map (· ++ ['\n'])

theorem UDiff.cleans (d : UDiff) (ok : d.Ok) : Cleans d.render d.clean := by
  refine Cleans.append (Cleans.flatMap _ (fun f hf => UFile.cleans f (ok.files f hf))) (Cleans.id _ ?_)
  intro l hl
  obtain ⟨t, ht, rfl⟩ := List.mem_map.1 hl
  exact not_prefix_newline (by decide) (ok.trailer.1 t ht).2.2.2

/-! ### Generator -/

theorem generator_not_perforce (ls : List Str) (h : ∀ l ∈ ls, (str "==== ").isPrefixOf l = false) :
    determineGenerator ls ≠ .Perforce := by
  induction ls with
  | nil => simp [determineGenerator]
  | cons l ls ih =>
    simp only [determineGenerator, h l (by simp)]
    split
    · simp
    · simpa using ih (fun l hl => h l (by simp [hl]))

theorem generator_cvs (ls : List Str) (h : determineGenerator ls = .CVSDiff) : ∃ l ∈ ls, (str "Index: ").isPrefixOf l = true := by
  induction ls with
  | nil => simp [determineGenerator] at h
  | cons l ls ih =>
    simp only [determineGenerator] at h
    split at h
    · rename_i hl; exact ⟨l, by simp, hl⟩
    · split at h
      · simp at h
      · obtain ⟨l', hl', h'⟩ := ih h
        exact ⟨l', by simp [hl'], h'⟩

/-- A line that cannot be a generator mark: it begins with another character. -/
def Unmarked (l : Str) : Prop := ∃ c s, l = c :: s ∧ c ≠ 'I' ∧ c ≠ '='

theorem Unmarked.perforce {l : Str} (h : Unmarked l) : (str "==== ").isPrefixOf l = false := by
  obtain ⟨c, s, rfl, _, h2⟩ := h
  have : ('=' == c) = false := by simpa using fun e => h2 e.symm
  simp [str, List.isPrefixOf, this]
theorem Unmarked.cvs {l : Str} (h : Unmarked l) : (str "Index: ").isPrefixOf l = false := by
  obtain ⟨c, s, rfl, h1, _⟩ := h
  have : ('I' == c) = false := by simpa using fun e => h1 e.symm
  simp [str, List.isPrefixOf, this]

theorem Lines.unmarked (p : Char) (h1 : p ≠ 'I') (h2 : p ≠ '=') (ls : List Line) : ∀ l ∈ ls.flatMap (Line.render p), Unmarked l := by
  intro l hl
  obtain ⟨x, _, hx⟩ := List.mem_flatMap.1 hl
  unfold Line.render at hx
  rcases List.mem_cons.1 hx with rfl | hx
  · exact ⟨_, _, rfl, h1, h2⟩
  · split at hx
    · simp at hx
    · simp only [List.mem_singleton] at hx
      subst hx
      exact ⟨'\\', _, rfl, by decide, by decide⟩

theorem UHunk.unmarked (h : UHunk) : ∀ l ∈ h.render, Unmarked l := by
  intro l hl
  rcases List.mem_cons.1 hl with rfl | hl
  · exact ⟨'@', _, by simp only [UHunk.header, str]; rfl, by decide, by decide⟩
  · obtain ⟨b, _, hb⟩ := List.mem_flatMap.1 hl
    cases b with
    | context ls => exact Lines.unmarked ' ' (by decide) (by decide) ls l hb
    | change r a =>
      rcases List.mem_append.1 hb with hb | hb
      · exact Lines.unmarked '-' (by decide) (by decide) r l hb
      · exact Lines.unmarked '+' (by decide) (by decide) a l hb

theorem UFile.render_mem {f : UFile} {l : Str} (hl : l ∈ f.render) : (∃ t ∈ f.preamble, l = t ++ ['\n']) ∨ Unmarked l := by
  unfold UFile.render at hl
  simp only [List.mem_append, List.mem_map, List.mem_cons, List.not_mem_nil, or_false] at hl
  rcases hl with (⟨t, ht, rfl⟩ | rfl | rfl) | hl
  · exact Or.inl ⟨t, ht, rfl⟩
  · exact Or.inr ⟨'-', _, rfl, by decide, by decide⟩
  · exact Or.inr ⟨'+', _, rfl, by decide, by decide⟩
  · obtain ⟨h, _, hh⟩ := List.mem_flatMap.1 hl
    exact Or.inr (UHunk.unmarked h l hh)

theorem UDiff.generator (d : UDiff) (ok : d.Ok) : determineGenerator d.render ≠ .Perforce := by
  apply generator_not_perforce
  intro l hl
  rcases List.mem_append.1 hl with hl | hl
  · obtain ⟨f, hf, hl⟩ := List.mem_flatMap.1 hl
    rcases UFile.render_mem hl with ⟨t, ht, rfl⟩ | h
    · exact not_prefix_newline (by decide) ((ok.files f hf).between t ht).2.2.1
    · exact h.perforce
  · obtain ⟨t, ht, rfl⟩ := List.mem_map.1 hl
    exact not_prefix_newline (by decide) (ok.trailer.1 t ht).2.2.1

theorem UDiff.generator_cvs (d : UDiff) (h : determineGenerator d.render = .CVSDiff) :
    (∃ g ∈ d.files, ∃ t ∈ g.preamble, str "Index: " <+: t) ∨ (∃ t ∈ d.trailer, str "Index: " <+: t) := by
  obtain ⟨l, hl, hp⟩ := KompareDiff2.generator_cvs _ h
  rcases List.mem_append.1 hl with hl | hl
  · obtain ⟨f, hf, hl⟩ := List.mem_flatMap.1 hl
    rcases UFile.render_mem hl with ⟨t, ht, rfl⟩ | h
    · exact Or.inl ⟨f, hf, t, ht, prefix_newline (by decide) hp⟩
    · rw [h.cvs] at hp; cases hp
  · obtain ⟨t, ht, rfl⟩ := List.mem_map.1 hl
    exact Or.inr ⟨t, ht, prefix_newline (by decide) hp⟩

/-! ### Format -/

theorem atStart_seq_chr_false {p : Char → Bool} {r : Re} {rs : List Re} {s : Str}
    (h : ∀ x u, s = x :: u → p x = false) : (cat (.chr p :: r :: rs)).atStart s = false := by
  cases s with
  | nil => simp [Re.atStart]
  | cons x u => simp [Re.atStart, h x u rfl]

theorem atStart_many1_false {p : Char → Bool} {r : Re} {rs : List Re} {s : Str}
    (h : ∀ x u, s = x :: u → p x = false) : (cat (many1 (.chr p) :: r :: rs)).atStart s = false := by
  cases s with
  | nil => simp [Re.atStart]
  | cons x u => simp [Re.atStart, h x u rfl]

theorem atStart_text_cat_false {t : Str} {r : Re} {rs : List Re} {s : Str} (h : t.isPrefixOf s = false) :
    (cat (text t :: r :: rs)).atStart s = false := by
  simp [Re.atStart, m_text, h]

theorem rcs_false {l : Str} (h : ∀ x y s, l = x :: y :: s → x = 'a' ∨ x = 'c' ∨ x = 'd' → ¬ IsDigit y) : reFmtRcs.atStart l = false := by
  unfold reFmtRcs Re.atStart
  cases l with
  | nil => simp [reAcd]
  | cons x l =>
    rw [m_cat_cons, reAcd, m_chr_cons]
    by_cases hx : x = 'a' ∨ x = 'c' ∨ x = 'd'
    · have hx' : (decide (x = 'a') || decide (x = 'c') || decide (x = 'd')) = true := by
        rcases hx with rfl | rfl | rfl <;> rfl
      rw [if_pos hx']
      cases l with
      | nil => simp [digit]
      | cons y l =>
        have hd := h x y l rfl hx
        rw [m_cat_cons, m_many1, digit, m_chr_cons, if_neg]
        · rfl
        · simpa [IsDigit] using hd
    · rw [if_neg]
      · rfl
      · simpa [not_or, and_assoc] using hx

/-- A line before the first file matches no format pattern. -/
theorem preamble_format (g : Generator) (hg : g ≠ .Perforce) (t : Str) (h : PreambleLine t) :
    lineFormat (t ++ ['\n']) (formatPatterns g) = none := by
  obtain ⟨⟨hn, h1, h2, h3⟩, h4, h5, h6⟩ := h
  have hd : ∀ x u, t ++ ['\n'] = x :: u → (fun x => decide ('0' ≤ x) && decide (x ≤ '9')) x = false := by
    intro x u e
    apply not_digit_class
    cases t with
    | nil => simp only [List.nil_append, List.cons.injEq] at e; rw [← e.1]; decide
    | cons y t => simp only [List.cons_append, List.cons.injEq] at e; rw [← e.1]; exact h5 y t rfl
  have hN : reFmtNormal.atStart (t ++ ['\n']) = false := atStart_many1_false hd
  have hE : reFmtEd.atStart (t ++ ['\n']) = false := atStart_many1_false hd
  have hR : reFmtRcs.atStart (t ++ ['\n']) = false := by
    apply rcs_false
    intro x y s e hx
    cases t with
    | nil => simp at e
    | cons x' t =>
      simp only [List.cons_append, List.cons.injEq] at e
      obtain ⟨rfl, e⟩ := e
      cases t with
      | nil => simp only [List.nil_append, List.cons.injEq] at e; rw [← e.1]; decide
      | cons y' t =>
        simp only [List.cons_append, List.cons.injEq] at e
        rw [← e.1]; exact h6 x' y' t rfl hx
  have hU : (str "--- ").isPrefixOf (t ++ ['\n']) = false := not_prefix_newline (by decide) h1
  have hC : (str "*** ").isPrefixOf (t ++ ['\n']) = false := not_prefix_newline (by decide) h4
  have hU1 : reFmtUnified.atStart (t ++ ['\n']) = false := by rw [reFmtUnified, atStart_text]; exact hU
  have hC1 : reFmtContext.atStart (t ++ ['\n']) = false := by rw [reFmtContext, atStart_text]; exact hC
  have hU2 : reFmtUnifiedCvs.atStart (t ++ ['\n']) = false := atStart_text_cat_false hU
  have hC2 : reFmtContextCvs.atStart (t ++ ['\n']) = false := atStart_text_cat_false hC
  cases g with
  | Perforce => exact absurd rfl hg
  | Diff => simp [formatPatterns, lineFormat, hN, hE, hR, hU1, hC1]
  | CVSDiff => simp [formatPatterns, lineFormat, hN, hE, hR, hU2, hC2]

/-- The header line of a file is recognised as unified. -/
theorem header_format (g : Generator) (hg : g ≠ .Perforce) (h : Header) (ok : h.Ok) (hs : g = .CVSDiff → h.stamp ≠ none) :
    lineFormat (str "--- " ++ h.render) (formatPatterns g) = some .Unified := by
  have hd : ∀ x u, str "--- " ++ h.render = x :: u → (fun x => decide ('0' ≤ x) && decide (x ≤ '9')) x = false := by
    intro x u e
    simp only [str] at e
    have : x = '-' := by
      have := congrArg List.head? e
      simpa using this.symm
    subst this; decide
  have hN : reFmtNormal.atStart (str "--- " ++ h.render) = false := atStart_many1_false hd
  cases g with
  | Perforce => exact absurd rfl hg
  | Diff =>
    have hU1 : reFmtUnified.atStart (str "--- " ++ h.render) = true := by rw [reFmtUnified, atStart_text]; simp
    simp [formatPatterns, lineFormat, hN, hU1]
  | CVSDiff =>
    have hU2 : reFmtUnifiedCvs.atStart (str "--- " ++ h.render) = true := by
      cases hst : h.stamp with
      | none => exact absurd hst (hs rfl)
      | some ts =>
        have e : h.render = h.name ++ '\t' :: (ts ++ (match h.extra with | none => [] | some e => '\t' :: e) ++ ['\n']) := by
          cases he : h.extra <;> simp [Header.render, hst, he]
        unfold reFmtUnifiedCvs Re.atStart
        rw [m_cat_cons, m_text_append, m_cat_cons, e]
        rw [m_noTab_tab (r := []) (hne := ok.name.1) (ht := ok.name.2.1)]
        · rfl
        · simp
    simp [formatPatterns, lineFormat, hN, hU2]

theorem format_skip (g : Generator) (pre ls : List Str) (h : ∀ l ∈ pre, lineFormat l (formatPatterns g) = none) :
    determineFormat g (pre ++ ls) = determineFormat g ls := by
  induction pre with
  | nil => rfl
  | cons l pre ih =>
    simp only [List.cons_append, determineFormat]
    rw [h l (by simp)]
    exact ih (fun l hl => h l (by simp [hl]))

theorem UDiff.format (d : UDiff) (ok : d.Ok) (hne : d.files ≠ []) :
    determineFormat (determineGenerator d.render) d.clean = .Unified := by
  have hg := UDiff.generator d ok
  have hc := UDiff.generator_cvs d
  cases hf : d.files with
  | nil => exact absurd hf hne
  | cons f fs =>
    obtain ⟨h1, h2⟩ := ok.first f fs hf
    have hfo := ok.files f (by rw [hf]; simp)
    have e : d.clean = f.preamble.map (· ++ ['\n']) ++ ((str "--- " ++ f.src.render) ::
        ((str "+++ " ++ f.dst.render) :: (f.hunks.flatMap UHunk.clean ++ (fs.flatMap UFile.clean ++ d.trailer.map (· ++ ['\n']))))) := by
      simp [UDiff.clean, hf, UFile.clean]
    rw [e, format_skip]
    · simp only [determineFormat]
      rw [header_format _ hg f.src hfo.src (fun hcvs => h2 (hc hcvs))]
    · intro l hl
      obtain ⟨t, ht, rfl⟩ := List.mem_map.1 hl
      exact preamble_format _ hg t (h1 t ht)

/-! ### Lines of the text -/

theorem Line.render_lines (p : Char) (hp : p ≠ '\n') (l : Line) (h : '\n' ∉ l.text) : ∀ x ∈ l.render p, ∃ t, '\n' ∉ t ∧ x = t ++ ['\n'] := by
  intro x hx
  rcases List.mem_cons.1 hx with rfl | hx
  · exact ⟨p :: l.text, by simp [h, Ne.symm hp], rfl⟩
  · split at hx
    · simp at hx
    · simp only [List.mem_singleton] at hx
      subst hx
      exact ⟨str "\\ No newline at end of file", by decide, by decide⟩

theorem decNat_noNewline (n : Nat) : '\n' ∉ decNat n := by
  intro h
  have := decNat_isDigit n _ h
  revert this; decide

theorem range_noNewline (a b : Nat) (s : Bool) : '\n' ∉ range a b s := by
  unfold range
  cases s <;> simp [decNat_noNewline]

theorem UHunk.header_line (h : UHunk) (ok : h.Ok) : ∃ t, '\n' ∉ t ∧ h.header = t ++ ['\n'] := by
  refine ⟨str "@@ -" ++ range h.srcLine h.srcCount h.shortSrc ++ str " +" ++ range h.dstLine h.dstCount h.shortDst ++ str " @@" ++
    (match h.function with | none => [] | some f => if h.gap then ' ' :: f else f), ?_, rfl⟩
  simp only [List.mem_append, not_or]
  refine ⟨⟨⟨⟨⟨by decide, range_noNewline _ _ _⟩, by decide⟩, range_noNewline _ _ _⟩, by decide⟩, ?_⟩
  cases hf : h.function with
  | none => simp
  | some f => have := (ok.function f hf).1; cases h.gap <;> simpa using this

theorem UHunk.render_lines (h : UHunk) (ok : h.Ok) : ∀ x ∈ h.render, ∃ t, '\n' ∉ t ∧ x = t ++ ['\n'] := by
  intro x hx
  rcases List.mem_cons.1 hx with rfl | hx
  · exact UHunk.header_line h ok
  · obtain ⟨b, hb, hx⟩ := List.mem_flatMap.1 hx
    have hl := ok.lines b hb
    cases b with
    | context ls =>
      obtain ⟨l, hl', hx⟩ := List.mem_flatMap.1 hx
      exact Line.render_lines ' ' (by decide) l (hl l (by simp [Block.old, hl'])).1 x hx
    | change r a =>
      rcases List.mem_append.1 hx with hx | hx
      · obtain ⟨l, hl', hx⟩ := List.mem_flatMap.1 hx
        exact Line.render_lines '-' (by decide) l (hl l (by simp [Block.old, hl'])).1 x hx
      · obtain ⟨l, hl', hx⟩ := List.mem_flatMap.1 hx
        exact Line.render_lines '+' (by decide) l (hl l (by simp [Block.new, hl'])).1 x hx

theorem Header.line (p : Str) (hp : '\n' ∉ p) (h : Header) (ok : h.Ok) : ∃ t, '\n' ∉ t ∧ p ++ h.render = t ++ ['\n'] := by
  refine ⟨p ++ (h.name ++ (match h.stamp with
    | none => []
    | some ts => '\t' :: ts ++ (match h.extra with | none => [] | some e => '\t' :: e))), ?_, by cases hs : h.stamp <;> cases he : h.extra <;> simp [Header.render, hs, he]⟩
  simp only [List.mem_append, not_or]
  refine ⟨hp, ok.name.2.2, ?_⟩
  cases hs : h.stamp with
  | none => simp
  | some ts =>
    have := (ok.stamp ts hs).2.2
    cases he : h.extra with
    | none => simpa using this
    | some e => simpa [not_or, this] using ok.extra e he

theorem UFile.render_lines (f : UFile) (ok : f.Ok) : ∀ x ∈ f.render, ∃ t, '\n' ∉ t ∧ x = t ++ ['\n'] := by
  intro x hx
  unfold UFile.render at hx
  simp only [List.mem_append, List.mem_map, List.mem_cons, List.not_mem_nil, or_false] at hx
  rcases hx with (⟨t, ht, rfl⟩ | rfl | rfl) | hx
  · exact ⟨t, (ok.between t ht).1, rfl⟩
  · exact Header.line _ (by decide) f.src ok.src
  · exact Header.line _ (by decide) f.dst ok.dst
  · obtain ⟨h, hh, hx⟩ := List.mem_flatMap.1 hx
    exact UHunk.render_lines h (ok.hunks h hh) x hx

theorem UDiff.split_text (d : UDiff) (ok : d.Ok) : split d.render.flatten = d.render := by
  apply split_flatten
  have := LineList.append (as := d.render) (bs := []) (by
    intro x hx
    rcases List.mem_append.1 hx with hx | hx
    · obtain ⟨f, hf, hx⟩ := List.mem_flatMap.1 hx
      exact UFile.render_lines f (ok.files f hf) x hx
    · obtain ⟨t, ht, rfl⟩ := List.mem_map.1 hx
      exact ⟨t, (ok.trailer.1 t ht).1, rfl⟩) .nil
  simpa using this

/-! ### The parser -/

theorem parse_unified (d : UDiff) (ok : d.Ok) (hne : d.files ≠ []) (win : Bool) (cmp : Str → Str → Int) (heap : Heap) :
    ∃ st, parse win cmp heap d.render = Res.ok (finishParse cmp st) ∧ st.malformed = false ∧
      FilesInv st ((d.files.filter UFile.changes).map (UFile.view (unescapePath win))) := by
  have hg := UDiff.generator d ok
  have hfmt := UDiff.format d ok hne
  have hlen : d.files.length < d.clean.length + 1 := by
    have : d.files.length ≤ (d.files.flatMap UFile.clean).length := by
      induction d.files with
      | nil => simp
      | cons f fs ih => simp only [List.flatMap_cons, List.length_append, List.length_cons, UFile.clean]; omega
    simp only [UDiff.clean, List.length_append]; omega
  obtain ⟨st', h1, h2, h3, h4⟩ := files_ok win _ hg d.files ok.files ok.later d.trailer ok.trailer.1 ok.trailer.2
    (d.clean.length + 1) hlen
    { lines := d.clean, rest := d.clean, heap := heap, cur := {}, models := [], single := false, malformed := false } []
    ⟨by simp, rfl⟩ rfl
  refine ⟨st', ?_, h2, by simpa using h4⟩
  unfold parse
  rw [(UDiff.cleans d ok).run]
  simp only [Res.bind_ok, parseLines, hfmt, unifiedFiles]
  rw [h1]; rfl

/-! ### Sorting -/

theorem insertModel_perm (lt : DModel → DModel → Bool) (m : DModel) (ms : List DModel) :
    (insertModel lt m ms).Perm (m :: ms) := by
  induction ms with
  | nil => exact List.Perm.refl _
  | cons x xs ih =>
    simp only [insertModel]
    split
    · exact List.Perm.refl _
    · exact (List.Perm.cons x ih).trans (List.Perm.swap m x xs)

theorem sortModels_perm (cmp : Str → Str → Int) (ms : List DModel) : (sortModels cmp ms).Perm ms := by
  unfold sortModels
  have key : ∀ acc, (ms.foldl (fun acc m => insertModel (fun a b => decide (DModel.compareSource cmp a b < 0)) m acc) acc).Perm (acc ++ ms) := by
    induction ms with
    | nil => intro acc; simp
    | cons m ms ih =>
      intro acc
      rw [List.foldl_cons]
      refine (ih _).trans ?_
      refine ((insertModel_perm _ m acc).append_right ms).trans ?_
      simp only [List.cons_append]
      exact List.perm_middle.symm
  simpa using key []

theorem compareSource_le (cmp : Str → Str → Int) (m m' : DModel) : DModel.compareSource cmp m m' ≤ 0 ↔ Spec.sourceLe cmp m m' := by
  unfold DModel.compareSource Spec.sourceLe
  simp only
  split
  · rename_i h; simp [h]
  · rename_i h
    constructor
    · intro hle; left; omega
    · rintro (h1 | h1)
      · omega
      · exact absurd h1.1 h

theorem compareSource_flip {cmp : Str → Str → Int} (ho : Spec.Orders cmp) (m m' : DModel) :
    DModel.compareSource cmp m m' < 0 ↔ 0 < DModel.compareSource cmp m' m := by
  unfold DModel.compareSource
  simp only
  have h1 := ho.flip m.sourcePath m'.sourcePath
  have h2 := ho.flip m'.sourcePath m.sourcePath
  have h3 := ho.flip m.sourceFile m'.sourceFile
  split <;> split <;> omega

theorem compareSource_trans {cmp : Str → Str → Int} (ho : Spec.Orders cmp) (a b c : DModel)
    (h1 : DModel.compareSource cmp a b ≤ 0) (h2 : DModel.compareSource cmp b c ≤ 0) : DModel.compareSource cmp a c ≤ 0 := by
  rw [compareSource_le] at *
  have t := ho.trans a.sourcePath b.sourcePath c.sourcePath
  have t1 := ho.trans c.sourcePath a.sourcePath b.sourcePath
  have t2 := ho.trans b.sourcePath c.sourcePath a.sourcePath
  have f1 := ho.flip a.sourcePath c.sourcePath
  have f2 := ho.flip c.sourcePath a.sourcePath
  have f3 := ho.flip a.sourcePath b.sourcePath
  have f4 := ho.flip b.sourcePath a.sourcePath
  have f5 := ho.flip b.sourcePath c.sourcePath
  have f6 := ho.flip c.sourcePath b.sourcePath
  have u := ho.trans a.sourceFile b.sourceFile c.sourceFile
  unfold Spec.sourceLe at *
  by_cases hac : cmp a.sourcePath c.sourcePath < 0
  · exact Or.inl hac
  · have hle : cmp a.sourcePath c.sourcePath ≤ 0 := t (by omega) (by omega)
    have h0 : cmp a.sourcePath c.sourcePath = 0 := by omega
    have hca : cmp c.sourcePath a.sourcePath ≤ 0 := by omega
    have hcb := t1 hca (by omega)
    have hba := t2 (by omega) hca
    exact Or.inr ⟨h0, u (by omega) (by omega)⟩

theorem insertModel_sorted {cmp : Str → Str → Int} (ho : Spec.Orders cmp) (m : DModel) (ms : List DModel)
    (h : ms.Pairwise (fun a b => DModel.compareSource cmp a b ≤ 0)) :
    (insertModel (fun a b => decide (DModel.compareSource cmp a b < 0)) m ms).Pairwise (fun a b => DModel.compareSource cmp a b ≤ 0) := by
  induction ms with
  | nil => simp [insertModel]
  | cons x xs ih =>
    rw [List.pairwise_cons] at h
    simp only [insertModel, decide_eq_true_eq]
    split
    · rename_i hlt
      rw [List.pairwise_cons]
      refine ⟨?_, List.pairwise_cons.2 h⟩
      intro y hy
      rcases List.mem_cons.1 hy with rfl | hy
      · omega
      · exact compareSource_trans ho m x y (by omega) (h.1 y hy)
    · rename_i hlt
      rw [List.pairwise_cons]
      refine ⟨?_, ih h.2⟩
      intro y hy
      rcases List.mem_cons.1 ((insertModel_perm _ m xs).mem_iff.1 hy) with rfl | hy
      · have := compareSource_flip ho x y
        have := compareSource_flip ho y x
        omega
      · exact h.1 y hy

theorem sortModels_sorted {cmp : Str → Str → Int} (ho : Spec.Orders cmp) (ms : List DModel) :
    (sortModels cmp ms).Pairwise (Spec.sourceLe cmp) := by
  have key : ∀ acc : List DModel, acc.Pairwise (fun a b => DModel.compareSource cmp a b ≤ 0) →
      (ms.foldl (fun acc m => insertModel (fun a b => decide (DModel.compareSource cmp a b < 0)) m acc) acc).Pairwise
        (fun a b => DModel.compareSource cmp a b ≤ 0) := by
    induction ms with
    | nil => intro acc h; exact h
    | cons m ms ih => intro acc h; exact ih _ (insertModel_sorted ho m acc h)
  have := key [] List.Pairwise.nil
  exact this.imp (fun h => (compareSource_le _ _ _).1 h)

end KompareDiff2
