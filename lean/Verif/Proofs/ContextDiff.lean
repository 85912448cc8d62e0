import Verif.Proofs.ContextFile
import Verif.Proofs.Format
/-
A whole context diff: cleaning, generator, format, and the result of the parser.
-/
namespace KompareDiff2
open Spec Re

/-- A line of a hunk begins with one of these characters. -/
def Hunky (l : Str) : Prop := ∃ c s, l = c :: s ∧ (c = '*' ∨ c = '-' ∨ c = '+' ∨ c = '!' ∨ c = ' ')

theorem Hunky.unmarked {l : Str} (h : Hunky l) : Unmarked l := by
  obtain ⟨c, s, rfl, h⟩ := h
  refine ⟨c, s, rfl, ?_⟩
  rcases h with rfl | rfl | rfl | rfl | rfl <;> decide

theorem Hunky.plain {l : Str} (h : Hunky l) : (str "\\ No newline").isPrefixOf l = false := by
  obtain ⟨c, s, rfl, h⟩ := h
  exact not_marker (by rcases h with rfl | rfl | rfl | rfl | rfl <;> decide)

/-- A line with its newline. -/
def WholeLine (l : Str) : Prop := ∃ t, '\n' ∉ t ∧ l = t ++ ['\n']

theorem markedLines_ok (c : Char) (hc : c = '*' ∨ c = '-' ∨ c = '+' ∨ c = '!' ∨ c = ' ') (ts : List Str) (h : ∀ t ∈ ts, '\n' ∉ t) :
    ∀ l ∈ ts.map (markedLine c), Hunky l ∧ WholeLine l := by
  intro l hl
  obtain ⟨t, ht, rfl⟩ := List.mem_map.1 hl
  refine ⟨⟨c, _, rfl, hc⟩, c :: ' ' :: t, ?_, rfl⟩
  have := h t ht
  rcases hc with rfl | rfl | rfl | rfl | rfl <;> simp [this]

theorem CBlock.lines_ok {b : CBlock} (h : b.Plain) : ∀ l, l ∈ b.oldLines ∨ l ∈ b.newLines → Hunky l ∧ WholeLine l := by
  have ho : ∀ t ∈ b.old, '\n' ∉ t := fun t ht => (h t (by simp [ht])).1
  have hn : ∀ t ∈ b.new, '\n' ∉ t := fun t ht => (h t (by simp [ht])).1
  intro l hl
  cases b with
  | context ls => rcases hl with hl | hl <;> exact markedLines_ok ' ' (by simp) ls ho l hl
  | delete ls =>
    rcases hl with hl | hl
    · exact markedLines_ok '-' (by simp) ls ho l hl
    · simp [CBlock.newLines] at hl
  | insert ls =>
    rcases hl with hl | hl
    · simp [CBlock.oldLines] at hl
    · exact markedLines_ok '+' (by simp) ls hn l hl
  | change r a =>
    rcases hl with hl | hl
    · exact markedLines_ok '!' (by simp) r ho l hl
    · exact markedLines_ok '!' (by simp) a hn l hl

theorem lineRange_noNewline (a n : Nat) : '\n' ∉ lineRange a n := by
  unfold lineRange
  simp [decNat_noNewline]

theorem CHunk.lines_ok (h : CHunk) (ok : h.Ok) : ∀ l ∈ h.render, Hunky l ∧ WholeLine l := by
  intro l hl
  simp only [CHunk.render, List.cons_append, List.mem_cons, List.mem_append] at hl
  rcases hl with rfl | rfl | hl | rfl | hl
  · refine ⟨⟨'*', _, rfl, by simp⟩, List.replicate 15 '*' ++ (match h.function with | none => [] | some f => ' ' :: f), ?_, rfl⟩
    rw [List.mem_append]
    rintro (hm | hm)
    · exact absurd hm (by decide)
    · cases hf : h.function with
      | none => simp [hf] at hm
      | some f => simp [hf, ok.function f hf] at hm
  · refine ⟨⟨'*', _, by simp only [CHunk.oldRange, str]; rfl, by simp⟩, str "*** " ++ lineRange h.srcLine h.srcCount ++ str " ****", ?_,
      by simp [CHunk.oldRange, str]⟩
    simp only [List.mem_append, not_or]
    exact ⟨⟨by decide, lineRange_noNewline _ _⟩, by decide⟩
  · unfold CHunk.oldSection at hl
    split at hl
    · obtain ⟨b, hb, hl⟩ := List.mem_flatMap.1 hl
      exact CBlock.lines_ok (fun t ht => ok.lines b hb t ht) l (Or.inl hl)
    · simp at hl
  · refine ⟨⟨'-', _, by simp only [CHunk.newRange, str]; rfl, by simp⟩, str "--- " ++ lineRange h.dstLine h.dstCount ++ str " ----", ?_,
      by simp [CHunk.newRange, str]⟩
    simp only [List.mem_append, not_or]
    exact ⟨⟨by decide, lineRange_noNewline _ _⟩, by decide⟩
  · unfold CHunk.newSection at hl
    split at hl
    · obtain ⟨b, hb, hl⟩ := List.mem_flatMap.1 hl
      exact CBlock.lines_ok (fun t ht => ok.lines b hb t ht) l (Or.inr hl)
    · simp at hl

theorem CFile.lines_ok (f : CFile) (ok : f.Ok) : ∀ l ∈ f.render, ((∃ t ∈ f.preamble, l = t ++ ['\n']) ∨ Hunky l) ∧ WholeLine l := by
  intro l hl
  unfold CFile.render at hl
  simp only [List.mem_append, List.mem_map, List.mem_cons, List.not_mem_nil, or_false] at hl
  rcases hl with (⟨t, ht, rfl⟩ | rfl | rfl) | hl
  · exact ⟨Or.inl ⟨t, ht, rfl⟩, t, (ok.between t ht).1, rfl⟩
  · exact ⟨Or.inr ⟨'*', _, rfl, by simp⟩, Header.line _ (by decide) f.src ok.src⟩
  · exact ⟨Or.inr ⟨'-', _, rfl, by simp⟩, Header.line _ (by decide) f.dst ok.dst⟩
  · obtain ⟨h, hh, hl⟩ := List.mem_flatMap.1 hl
    have := CHunk.lines_ok h (ok.hunks h hh) l hl
    exact ⟨Or.inr this.1, this.2⟩

/-- The lines outside hunks and headers. -/
def Spec.CDiff.between (d : CDiff) : List Str := d.files.flatMap CFile.preamble ++ d.trailer

theorem CDiff.lines_ok (d : CDiff) (ok : d.Ok) : ∀ l ∈ d.render, ((∃ t ∈ d.between, l = t ++ ['\n'] ∧ CBetween t) ∨ Hunky l) ∧ WholeLine l := by
  intro l hl
  rcases List.mem_append.1 hl with hl | hl
  · obtain ⟨f, hf, hl⟩ := List.mem_flatMap.1 hl
    obtain ⟨h1, h2⟩ := CFile.lines_ok f (ok.files f hf) l hl
    refine ⟨?_, h2⟩
    rcases h1 with ⟨t, ht, rfl⟩ | h1
    · exact Or.inl ⟨t, List.mem_append.2 (Or.inl (List.mem_flatMap.2 ⟨f, hf, ht⟩)), rfl, (ok.files f hf).between t ht⟩
    · exact Or.inr h1
  · obtain ⟨t, ht, rfl⟩ := List.mem_map.1 hl
    exact ⟨Or.inl ⟨t, List.mem_append.2 (Or.inr ht), rfl, ok.trailer.1 t ht⟩, t, (ok.trailer.1 t ht).1, rfl⟩

theorem CDiff.between_mem (d : CDiff) {t : Str} (h : t ∈ d.between) : t ++ ['\n'] ∈ d.render := by
  rcases List.mem_append.1 h with h | h
  · obtain ⟨f, hf, ht⟩ := List.mem_flatMap.1 h
    refine List.mem_append.2 (Or.inl (List.mem_flatMap.2 ⟨f, hf, ?_⟩))
    unfold CFile.render
    simp [ht]
  · exact List.mem_append.2 (Or.inr (List.mem_map.2 ⟨t, h, rfl⟩))

theorem CDiff.clean (d : CDiff) (ok : d.Ok) : cleanUpCrap d.render = Res.ok d.render := by
  apply Cleans.run
  apply Cleans.id
  intro l hl
  rcases (CDiff.lines_ok d ok l hl).1 with ⟨t, _, rfl, hb⟩ | h
  · exact not_prefix_newline (by decide) hb.2.2.2
  · exact h.plain

theorem CDiff.generator (d : CDiff) (ok : d.Ok) : determineGenerator d.render = genOf d.cvs := by
  have hp : ∀ l ∈ d.render, ¬ str "==== " <+: l := by
    intro l hl h
    rcases (CDiff.lines_ok d ok l hl).1 with ⟨t, _, rfl, hb⟩ | hh
    · have := not_prefix_newline (p := str "==== ") (by decide) hb.2.2.1
      rw [List.isPrefixOf_iff_prefix.2 h] at this; cases this
    · have := hh.unmarked.perforce
      rw [List.isPrefixOf_iff_prefix.2 h] at this; cases this
  have hnp := generator_not_perforce d.render (fun l hl => by
    cases e : (str "==== ").isPrefixOf l with
    | false => rfl
    | true => exact absurd (List.isPrefixOf_iff_prefix.1 e) (hp l hl))
  have key : determineGenerator d.render = .CVSDiff ↔ d.cvs = true := by
    rw [(generator_iff d.render).1]
    unfold CDiff.cvs
    rw [List.any_eq_true]
    constructor
    · rintro ⟨pre, l, post, e, h1, _⟩
      have hl : l ∈ d.render := by rw [e]; simp
      rcases (CDiff.lines_ok d ok l hl).1 with ⟨t, ht, rfl, _⟩ | hh
      · exact ⟨t, ht, List.isPrefixOf_iff_prefix.2 (prefix_newline (by decide) (List.isPrefixOf_iff_prefix.2 h1))⟩
      · have := hh.unmarked.cvs
        rw [List.isPrefixOf_iff_prefix.2 h1] at this; cases this
    · rintro ⟨t, ht, h⟩
      obtain ⟨pre, post, e⟩ := List.append_of_mem (CDiff.between_mem d ht)
      refine ⟨pre, _, post, e, ?_, fun l hl => hp l (by rw [e]; simp [hl])⟩
      exact (List.isPrefixOf_iff_prefix.1 h).trans (List.prefix_append _ _)
  cases hc : d.cvs with
  | true => exact key.2 hc
  | false =>
    have : determineGenerator d.render ≠ .CVSDiff := fun h => by rw [key.1 h] at hc; cases hc
    cases hg : determineGenerator d.render with
    | CVSDiff => exact absurd hg this
    | Perforce => exact absurd hg hnp
    | Diff => rfl

theorem cheader_format (cvs : Bool) (h : Header) (ok : h.Ok) (hs : cvs = true → h.stamp ≠ none) :
    lineFormat (str "*** " ++ h.render) (formatPatterns (genOf cvs)) = some .Context := by
  have hhead : ∀ x u, str "*** " ++ h.render = x :: u → x = '*' := by
    intro x u e
    have := congrArg List.head? e
    simpa [str] using this.symm
  have hd : ∀ x u, str "*** " ++ h.render = x :: u → (fun x => decide ('0' ≤ x) && decide (x ≤ '9')) x = false := by
    intro x u e; rw [hhead x u e]; decide
  have hN : reFmtNormal.atStart (str "*** " ++ h.render) = false := atStart_many1_false hd
  have hp : (str "--- ").isPrefixOf (str "*** " ++ h.render) = false := by simp [str, List.isPrefixOf]
  cases cvs with
  | false =>
    have hU : reFmtUnified.atStart (str "*** " ++ h.render) = false := by rw [reFmtUnified, atStart_text]; exact hp
    have hC : reFmtContext.atStart (str "*** " ++ h.render) = true := by rw [reFmtContext, atStart_text]; simp
    simp [genOf, formatPatterns, lineFormat, hN, hU, hC]
  | true =>
    have hU : reFmtUnifiedCvs.atStart (str "*** " ++ h.render) = false := atStart_text_cat_false hp
    have hC : reFmtContextCvs.atStart (str "*** " ++ h.render) = true := by
      cases hst : h.stamp with
      | none => exact absurd hst (hs rfl)
      | some ts =>
        have e : h.render = h.name ++ '\t' :: (ts ++ (match h.extra with | none => [] | some e => '\t' :: e) ++ ['\n']) := by
          cases he : h.extra <;> simp [Header.render, hst, he]
        unfold reFmtContextCvs Re.atStart
        rw [m_cat_cons, m_text_append, m_cat_cons, e]
        rw [m_noTab_tab (r := []) (hne := ok.name.1) (ht := ok.name.2.1)]
        · rfl
        · simp
    simp [genOf, formatPatterns, lineFormat, hN, hU, hC]

theorem CDiff.format (d : CDiff) (ok : d.Ok) (hne : d.files ≠ []) : determineFormat (genOf d.cvs) d.render = .Context := by
  cases hf : d.files with
  | nil => exact absurd hf hne
  | cons f fs =>
    have h1 := ok.first f fs hf
    have hfo := ok.files f (by rw [hf]; simp)
    have hho := ok.headers f (by rw [hf]; simp)
    have e : d.render = f.preamble.map (· ++ ['\n']) ++ ((str "*** " ++ f.src.render) ::
        ((str "--- " ++ f.dst.render) :: (f.hunks.flatMap CHunk.render ++ (fs.flatMap CFile.render ++ d.trailer.map (· ++ ['\n']))))) := by
      simp [CDiff.render, hf, CFile.render]
    rw [e, format_skip]
    · simp only [determineFormat]
      rw [cheader_format d.cvs f.src hfo.src (fun hc => (hho.2 hc).1)]
    · intro l hl
      obtain ⟨t, ht, rfl⟩ := List.mem_map.1 hl
      exact preamble_format _ (genOf_ne _) t (h1 t ht)

theorem CDiff.split_text (d : CDiff) (ok : d.Ok) : split d.render.flatten = d.render := by
  apply split_flatten
  have := LineList.append (as := d.render) (bs := []) (fun x hx => (CDiff.lines_ok d ok x hx).2) .nil
  simpa using this

theorem parse_context (d : CDiff) (ok : d.Ok) (hne : d.files ≠ []) (win : Bool) (cmp : Str → Str → Int) (heap : Heap) :
    ∃ st, parse win cmp heap d.render = Res.ok (finishParse cmp st) ∧ st.malformed = false ∧
      FilesInv st ((d.files.filter hasHunks).map (fun f => f.view (unescapePath win) d.cvs)) := by
  have hlen : d.files.length < d.render.length + 1 := by
    have : d.files.length ≤ (d.files.flatMap CFile.render).length := by
      induction d.files with
      | nil => simp
      | cons f fs ih => simp only [List.flatMap_cons, List.length_append, List.length_cons, CFile.render]; omega
    simp only [CDiff.render, List.length_append]; omega
  obtain ⟨st', h1, h2, h4⟩ := cfiles_ok win d.cvs d.files ok.files ok.headers ok.later d.trailer ok.trailer.1 ok.trailer.2
    (d.render.length + 1) hlen
    { lines := d.render, rest := d.render, heap := heap, cur := {}, models := [], single := false, malformed := false } []
    ⟨by simp, rfl⟩ rfl
  refine ⟨st', ?_, h2, by simpa using h4⟩
  unfold parse
  rw [CDiff.clean d ok, CDiff.generator d ok]
  simp only [Res.bind_ok, parseLines, CDiff.format d ok hne, contextFiles]
  rw [h1]; rfl

end KompareDiff2
