import Verif.Spec.Dos
import Verif.Proofs.UnifiedDiff
/-
Diff texts with Windows line ends.
-/
namespace KompareDiff2
open Spec

/-! ### Texts and lines -/

theorem crlf_append (a b : Str) : crlf (a ++ b) = crlf a ++ crlf b := by simp [crlf]
theorem crlf_flatten (ls : List Str) : crlf ls.flatten = (ls.map crlf).flatten := by
  induction ls with
  | nil => rfl
  | cons l ls ih => simp [crlf_append, ih]
theorem crlf_quiet {t : Str} (h : '\n' ∉ t) : crlf t = t := by
  induction t with
  | nil => rfl
  | cons c t ih =>
    simp only [List.mem_cons, not_or] at h
    have hc : c ≠ '\n' := fun e => h.1 e.symm
    have := ih h.2
    simp only [crlf] at this ⊢
    simp [List.flatMap_cons, if_neg hc, this]
theorem crlf_line {t : Str} (h : '\n' ∉ t) : crlf (t ++ ['\n']) = cr t ++ ['\n'] := by
  rw [crlf_append, crlf_quiet h]; simp [crlf, cr]

theorem cr_newline {t : Str} (h : '\n' ∉ t) : '\n' ∉ cr t := by simp [cr, h]

/-- Beginning with something that has no carriage return. -/
theorem prefix_cr {p t : Str} (hp : '\r' ∉ p) : p <+: cr t ↔ p <+: t := by
  unfold cr
  rw [List.prefix_concat_iff]
  constructor
  · rintro (h | h)
    · subst h; simp at hp
    · exact h
  · exact .inr

/-! ### Well-formedness is kept -/

theorem Spec.Block.dos_old (b : Block) : b.dos.old = b.old.map Line.dos := by cases b <;> rfl
theorem Spec.Block.dos_new (b : Block) : b.dos.new = b.new.map Line.dos := by cases b <;> rfl

theorem Spec.UHunk.dos_srcCount (h : UHunk) : h.dos.srcCount = h.srcCount := by
  simp [UHunk.srcCount, UHunk.dos, List.map_map, Function.comp_def, Block.dos_old]
theorem Spec.UHunk.dos_dstCount (h : UHunk) : h.dos.dstCount = h.dstCount := by
  simp [UHunk.dstCount, UHunk.dos, List.map_map, Function.comp_def, Block.dos_new]

theorem Spec.Block.dos_nonEmpty {b : Block} (h : b.NonEmpty) : b.dos.NonEmpty := by
  cases b <;> simpa [Block.NonEmpty, Block.dos] using h

theorem Spec.Block.dos_separated {a b : Block} (h : a.Separated b) : a.dos.Separated b.dos := by
  cases a <;> cases b <;> simpa [Block.Separated, Block.dos] using h

theorem dos_separatedBlocks (bs : List Block) (h : SeparatedBlocks bs) : SeparatedBlocks (bs.map Block.dos) := by
  induction bs with
  | nil => exact h
  | cons a bs ih =>
    cases bs with
    | nil => exact h
    | cons b bs =>
      simp only [SeparatedBlocks, List.map_cons] at h ih ⊢
      exact ⟨Block.dos_separated h.1, ih h.2⟩

/-- The lines of the hunk leave room for a carriage return. -/
def RoomyHunk (h : UHunk) : Prop := ∀ b ∈ h.blocks, ∀ l ∈ b.old ++ b.new, l.text.length < 65533

theorem Spec.UHunk.dos_ok {h : UHunk} (ok : h.Ok) (hr : RoomyHunk h) : h.dos.Ok := by
  refine ⟨?_, ?_, ?_, ?_, dos_separatedBlocks _ ok.separated, ?_⟩
  · rw [UHunk.dos_srcCount]; exact ok.src
  · rw [UHunk.dos_dstCount]; exact ok.dst
  · intro f hf
    simp only [UHunk.dos, Option.some.injEq] at hf
    subst hf
    cases hfn : h.function with
    | none => simp [UHunk.dos, hfn, cr]
    | some g =>
      obtain ⟨h1, h2⟩ := ok.function g hfn
      refine ⟨cr_newline h1, ?_⟩
      intro hg
      simp only [UHunk.dos, hfn, reduceCtorEq, if_false] at hg
      have := h2 hg
      cases g with
      | nil => simp [cr]
      | cons c g => simpa [cr] using this
  · intro b hb
    obtain ⟨a, ha, rfl⟩ := List.mem_map.1 hb
    exact Block.dos_nonEmpty (ok.nonEmpty a ha)
  · intro b hb l hl
    obtain ⟨a, ha, rfl⟩ := List.mem_map.1 hb
    rw [Block.dos_old, Block.dos_new, ← List.map_append] at hl
    obtain ⟨k, hk, rfl⟩ := List.mem_map.1 hl
    refine ⟨cr_newline (ok.lines a ha k hk).1, ?_⟩
    have := hr a ha k hk
    simp only [Line.dos, cr, List.length_append, List.length_cons, List.length_nil]
    omega

theorem Spec.Header.dos_ok {h : Header} (ok : h.Ok) : h.dos.Ok := by
  obtain ⟨⟨h1, h2, h3⟩, h4, h5⟩ := ok
  obtain ⟨n, s, e⟩ := h
  cases s with
  | none =>
    refine ⟨⟨by simp [Header.dos, cr], ?_, ?_⟩, ?_, ?_⟩
    · simpa [Header.dos, cr] using h2
    · simpa [Header.dos, cr] using h3
    · intro ts hts; cases hts
    · exact h5
  | some ts =>
    cases e with
    | none =>
      refine ⟨⟨h1, h2, h3⟩, ?_, ?_⟩
      · intro t ht
        simp only [Header.dos, Option.some.injEq] at ht
        subst ht
        obtain ⟨_, a, b⟩ := h4 ts rfl
        exact ⟨by simp [cr], by simpa [cr] using a, by simpa [cr] using b⟩
      · intro e he; cases he
    | some e =>
      refine ⟨⟨h1, h2, h3⟩, h4, ?_⟩
      intro e' he
      simp only [Header.dos, Option.some.injEq] at he
      subst he
      exact cr_newline (h5 e rfl)

theorem dos_between {t : Str} (h : BetweenLine t) : BetweenLine (cr t) := by
  obtain ⟨h1, h2, h3, h4⟩ := h
  exact ⟨cr_newline h1, by rwa [prefix_cr (by decide)], by rwa [prefix_cr (by decide)], by rwa [prefix_cr (by decide)]⟩

theorem dos_separator {t : Str} (h : SeparatorLine t) : SeparatorLine (cr t) := by
  unfold SeparatorLine at h ⊢
  rwa [prefix_cr (by decide), prefix_cr (by decide), prefix_cr (by decide)]

theorem dos_preamble {t : Str} (h : PreambleLine t) : PreambleLine (cr t) := by
  obtain ⟨h1, h2, h3, h4⟩ := h
  refine ⟨dos_between h1, by rwa [prefix_cr (by decide)], ?_, ?_⟩
  · intro x s e
    cases t with
    | nil =>
      simp only [cr, List.nil_append, List.cons.injEq] at e
      rw [← e.1]; decide
    | cons c t =>
      simp only [cr, List.cons_append, List.cons.injEq] at e
      exact h3 x t (by rw [e.1])
  · intro x y s e hx
    cases t with
    | nil => simp [cr] at e
    | cons c t =>
      simp only [cr, List.cons_append, List.cons.injEq] at e
      obtain ⟨rfl, e⟩ := e
      cases t with
      | nil =>
        simp only [List.nil_append, List.cons.injEq] at e
        rw [← e.1]; decide
      | cons d t =>
        simp only [List.cons_append, List.cons.injEq] at e
        obtain ⟨rfl, e⟩ := e
        exact h4 c d t rfl hx

theorem Spec.UFile.dos_ok {f : UFile} (ok : f.Ok) (hr : ∀ h ∈ f.hunks, RoomyHunk h) : f.dos.Ok := by
  refine ⟨Header.dos_ok ok.src, Header.dos_ok ok.dst, ?_, ?_⟩
  · intro h hh
    obtain ⟨k, hk, rfl⟩ := List.mem_map.1 hh
    exact UHunk.dos_ok (ok.hunks k hk) (hr k hk)
  · intro t ht
    obtain ⟨u, hu, rfl⟩ := List.mem_map.1 ht
    exact dos_between (ok.between u hu)

theorem dos_stamp {h : Header} : h.dos.stamp = none ↔ h.stamp = none := by
  obtain ⟨n, s, e⟩ := h
  cases s <;> cases e <;> simp [Header.dos]

theorem Spec.UDiff.dos_ok {d : UDiff} (ok : d.Ok) (hr : ∀ f ∈ d.files, ∀ h ∈ f.hunks, RoomyHunk h) : d.dos.Ok := by
  refine ⟨?_, ?_, ?_, ?_, ?_⟩
  · intro f hf
    obtain ⟨g, hg, rfl⟩ := List.mem_map.1 hf
    exact UFile.dos_ok (ok.files g hg) (hr g hg)
  · intro f fs e
    cases hd : d.files with
    | nil => simp [UDiff.dos, hd] at e
    | cons g gs =>
      simp only [UDiff.dos, hd, List.map_cons, List.cons.injEq] at e
      obtain ⟨rfl, rfl⟩ := e
      obtain ⟨h1, h2⟩ := ok.first g gs hd
      refine ⟨?_, ?_⟩
      · intro t ht
        obtain ⟨u, hu, rfl⟩ := List.mem_map.1 ht
        exact dos_preamble (h1 u hu)
      · intro h
        have : g.src.stamp ≠ none := by
          apply h2
          rcases h with ⟨k, hk, t, ht, hp⟩ | ⟨t, ht, hp⟩
          · left
            obtain ⟨k', hk', rfl⟩ := List.mem_map.1 hk
            obtain ⟨u, hu, rfl⟩ := List.mem_map.1 ht
            exact ⟨k', hk', u, hu, (prefix_cr (by decide)).1 hp⟩
          · right
            obtain ⟨u, hu, rfl⟩ := List.mem_map.1 ht
            exact ⟨u, hu, (prefix_cr (by decide)).1 hp⟩
        exact fun e => this (dos_stamp.1 e)
  · intro f fs e g hg t ts et
    cases hd : d.files with
    | nil => simp [UDiff.dos, hd] at e
    | cons g' gs =>
      simp only [UDiff.dos, hd, List.map_cons, List.cons.injEq] at e
      obtain ⟨rfl, rfl⟩ := e
      obtain ⟨k, hk, rfl⟩ := List.mem_map.1 hg
      cases hp : k.preamble with
      | nil => simp [UFile.dos, hp] at et
      | cons u us =>
        simp only [UFile.dos, hp, List.map_cons, List.cons.injEq] at et
        rw [← et.1]
        exact dos_separator (ok.later g' gs hd k hk u us hp)
  · intro t ht
    obtain ⟨u, hu, rfl⟩ := List.mem_map.1 ht
    exact dos_between (ok.trailer.1 u hu)
  · intro t ts e
    cases hp : d.trailer with
    | nil => simp [UDiff.dos, hp] at e
    | cons u us =>
      simp only [UDiff.dos, hp, List.map_cons, List.cons.injEq] at e
      rw [← e.1]
      exact dos_separator (ok.trailer.2 u us hp)

/-! ### Remarks -/

/-- The lines are the same, or both are remarks about a missing newline. -/
def SameLine (a b : Str) : Prop := a = b ∨ ((str "\\ No newline").isPrefixOf a = true ∧ (str "\\ No newline").isPrefixOf b = true)

/-- The same, line by line. -/
inductive SameLines : List Str → List Str → Prop where
  | nil : SameLines [] []
  | cons {a b : Str} {as bs : List Str} (h : SameLine a b) (hs : SameLines as bs) : SameLines (a :: as) (b :: bs)

theorem sameLines_clean {as bs : List Str} (h : SameLines as bs) (before : List Str) :
    cleanUpLoop before as = cleanUpLoop before bs := by
  induction h generalizing before with
  | nil => rfl
  | cons h _ ih =>
    rcases h with rfl | ⟨h1, h2⟩
    · simp only [cleanUpLoop, ih]
    · simp only [cleanUpLoop, h1, h2, if_true, ih]

theorem remark_head {l p : Str} (h : (str "\\ No newline").isPrefixOf l = true) (hp : p ≠ []) (hne : p.head? ≠ some '\\') :
    p.isPrefixOf l = false := by
  obtain ⟨t, rfl⟩ := List.isPrefixOf_iff_prefix.1 h
  cases p with
  | nil => exact absurd rfl hp
  | cons c p =>
    have : c ≠ '\\' := by simpa using hne
    simp [str, List.isPrefixOf, this]

theorem sameLines_generator {as bs : List Str} (h : SameLines as bs) : determineGenerator as = determineGenerator bs := by
  induction h with
  | nil => rfl
  | cons h _ ih =>
    rcases h with rfl | ⟨h1, h2⟩
    · simp only [determineGenerator, ih]
    · simp only [determineGenerator, ih, remark_head h1 (p := str "Index: ") (by decide) (by decide),
        remark_head h2 (p := str "Index: ") (by decide) (by decide), remark_head h1 (p := str "==== ") (by decide) (by decide),
        remark_head h2 (p := str "==== ") (by decide) (by decide)]

theorem sameLines_parse {as bs : List Str} (h : SameLines as bs) (win : Bool) (cmp : Str → Str → Int) (heap : Heap) :
    parse win cmp heap as = parse win cmp heap bs := by
  unfold parse cleanUpCrap
  rw [sameLines_clean h, sameLines_generator h]

theorem SameLine.refl' (l : Str) : SameLine l l := .inl rfl
theorem sameLines_refl (ls : List Str) : SameLines ls ls := by
  induction ls with
  | nil => exact .nil
  | cons l ls ih => exact .cons (.inl rfl) ih
theorem sameLines_append {as bs cs ds : List Str} (h1 : SameLines as bs) (h2 : SameLines cs ds) :
    SameLines (as ++ cs) (bs ++ ds) := by
  induction h1 with
  | nil => exact h2
  | cons h _ ih => exact .cons h ih
theorem sameLines_flatMap {α : Type} {f g : α → List Str} (l : List α) (h : ∀ x ∈ l, SameLines (f x) (g x)) :
    SameLines (l.flatMap f) (l.flatMap g) := by
  induction l with
  | nil => exact .nil
  | cons x l ih =>
    simp only [List.flatMap_cons]
    exact sameLines_append (h x (by simp)) (ih (fun y hy => h y (by simp [hy])))

/-! ### The converted text is the text of the converted diff -/

theorem Spec.Line.dos_render (p : Char) (hp : p ≠ '\n') (l : Line) (h : '\n' ∉ l.text) :
    SameLines ((l.render p).map crlf) (l.dos.render p) := by
  have h1 : crlf (p :: (l.text ++ ['\n'])) = p :: (cr l.text ++ ['\n']) := by
    have := crlf_line (t := p :: l.text) (by simp only [List.mem_cons, not_or]; exact ⟨fun e => hp e.symm, h⟩)
    simpa [cr] using this
  obtain ⟨t, e⟩ := l
  cases e with
  | true => exact .cons (.inl (by simpa [Line.dos] using h1)) .nil
  | false =>
    refine .cons (.inl (by simpa [Line.dos] using h1)) (.cons (.inr ⟨?_, ?_⟩) .nil)
    · simp [noNewlineMarker, str, crlf, List.isPrefixOf]
    · simp [noNewlineMarker, str, List.isPrefixOf]

theorem Spec.Block.dos_render (b : Block) (h : ∀ l ∈ b.old ++ b.new, '\n' ∉ l.text) :
    SameLines (b.render.map crlf) b.dos.render := by
  have key : ∀ (p : Char) (hp : p ≠ '\n') (ls : List Line), (∀ l ∈ ls, '\n' ∉ l.text) →
      SameLines ((ls.flatMap (Line.render p)).map crlf) ((ls.map Line.dos).flatMap (Line.render p)) := by
    intro p hp ls hl
    rw [List.map_flatMap, List.flatMap_map]
    exact sameLines_flatMap _ (fun l hl' => Line.dos_render p hp l (hl l hl'))
  cases b with
  | context ls => exact key ' ' (by decide) ls (fun l hl => h l (List.mem_append_left _ hl))
  | change r a =>
    simp only [Block.render, Block.dos, List.map_append]
    exact sameLines_append (key '-' (by decide) r (fun l hl => h l (List.mem_append_left _ hl)))
      (key '+' (by decide) a (fun l hl => h l (List.mem_append_right _ hl)))

theorem Spec.UHunk.dos_header (h : UHunk) (ok : h.Ok) : crlf h.header = h.dos.header := by
  obtain ⟨t, ht, e⟩ := UHunk.header_line h ok
  rw [e, crlf_line ht]
  have e2 : t = str "@@ -" ++ range h.srcLine h.srcCount h.shortSrc ++ str " +" ++ range h.dstLine h.dstCount h.shortDst ++ str " @@" ++
    (match h.function with | none => [] | some f => if h.gap then ' ' :: f else f) := by
    unfold UHunk.header at e
    exact (List.append_cancel_right e).symm
  unfold UHunk.header
  rw [UHunk.dos_srcCount, UHunk.dos_dstCount, e2]
  cases hf : h.function with
  | none => simp [UHunk.dos, hf, cr]
  | some f =>
    cases hg : h.gap <;> simp [UHunk.dos, hf, cr, hg]

theorem Spec.UHunk.dos_render (h : UHunk) (ok : h.Ok) : SameLines (h.render.map crlf) h.dos.render := by
  simp only [UHunk.render, List.map_cons]
  refine .cons (.inl (UHunk.dos_header h ok)) ?_
  simp only [UHunk.dos]
  rw [List.map_flatMap, List.flatMap_map]
  exact sameLines_flatMap _ (fun b hb => Block.dos_render b (fun l hl => (ok.lines b hb l hl).1))

theorem Spec.Header.dos_line (p : Str) (hp : '\n' ∉ p) (h : Header) (ok : h.Ok) : crlf (p ++ h.render) = p ++ h.dos.render := by
  obtain ⟨t, ht, e⟩ := Header.line p hp h ok
  rw [e, crlf_line ht]
  have e2 : t = p ++ (h.name ++ (match h.stamp with
    | none => []
    | some ts => '\t' :: ts ++ (match h.extra with | none => [] | some e => '\t' :: e))) := by
    unfold Header.render at e
    rw [← List.append_assoc] at e
    exact (List.append_cancel_right e).symm
  rw [e2]
  clear e e2 ok
  obtain ⟨n, s, x⟩ := h
  cases s <;> cases x <;> simp [Header.dos, Header.render, cr]

theorem dos_texts (ts : List Str) (h : ∀ t ∈ ts, '\n' ∉ t) : (ts.map (· ++ ['\n'])).map crlf = (ts.map cr).map (· ++ ['\n']) := by
  rw [List.map_map, List.map_map]
  exact List.map_congr_left (fun t ht => crlf_line (h t ht))

theorem Spec.UFile.dos_render (f : UFile) (ok : f.Ok) : SameLines (f.render.map crlf) f.dos.render := by
  simp only [UFile.render, UFile.dos, List.map_append, List.map_cons, List.map_nil]
  refine sameLines_append (sameLines_append ?_ ?_) ?_
  · rw [dos_texts _ (fun t ht => (ok.between t ht).1)]; exact sameLines_refl _
  · rw [Header.dos_line _ (by decide) _ ok.src, Header.dos_line _ (by decide) _ ok.dst]; exact sameLines_refl _
  · rw [List.map_flatMap, List.flatMap_map]
    exact sameLines_flatMap _ (fun h hh => UHunk.dos_render h (ok.hunks h hh))

theorem Spec.UDiff.dos_render (d : UDiff) (ok : d.Ok) : SameLines (d.render.map crlf) d.dos.render := by
  simp only [UDiff.render, UDiff.dos, List.map_append]
  refine sameLines_append ?_ ?_
  · rw [List.map_flatMap, List.flatMap_map]
    exact sameLines_flatMap _ (fun f hf => UFile.dos_render f (ok.files f hf))
  · rw [dos_texts _ (fun t ht => (ok.trailer.1 t ht).1)]; exact sameLines_refl _

theorem Spec.UDiff.dos_lines (d : UDiff) (ok : d.Ok) : split (crlf d.render.flatten) = d.render.map crlf := by
  rw [crlf_flatten]
  apply split_flatten
  have := LineList.append (as := d.render.map crlf) (bs := []) (by
    intro x hx
    obtain ⟨y, hy, rfl⟩ := List.mem_map.1 hx
    have : ∃ t, '\n' ∉ t ∧ y = t ++ ['\n'] := by
      rcases List.mem_append.1 hy with hy | hy
      · obtain ⟨f, hf, hy⟩ := List.mem_flatMap.1 hy
        exact UFile.render_lines f (ok.files f hf) y hy
      · obtain ⟨t, ht, rfl⟩ := List.mem_map.1 hy
        exact ⟨t, (ok.trailer.1 t ht).1, rfl⟩
    obtain ⟨t, ht, rfl⟩ := this
    exact ⟨cr t, cr_newline ht, crlf_line ht⟩) .nil
  simpa using this

/-- The converted text is read like the text of the converted diff. -/
theorem parse_dos (d : UDiff) (ok : d.Ok) (hr : ∀ f ∈ d.files, ∀ h ∈ f.hunks, RoomyHunk h) (win : Bool) (cmp : Str → Str → Int) (heap : Heap) :
    parse win cmp heap (split (crlf d.render.flatten)) = parse win cmp heap (split d.dos.render.flatten) := by
  rw [UDiff.dos_lines d ok, UDiff.split_text d.dos (UDiff.dos_ok ok hr)]
  exact sameLines_parse (UDiff.dos_render d ok) win cmp heap

end KompareDiff2
