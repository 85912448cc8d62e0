import Verif.Proofs.Dos
import Verif.Props.AnyText
/-
The conversion of a text to Windows line ends does not change in which format it is read.
-/
namespace KompareDiff2
open Spec

/-! ### Lines that differ only in their ends -/

/-- A character of a line end. -/
def EndChar (c : Char) : Prop := c = '\r' ∨ c = '\n'

/-- The lines differ only in their ends. -/
def SameStart (a b : Str) : Prop := ∃ t s s', a = t ++ s ∧ b = t ++ s' ∧ (∀ c ∈ s, EndChar c) ∧ ∀ c ∈ s', EndChar c

theorem SameStart.symm {a b : Str} (h : SameStart a b) : SameStart b a := by
  obtain ⟨t, s, s', h1, h2, h3, h4⟩ := h
  exact ⟨t, s', s, h2, h1, h4, h3⟩

theorem prefix_ends {q t s : Str} {c : Char} (hs : ∀ c ∈ s, EndChar c) (hc : ¬ EndChar c) (h : (q ++ [c]) <+: t ++ s) : (q ++ [c]) <+: t := by
  induction t generalizing q with
  | nil =>
    obtain ⟨u, e⟩ := h
    exact absurd (hs c (by rw [List.nil_append] at e; rw [← e]; simp)) hc
  | cons x t ih =>
    cases q with
    | nil =>
      obtain ⟨u, e⟩ := h
      simp only [List.nil_append, List.cons_append, List.cons.injEq] at e
      exact ⟨t, by rw [e.1]; rfl⟩
    | cons y q =>
      simp only [List.cons_append] at h ⊢
      rw [List.cons_prefix_cons] at h ⊢
      exact ⟨h.1, ih h.2⟩

theorem SameStart.starts {a b q : Str} {c : Char} (h : SameStart a b) (hc : ¬ EndChar c) (hp : (q ++ [c]) <+: a) : (q ++ [c]) <+: b := by
  obtain ⟨t, s, s', rfl, rfl, h3, h4⟩ := h
  exact (prefix_ends h3 hc hp).trans (List.prefix_append _ _)

theorem digit_end {c : Char} (h : Digit c) : ¬ EndChar c := by
  rintro (rfl | rfl) <;> exact absurd h (by decide)
theorem letter_end {c : Char} (h : Letter c) : ¬ EndChar c := by
  rintro (rfl | rfl) <;> exact absurd h (by decide)

theorem SameStart.normalCmd {a b : Str} (h : SameStart a b) (k : NormalCmd a) : NormalCmd b := by
  obtain ⟨x, ys, c, z, rest, rfl, h1, h2, h3, h4⟩ := k
  obtain ⟨u, e⟩ := h.starts (q := x :: ys ++ [c]) (digit_end h4) ⟨rest, by simp⟩
  exact ⟨x, ys, c, z, u, by rw [← e]; simp, h1, h2, h3, h4⟩
theorem SameStart.edCmd {a b : Str} (h : SameStart a b) (k : EdCmd a) : EdCmd b := by
  obtain ⟨x, ys, c, rest, rfl, h1, h2, h3⟩ := k
  obtain ⟨u, e⟩ := h.starts (q := x :: ys) (letter_end h3) ⟨rest, by simp⟩
  exact ⟨x, ys, c, u, by rw [← e]; simp, h1, h2, h3⟩
theorem SameStart.rcsCmd {a b : Str} (h : SameStart a b) (k : RcsCmd a) : RcsCmd b := by
  obtain ⟨c, ds, z, rest, rfl, h1, h2, h3, h4⟩ := k
  obtain ⟨u, e⟩ := h.starts (q := c :: ds ++ [' ']) (digit_end h4) ⟨rest, by simp⟩
  exact ⟨c, ds, z, u, by rw [← e]; simp, h1, h2, h3, h4⟩
theorem SameStart.field {a b : Str} {pre : String} (h : SameStart a b) (k : Field pre a) : Field pre b := by
  obtain ⟨n, rest, rfl, h1, h2⟩ := k
  obtain ⟨u, e⟩ := h.starts (q := str pre ++ n) (c := '\t') (by rintro (h | h) <;> exact absurd h (by decide)) ⟨rest, by simp⟩
  exact ⟨n, u, by rw [← e]; simp, h1, h2⟩
theorem SameStart.normalCmdP4 {a b : Str} (h : SameStart a b) (k : NormalCmdP4 a) : NormalCmdP4 b := by
  obtain ⟨r, c, z, rest, rfl, h1, h2, h3⟩ := k
  obtain ⟨u, e⟩ := h.starts (q := r ++ [c]) (digit_end h3) ⟨rest, by simp⟩
  exact ⟨r, c, z, u, by rw [← e]; simp, h1, h2, h3⟩
theorem SameStart.pre {a b p : Str} (hp : p ≠ []) (hc : ∀ c, p.getLast? = some c → ¬ EndChar c) (h : SameStart a b) (k : p <+: a) : p <+: b := by
  obtain ⟨q, c, rfl⟩ : ∃ q c, p = q ++ [c] := ⟨p.dropLast, p.getLast hp, (List.dropLast_concat_getLast hp).symm⟩
  exact h.starts (hc c (by simp)) k

theorem plain_last {p : Str} (h : ∀ c ∈ p, c ≠ '\r' ∧ c ≠ '\n') : ∀ c, p.getLast? = some c → ¬ EndChar c := by
  intro c hc e
  have := h c (List.mem_of_getLast? hc)
  rcases e with rfl | rfl
  · exact this.1 rfl
  · exact this.2 rfl

theorem SameStart.shows {a b : Str} (h : SameStart a b) (g : Generator) (f : Format) (k : Shows g a f) : Shows g b f := by
  cases g <;> cases f <;> simp only [Shows] at k ⊢
  case CVSDiff.Normal => exact h.normalCmd k
  case CVSDiff.Unified => exact h.field k
  case CVSDiff.Context => exact h.field k
  case CVSDiff.RCS => exact h.rcsCmd k
  case CVSDiff.Ed => exact ⟨h.edCmd k.1, fun e => k.2 (h.symm.normalCmd e)⟩
  case Diff.Normal => exact h.normalCmd k
  case Diff.Unified => exact h.pre (by decide) (plain_last (by decide)) k
  case Diff.Context => exact h.pre (by decide) (plain_last (by decide)) k
  case Diff.RCS => exact h.rcsCmd k
  case Diff.Ed => exact ⟨h.edCmd k.1, fun e => k.2 (h.symm.normalCmd e)⟩
  case Perforce.Normal => exact h.normalCmdP4 k
  case Perforce.Unified => exact h.pre (by decide) (plain_last (by decide)) k
  case Perforce.Context => exact h.pre (by decide) (plain_last (by decide)) k
  case Perforce.RCS => exact h.rcsCmd k

/-! ### The lines of a converted text -/

/-- The line `a` becomes `b`: it has CR LF in place of LF; or it has lost its LF and may or may not end with CR. -/
def Converted (a b : Str) : Prop := ∃ t, '\n' ∉ t ∧ (a = t ++ ['\n'] ∧ b = cr t ++ ['\n'] ∨ a = t ∧ (b = t ∨ b = cr t))

theorem Converted.sameStart {a b : Str} (h : Converted a b) : SameStart a b := by
  obtain ⟨t, _, ⟨rfl, rfl⟩ | ⟨rfl, rfl | rfl⟩⟩ := h
  · exact ⟨t, ['\n'], ['\r', '\n'], rfl, by simp [cr], by simp [EndChar], by simp [EndChar]⟩
  · exact ⟨b, [], [], by simp, by simp, by simp, by simp⟩
  · exact ⟨a, [], ['\r'], by simp, rfl, by simp, by simp [EndChar]⟩

/-- Line by line. -/
inductive AllConverted : List Str → List Str → Prop where
  | nil : AllConverted [] []
  | cons {a b : Str} {as bs : List Str} (h : Converted a b) (hs : AllConverted as bs) : AllConverted (a :: as) (b :: bs)

theorem AllConverted.append {as bs cs ds : List Str} (h : AllConverted as bs) (h' : AllConverted cs ds) : AllConverted (as ++ cs) (bs ++ ds) := by
  induction h with
  | nil => exact h'
  | cons h _ ih => exact .cons h ih

theorem AllConverted.split_last {as bs : List Str} (h : AllConverted as bs) :
    (as = [] ∧ bs = []) ∨ ∃ as' a bs' b, as = as' ++ [a] ∧ bs = bs' ++ [b] ∧ AllConverted as' bs' ∧ Converted a b := by
  induction h with
  | nil => exact .inl ⟨rfl, rfl⟩
  | @cons a b as bs h hs ih =>
    right
    rcases ih with ⟨rfl, rfl⟩ | ⟨as', a', bs', b', rfl, rfl, h1, h2⟩
    · exact ⟨[], a, [], b, rfl, rfl, .nil, h⟩
    · exact ⟨a :: as', a', b :: bs', b', rfl, rfl, .cons h h1, h2⟩

theorem lineList_converted {ls : List Str} (h : LineList ls) : AllConverted ls (ls.map crlf) ∧ LineList (ls.map crlf) := by
  induction h with
  | nil => exact ⟨.nil, .nil⟩
  | last l hne hl =>
    have e : crlf l = l := crlf_quiet hl
    exact ⟨.cons ⟨l, hl, .inr ⟨rfl, .inl e⟩⟩ .nil, by simpa [e] using LineList.last l hne hl⟩
  | cons t ls ht hl ih =>
    have e := crlf_line ht
    simp only [List.map_cons, e]
    exact ⟨.cons ⟨t, ht, .inl ⟨rfl, rfl⟩⟩ ih.1, .cons (cr t) _ (cr_newline ht) ih.2⟩

theorem split_crlf (s : Str) : split (crlf s) = (split s).map crlf := by
  obtain ⟨h1, h2, _⟩ := C22_split s
  have : crlf s = ((split s).map crlf).flatten := by rw [← crlf_flatten, h2]
  rw [this]
  exact split_flatten (lineList_converted h1).2

theorem converted_split (s : Str) : AllConverted (split s) (split (crlf s)) := by
  rw [split_crlf]
  exact (lineList_converted (C22_split s).1).1

/-! ### Remarks, generator, format -/

theorem truncate_quiet {t : Str} (h : '\n' ∉ t) : truncateAtNewline t = [] := by
  simp [truncateAtNewline, h]

theorem Converted.truncate {a b : Str} (h : Converted a b) : Converted (truncateAtNewline a) (truncateAtNewline b) := by
  obtain ⟨t, ht, ⟨rfl, rfl⟩ | ⟨rfl, rfl | rfl⟩⟩ := h
  · rw [truncate_line t ht, truncate_line _ (cr_newline ht)]
    exact ⟨t, ht, .inr ⟨rfl, .inr rfl⟩⟩
  · rw [truncate_quiet ht]
    exact ⟨[], by simp, .inr ⟨rfl, .inl rfl⟩⟩
  · rw [truncate_quiet ht, truncate_quiet (cr_newline ht)]
    exact ⟨[], by simp, .inr ⟨rfl, .inl rfl⟩⟩

theorem Converted.prefix_eq {a b p : Str} (h : Converted a b) (hp : p ≠ []) (hc : ∀ c ∈ p, c ≠ '\r' ∧ c ≠ '\n') :
    p.isPrefixOf a = p.isPrefixOf b := by
  rw [Bool.eq_iff_iff, List.isPrefixOf_iff_prefix, List.isPrefixOf_iff_prefix]
  exact ⟨h.sameStart.pre hp (plain_last hc), h.sameStart.symm.pre hp (plain_last hc)⟩

theorem converted_generator {as bs : List Str} (h : AllConverted as bs) : determineGenerator as = determineGenerator bs := by
  induction h with
  | nil => rfl
  | cons h _ ih =>
    simp only [determineGenerator, ih, h.prefix_eq (p := str "Index: ") (by decide) (by decide), h.prefix_eq (p := str "==== ") (by decide) (by decide)]

theorem converted_format {as bs : List Str} (h : AllConverted as bs) (g : Generator) : determineFormat g as = determineFormat g bs := by
  induction h with
  | nil => rfl
  | @cons a b _ _ h _ ih =>
    have : lineFormat a (formatPatterns g) = lineFormat b (formatPatterns g) := by
      cases ha : lineFormat a (formatPatterns g) with
      | some f => exact ((shows_of_lineFormat g b f).2 (h.sameStart.shows g f ((shows_of_lineFormat g a f).1 ha))).symm
      | none =>
        cases hb : lineFormat b (formatPatterns g) with
        | none => rfl
        | some f =>
          have := (shows_of_lineFormat g a f).2 (h.sameStart.symm.shows g f ((shows_of_lineFormat g b f).1 hb))
          rw [ha] at this; cases this
    simp only [determineFormat, this, ih]

theorem converted_clean {as bs : List Str} (h : AllConverted as bs) {before before' : List Str} (hb : AllConverted before before') :
    (cleanUpLoop before as = Res.ub ∧ cleanUpLoop before' bs = Res.ub) ∨
      ∃ out out', cleanUpLoop before as = Res.ok out ∧ cleanUpLoop before' bs = Res.ok out' ∧ AllConverted out out' := by
  induction h generalizing before before' with
  | nil => exact .inr ⟨before, before', rfl, rfl, hb⟩
  | @cons a b as bs h hs ih =>
    have e := h.prefix_eq (p := str "\\ No newline") (by decide) (by decide)
    simp only [cleanUpLoop, ← e]
    cases hp : (str "\\ No newline").isPrefixOf a with
    | false =>
      simp only [Bool.false_eq_true, if_false]
      exact ih (hb.append (.cons h .nil))
    | true =>
      simp only [if_true]
      rcases hb.split_last with ⟨rfl, rfl⟩ | ⟨as', a', bs', b', rfl, rfl, h1, h2⟩
      · exact .inl ⟨rfl, rfl⟩
      · simp only [List.getLast?_append, List.getLast?_singleton, Option.some_or, List.dropLast_concat]
        exact ih (h1.append (.cons h2.truncate .nil))

/-- The converted text is cleaned like the text, and has the same generator and format. -/
theorem converted_text (s : Str) : determineGenerator (split (crlf s)) = determineGenerator (split s) ∧
    ((cleanUpCrap (split s) = Res.ub ∧ cleanUpCrap (split (crlf s)) = Res.ub) ∨
      ∃ out out', cleanUpCrap (split s) = Res.ok out ∧ cleanUpCrap (split (crlf s)) = Res.ok out' ∧ AllConverted out out' ∧
        ∀ g, determineFormat g out' = determineFormat g out) := by
  have h := converted_split s
  refine ⟨(converted_generator h).symm, ?_⟩
  rcases converted_clean h .nil with h | ⟨out, out', h1, h2, h3⟩
  · exact .inl h
  · exact .inr ⟨out, out', h1, h2, h3, fun g => (converted_format h3 g).symm⟩

/-- No line of a converted text ends with LF alone. -/
theorem AllConverted.dos {as bs : List Str} (h : AllConverted as bs) : ∀ b ∈ bs, ∀ t, b = t ++ ['\n'] → ∃ u, t = cr u := by
  induction h with
  | nil => simp
  | @cons a b as bs h hs ih =>
    intro x hx t e
    rcases List.mem_cons.1 hx with rfl | hx
    · obtain ⟨u, hu, ⟨_, rfl⟩ | ⟨_, rfl | rfl⟩⟩ := h
      · exact ⟨u, (List.append_cancel_right e).symm⟩
      · exact absurd (by rw [e]; simp) hu
      · exact absurd (by rw [e]; simp) (cr_newline hu)
    · exact ih x hx t e

end KompareDiff2
