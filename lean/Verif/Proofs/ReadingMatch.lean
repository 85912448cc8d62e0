import Verif.Spec.Reading
import Verif.Proofs.RegexLang
import Verif.Proofs.UnifiedHunk
/-
The lines recognised by the patterns of the parsers are those of Spec/Reading.lean.
-/
namespace KompareDiff2
open Spec Re

theorem many1Digit_lang (s : Str) : (many1 digit).Lang s ↔ Digits s := by
  rw [digit, lang_many1_chr, Digits]
  simp only [Digit, Bool.and_eq_true, decide_eq_true_eq]

theorem manyDot_lang (s : Str) : (many dot).Lang s ↔ '\n' ∉ s := by
  rw [dot, lang_many_chr]
  constructor
  · intro h hm; simpa using h _ hm
  · intro h c hc; simp only [decide_eq_true_eq]; intro e; exact h (e ▸ hc)

theorem lazyDot_lang (s : Str) : (Re.star false dot).Lang s ↔ '\n' ∉ s := manyDot_lang s

theorem many1NoTab_lang (s : Str) : (many1 noTab).Lang s ↔ s ≠ [] ∧ '\t' ∉ s := by
  rw [noTab, lang_many1_chr]
  refine and_congr_right fun _ => ?_
  constructor
  · intro h hm; simpa using h _ hm
  · intro h c hc; simp only [decide_eq_true_eq]; intro e; exact h (e ▸ hc)

theorem unifiedTail_lang (s : Str) : reUnifiedHeaderTail.Lang s ↔ ∃ name tail, s = name ++ tail ++ ['\n'] ∧ name ≠ [] ∧ '\t' ∉ name ∧
    (tail = [] ∨ ∃ ts more, tail = '\t' :: ts ++ more ∧ ts ≠ [] ∧ '\t' ∉ ts ∧ '\n' ∉ more) := by
  simp only [reUnifiedHeaderTail, lang_cat_cons, lang_cat_one, lang_grp, lang_opt, many1NoTab_lang, manyDot_lang, lang_lit]
  constructor
  · rintro ⟨name, _, rfl, ⟨hn, ht⟩, tail, _, rfl, htail, rfl⟩
    refine ⟨name, tail, by simp, hn, ht, ?_⟩
    rcases htail with ⟨_, _, rfl, rfl, ts, _, rfl, ⟨h1, h2⟩, o, m, rfl, ho, hm⟩ | rfl
    · refine .inr ⟨ts, o ++ m, by simp, h1, h2, ?_⟩
      rcases ho with rfl | rfl
      · simp [hm]
      · simpa using hm
    · exact .inl rfl
  · rintro ⟨name, tail, rfl, hn, ht, htail⟩
    refine ⟨name, tail ++ ['\n'], by simp, ⟨hn, ht⟩, tail, ['\n'], rfl, ?_, rfl⟩
    rcases htail with rfl | ⟨ts, more, rfl, h1, h2, h3⟩
    · exact .inr rfl
    · exact .inl ⟨['\t'], ts ++ more, by simp, rfl, ts, more, rfl, ⟨h1, h2⟩, [], more, rfl, .inr rfl, h3⟩

theorem unifiedHeader1_lang (l : Str) : reUnifiedHeader1.Lang l ↔ UnifiedHeaderLine "--- " l := by
  rw [reUnifiedHeader1, lang_seq]
  simp only [lang_text, unifiedTail_lang, UnifiedHeaderLine]
  constructor
  · rintro ⟨_, _, rfl, rfl, name, tail, rfl, h⟩; exact ⟨name, tail, by simp, h⟩
  · rintro ⟨name, tail, rfl, h⟩; exact ⟨_, name ++ tail ++ ['\n'], by simp, rfl, name, tail, rfl, h⟩

theorem unifiedHeader2_lang (l : Str) : reUnifiedHeader2.Lang l ↔ UnifiedHeaderLine "+++ " l := by
  rw [reUnifiedHeader2, lang_seq]
  simp only [lang_text, unifiedTail_lang, UnifiedHeaderLine]
  constructor
  · rintro ⟨_, _, rfl, rfl, name, tail, rfl, h⟩; exact ⟨name, tail, by simp, h⟩
  · rintro ⟨name, tail, rfl, h⟩; exact ⟨_, name ++ tail ++ ['\n'], by simp, rfl, name, tail, rfl, h⟩

theorem p4Header_lang (l : Str) : reP4Header.Lang l ↔ PerforceHeaderLine l := by
  simp only [reP4Header, lang_cat_cons, lang_cat_one, lang_grp, lazyDot_lang, lang_text, PerforceHeaderLine]
  constructor
  · rintro ⟨_, _, rfl, rfl, s, _, rfl, hs, _, _, rfl, rfl, t, _, rfl, ht, rfl⟩; exact ⟨s, t, by simp, hs, ht⟩
  · rintro ⟨s, t, rfl, hs, ht⟩; exact ⟨_, s ++ (str " - " ++ (t ++ str " ====\n")), by simp, rfl, s, _, rfl, hs, _, _, rfl, rfl, t, _, rfl, ht, rfl⟩

theorem contextHeader_lang (pre : String) (l : Str) : (reContextDiffHeader pre).Lang l ↔ ContextHeaderLine pre l := by
  simp only [reContextDiffHeader, lang_cat_cons, lang_cat_one, lang_grp, lang_opt, lang_seq, many1NoTab_lang, lang_lit, lang_text, ContextHeaderLine]
  constructor
  · rintro ⟨_, _, rfl, rfl, name, _, rfl, ⟨hn, ht⟩, tail, _, rfl, htail, rfl⟩
    refine ⟨name, tail, by simp, hn, ht, ?_⟩
    rcases htail with ⟨_, ts, rfl, rfl, h⟩ | rfl
    · exact .inr ⟨ts, rfl, h⟩
    · exact .inl rfl
  · rintro ⟨name, tail, rfl, hn, ht, htail⟩
    refine ⟨_, name ++ (tail ++ ['\n']), by simp, rfl, name, _, rfl, ⟨hn, ht⟩, tail, _, rfl, ?_, rfl⟩
    rcases htail with rfl | ⟨ts, rfl, h⟩
    · exact .inr rfl
    · exact .inl ⟨['\t'], ts, rfl, rfl, h⟩

theorem cvsHeader1_lang (l : Str) : reContextDiffHeader1Cvs.Lang l ↔ CvsHeaderLine1 l := by
  simp only [reContextDiffHeader1Cvs, lang_cat_cons, lang_cat_one, lang_grp, many1NoTab_lang, manyDot_lang, lang_lit, lang_text, CvsHeaderLine1]
  constructor
  · rintro ⟨_, _, rfl, rfl, name, _, rfl, ⟨h1, h2⟩, _, _, rfl, rfl, ts, _, rfl, ⟨h3, h4⟩, _, _, rfl, rfl, rev, _, rfl, h5, rfl⟩
    exact ⟨name, ts, rev, by simp, h1, h2, h3, h4, h5⟩
  · rintro ⟨name, ts, rev, rfl, h1, h2, h3, h4, h5⟩
    exact ⟨_, name ++ (['\t'] ++ (ts ++ (['\t'] ++ (rev ++ ['\n'])))), by simp, rfl, name, _, rfl, ⟨h1, h2⟩, _, _, rfl, rfl, ts, _, rfl, ⟨h3, h4⟩,
      _, _, rfl, rfl, rev, _, rfl, h5, rfl⟩

theorem cvsHeader2_lang (l : Str) : reContextDiffHeader2Cvs.Lang l ↔ CvsHeaderLine2 l := by
  simp only [reContextDiffHeader2Cvs, lang_cat_cons, lang_cat_one, lang_grp, lang_alt, lang_seq, many1NoTab_lang, manyDot_lang, lang_lit, lang_text,
    CvsHeaderLine2]
  constructor
  · rintro ⟨_, _, rfl, rfl, name, _, rfl, ⟨h1, h2⟩, _, _, rfl, rfl, ts, _, rfl, ⟨h3, h4⟩, rev, _, rfl, h5, rfl⟩
    refine ⟨name, ts, rev, by simp, h1, h2, h3, h4, ?_⟩
    rcases h5 with h5 | ⟨_, r, rfl, rfl, h5⟩
    · exact .inl h5
    · exact .inr ⟨r, rfl, h5⟩
  · rintro ⟨name, ts, rev, rfl, h1, h2, h3, h4, h5⟩
    refine ⟨_, name ++ (['\t'] ++ (ts ++ (rev ++ ['\n']))), by simp, rfl, name, _, rfl, ⟨h1, h2⟩, _, _, rfl, rfl, ts, _, rfl, ⟨h3, h4⟩,
      rev, _, rfl, ?_, rfl⟩
    rcases h5 with h5 | ⟨r, rfl, h5⟩
    · exact .inl h5
    · exact .inr ⟨['\t'], r, rfl, rfl, h5⟩

theorem starLine_lang (l : Str) : reContextHunkHeader1.Lang l ↔ StarLine l := by
  simp only [reContextHunkHeader1, lang_cat_cons, lang_cat_one, lang_grp, lang_opt, manyDot_lang, lang_lit, lang_text, StarLine]
  constructor
  · rintro ⟨_, _, rfl, rfl, o, _, rfl, ho, f, _, rfl, hf, rfl⟩
    refine ⟨o ++ f, by simp, ?_⟩
    rcases ho with rfl | rfl
    · simp [hf]
    · simpa using hf
  · rintro ⟨f, rfl, hf⟩
    exact ⟨_, [] ++ (f ++ ['\n']), by simp, rfl, [], _, rfl, .inr rfl, f, _, rfl, hf, rfl⟩

theorem oldRange_lang (l : Str) : reContextHunkHeader2.Lang l ↔ OldRange l := by
  simp only [reContextHunkHeader2, lang_cat_cons, lang_cat_one, lang_grp, manyDot_lang, many1Digit_lang, lang_lit, lang_text, OldRange]
  constructor
  · rintro ⟨_, _, rfl, rfl, a, _, rfl, ha, _, _, rfl, rfl, b, _, rfl, hb, _, _, rfl, rfl, t, _, rfl, ht, rfl⟩
    exact ⟨a, b, t, by simp, ha, hb, ht⟩
  · rintro ⟨a, b, t, rfl, ha, hb, ht⟩
    exact ⟨_, a ++ ([','] ++ (b ++ (str " ****" ++ (t ++ ['\n'])))), by simp, rfl, a, _, rfl, ha, _, _, rfl, rfl, b, _, rfl, hb, _, _, rfl, rfl, t, _,
      rfl, ht, rfl⟩

theorem newRange_lang (l : Str) : reContextHunkHeader3.Lang l ↔ NewRange l := by
  simp only [reContextHunkHeader3, lang_cat_cons, lang_cat_one, lang_grp, many1Digit_lang, lang_lit, lang_text, NewRange]
  constructor
  · rintro ⟨_, _, rfl, rfl, a, _, rfl, ha, _, _, rfl, rfl, b, _, rfl, hb, rfl⟩
    exact ⟨a, b, by simp, ha, hb⟩
  · rintro ⟨a, b, rfl, ha, hb⟩
    exact ⟨_, a ++ ([','] ++ (b ++ str " ----\n")), by simp, rfl, a, _, rfl, ha, _, _, rfl, rfl, b, _, rfl, hb, rfl⟩

theorem sectionLine_full (l : Str) : (reContextLine.full l).isSome = true ↔ SectionLine l := by
  rw [Option.isSome_iff_exists]
  constructor
  · rintro ⟨c, h⟩
    obtain ⟨x, t, hx, ht, rfl, _⟩ := reBody_full.1 h
    refine ⟨x, t, rfl, ?_, ht⟩
    simp only [Bool.or_eq_true, decide_eq_true_eq] at hx
    rcases hx with ((h | h) | h) | h <;> simp [h]
  · rintro ⟨x, t, rfl, hx, ht⟩
    refine ⟨_, reBody_full.2 ⟨x, t, ?_, ht, rfl, rfl⟩⟩
    rcases hx with h | h | h | h <;> simp [h]

theorem count_lang (n : Nat) (s : Str) : (reCount n).Lang s ↔ s = [] ∨ ∃ d, s = ',' :: d ∧ Digits d := by
  simp only [reCount, lang_grp, lang_alt, lang_seq, lang_lit, many1Digit_lang]
  refine or_congr Iff.rfl ?_
  constructor
  · rintro ⟨_, d, rfl, rfl, h⟩; exact ⟨d, rfl, h⟩
  · rintro ⟨d, rfl, h⟩; exact ⟨[','], d, rfl, rfl, h⟩

theorem hunkHeader_lang (l : Str) : reUnifiedHunkHeader.Lang l ↔ ∃ n m, HunkHeaderLine l n m := by
  simp only [reUnifiedHunkHeader, lang_cat_cons, lang_cat_one, lang_grp, lang_opt, manyDot_lang, many1Digit_lang, lang_lit, lang_text, count_lang,
    HunkHeaderLine]
  constructor
  · rintro ⟨_, _, rfl, rfl, a, _, rfl, ha, na, _, rfl, hna, _, _, rfl, rfl, b, _, rfl, hb, nb, _, rfl, hnb, _, _, rfl, rfl, o, _, rfl, ho, f, _,
      rfl, hf, rfl⟩
    have h1 : ∀ s : Str, (s = [] ∨ ∃ d, s = ',' :: d ∧ Digits d) → ∃ n, (s = [] ∧ n = 1 ∨ ∃ d, s = ',' :: d ∧ Digits d ∧ n = decimal d) := by
      rintro s (h | ⟨d, h1, h2⟩)
      · exact ⟨1, .inl ⟨h, rfl⟩⟩
      · exact ⟨decimal d, .inr ⟨d, h1, h2, rfl⟩⟩
    obtain ⟨n, hn⟩ := h1 na hna
    obtain ⟨m, hm⟩ := h1 nb hnb
    refine ⟨n, m, a, b, na, nb, o ++ f, by simp, ha, hb, ?_, hn, hm⟩
    rcases ho with rfl | rfl
    · simp [hf]
    · simpa using hf
  · rintro ⟨n, m, a, b, na, nb, f, rfl, ha, hb, hf, hn, hm⟩
    have h1 : ∀ (s : Str) (n : Nat), (s = [] ∧ n = 1 ∨ ∃ d, s = ',' :: d ∧ Digits d ∧ n = decimal d) → (s = [] ∨ ∃ d, s = ',' :: d ∧ Digits d) := by
      rintro s n (h | ⟨d, h1, h2, _⟩)
      · exact .inl h.1
      · exact .inr ⟨d, h1, h2⟩
    exact ⟨_, a ++ (na ++ (str " +" ++ (b ++ (nb ++ (str " @@" ++ ([] ++ (f ++ ['\n']))))))), by simp, rfl, a, _, rfl, ha, na, _, rfl, h1 _ _ hn, _, _,
      rfl, rfl, b, _, rfl, hb, nb, _, rfl, h1 _ _ hm, _, _, rfl, rfl, [], _, rfl, .inr rfl, f, _, rfl, hf, rfl⟩

theorem hunkHeader_values (a b na nb f : Str) (ha : Digits a) (hb : Digits b) (hna : na = [] ∨ ∃ d, na = ',' :: d ∧ Digits d)
    (hnb : nb = [] ∨ ∃ d, nb = ',' :: d ∧ Digits d) (hf : '\n' ∉ f) :
    ∃ c, reUnifiedHunkHeader.full (str "@@ -" ++ (a ++ (na ++ (str " +" ++ (b ++ (nb ++ (str " @@" ++ (f ++ ['\n'])))))))) = some c ∧
      c.get 1 = a ∧ c.get 3 = na.drop 1 ∧ c.get 4 = b ∧ c.get 6 = nb.drop 1 ∧ c.get 7 = if f.head? = some ' ' then f.drop 1 else f := by
  have hd : ∀ x, Digit x ↔ IsDigit x := fun x => Iff.rfl
  have hcnt : ∀ s : Str, (s = [] ∨ ∃ d, s = ',' :: d ∧ Digits d) → ∃ o : Option Str, (∀ u, o = some u → u ≠ [] ∧ ∀ x ∈ u, IsDigit x) ∧
      s = (match o with | none => [] | some u => ',' :: u) := by
    rintro s (rfl | ⟨d, rfl, h⟩)
    · exact ⟨none, by simp, rfl⟩
    · exact ⟨some d, by rintro u hu; simp only [Option.some.injEq] at hu; subst hu; exact h, rfl⟩
  obtain ⟨oa, h1, rfl⟩ := hcnt na hna
  obtain ⟨ob, h2, rfl⟩ := hcnt nb hnb
  have ht : ∃ v, v = (if f.head? = some ' ' then f.drop 1 else f) ∧ ∀ c, ((lit ' ').m (f ++ ['\n']) c (fun s' c' => (Re.cat [.grp 7 (many dot), lit '\n']).m s' c' endK)).or
      ((Re.cat [.grp 7 (many dot), lit '\n']).m (f ++ ['\n']) c endK) = some ((7, v) :: c) := by
    cases f with
    | nil =>
      refine ⟨[], by simp, fun c => ?_⟩
      have := dotLit_newline 7 [] c (by simp)
      simp only [List.nil_append] at this
      simp only [List.nil_append, m_lit_cons, m_cat_cons, m_cat_one, this]
      simp
    | cons x f =>
      simp only [List.mem_cons, not_or] at hf
      by_cases hx : x = ' '
      · refine ⟨f, by simp [hx], fun c => ?_⟩
        have := dotLit_newline 7 f c hf.2
        simp only [List.cons_append, m_lit_cons, hx, if_true, m_cat_cons, m_cat_one, this, Option.some_or]
      · refine ⟨x :: f, by simp [hx], fun c => ?_⟩
        have := dotLit_newline 7 (x :: f) c (by simp [hf.1, hf.2])
        simp only [List.cons_append] at this
        simp only [List.cons_append, m_lit_cons, hx, if_false, m_cat_cons, m_cat_one, this, Option.none_or]
  obtain ⟨v, hv, ht⟩ := ht
  refine ⟨(7, v) :: (match ob with
      | none => (5, []) :: (4, b) :: (match oa with | none => [(2, []), (1, a)] | some u => [(2, ',' :: u), (3, u), (1, a)])
      | some v => (5, ',' :: v) :: (6, v) :: (4, b) ::
        (match oa with | none => [(2, []), (1, a)] | some u => [(2, ',' :: u), (3, u), (1, a)])), ?_, ?_⟩
  · simp only [Re.full, reUnifiedHunkHeader]
    rw [m_cat_cons, m_text_append, m_cat_cons, m_grp]
    refine m_digits a _ _ _ _ ha.2 ha.1 ?_ ?_
    · intro x hx
      cases oa with
      | none => simp [str] at hx; subst hx; decide
      | some u => simp at hx; subst hx; decide
    rw [take_len, m_cat_cons]
    refine m_count 2 oa _ _ _ _ h1 (by simp [str]) ?_ ?_
    · intro s' c' h; exact count_rest_none (x := '+') rfl s' c' h
    rw [m_cat_cons, m_text_append, m_cat_cons, m_grp]
    refine m_digits b _ _ _ _ hb.2 hb.1 ?_ ?_
    · intro x hx
      cases ob with
      | none => simp [str] at hx; subst hx; decide
      | some u => simp at hx; subst hx; decide
    rw [take_len, m_cat_cons]
    refine m_count 5 ob _ _ _ _ h2 (by simp [str]) ?_ ?_
    · intro s' c' h; exact count_rest_none3 s' c' h
    rw [m_cat_cons, m_text_append, m_cat_cons, m_opt]
    refine (ht _).trans ?_
    cases oa <;> cases ob <;> rfl
  · rw [← hv]; cases oa <;> cases ob <;> simp [Caps.get, List.lookup]

theorem toIntOk_digits {d : Str} (h : Digits d) : toIntOk d = if decimal d ≤ intMax then ((decimal d : Int), true) else (0, false) := by
  simp only [toIntOk, h.1, if_false]
  rfl

theorem count_value {s : Str} {n : Nat} (h : s = [] ∧ n = 1 ∨ ∃ d, s = ',' :: d ∧ Digits d ∧ n = decimal d) :
    (if s.drop 1 = [] then ((1 : Int), true) else toIntOk (s.drop 1)) = if n ≤ intMax then ((n : Int), true) else (0, false) := by
  rcases h with ⟨rfl, rfl⟩ | ⟨d, rfl, h, rfl⟩
  · simp [intMax]
  · simp only [List.drop_succ_cons, List.drop_zero, h.1, if_false, toIntOk_digits h]

/-- What the parser reads from a hunk header. -/
theorem hunkHeader_full {l : Str} {n m : Nat} (h : HunkHeaderLine l n m) : ∃ c, reUnifiedHunkHeader.full l = some c ∧
    (intMax < n ∨ intMax < m → unifiedHeaderValues c = none) ∧
    (n ≤ intMax → m ≤ intMax → ∃ u, unifiedHeaderValues c = some u ∧ u.countA = n ∧ u.countB = m) := by
  obtain ⟨a, b, na, nb, f, rfl, ha, hb, hf, hn, hm⟩ := h
  have h1 : ∀ (s : Str) (n : Nat), (s = [] ∧ n = 1 ∨ ∃ d, s = ',' :: d ∧ Digits d ∧ n = decimal d) → (s = [] ∨ ∃ d, s = ',' :: d ∧ Digits d) := by
    rintro s n (h | ⟨d, h1, h2, _⟩)
    · exact .inl h.1
    · exact .inr ⟨d, h1, h2⟩
  obtain ⟨c, hc, _, h3, _, h6, _⟩ := hunkHeader_values a b na nb f ha hb (h1 _ _ hn) (h1 _ _ hm) hf
  refine ⟨c, by simpa using hc, ?_, ?_⟩
  · intro hbig
    unfold unifiedHeaderValues
    simp only [h3, h6, count_value hn, count_value hm]
    by_cases hn' : n ≤ intMax
    · have hm' : ¬ m ≤ intMax := by omega
      simp [hn', hm']
    · simp [hn']
  · intro hn' hm'
    unfold unifiedHeaderValues
    simp only [h3, h6, count_value hn, count_value hm, hn', hm', if_true, Bool.true_eq_false, if_false]
    exact ⟨_, rfl, rfl, rfl⟩

end KompareDiff2
