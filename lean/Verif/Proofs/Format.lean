import Verif.Spec.Lines
import Verif.Proofs.RegexLang
/-
Detection of generator and format, cleaning of arbitrary line lists.
-/
namespace KompareDiff2
open Spec Re

instance decDigit (x : Char) : Decidable (Digit x) := by unfold Digit; infer_instance
instance decLetter (x : Char) : Decidable (Letter x) := by unfold Letter; infer_instance

theorem digitClass_iff (x : Char) : (decide ('0' ≤ x) && decide (x ≤ '9')) = true ↔ Digit x := by simp [Digit]

theorem lang_digits (s : Str) : (many1 digit).Lang s ↔ s ≠ [] ∧ ∀ c ∈ s, Digit c := by
  rw [digit, lang_many1_chr]
  simp only [digitClass_iff]

theorem lang_digitCommas (s : Str) : (many reDigitComma).Lang s ↔ ∀ c ∈ s, Digit c ∨ c = ',' := by
  rw [reDigitComma, lang_many_chr]
  simp only [Bool.or_eq_true, digitClass_iff, decide_eq_true_eq]

theorem lang_acd (s : Str) : reAcd.Lang s ↔ ∃ x, s = [x] ∧ Letter x := by
  rw [reAcd, lang_chr]
  simp only [Bool.or_eq_true, decide_eq_true_eq, Letter, or_assoc]

theorem atStart_text_iff (t s : Str) : (text t).atStart s = true ↔ t <+: s := by
  rw [atStart_iff]
  constructor
  · rintro ⟨s1, s2, e, h⟩
    rw [lang_text] at h
    exact ⟨s2, by rw [e, h]⟩
  · rintro ⟨s2, e⟩
    exact ⟨t, s2, e.symm, (lang_text _ _).2 rfl⟩

theorem digit_or_comma {d e : Str} (h1 : ∀ c ∈ d, Digit c) (h2 : ∀ c ∈ e, Digit c ∨ c = ',') : ∀ c ∈ d ++ e, Digit c ∨ c = ',' := by
  intro c hc
  rcases List.mem_append.1 hc with hc | hc
  · exact .inl (h1 c hc)
  · exact h2 c hc

theorem normal_iff (l : Str) : reFmtNormal.atStart l = true ↔ NormalCmd l := by
  rw [atStart_iff, reFmtNormal]
  simp only [lang_cat_cons, lang_cat_one]
  constructor
  · rintro ⟨_, rest, rfl, d1, _, rfl, h1, c1, _, rfl, h2, a, _, rfl, h3, d2, c2, rfl, h4, h5⟩
    rw [lang_digits] at h1 h4
    rw [lang_digitCommas] at h2
    rw [lang_acd] at h3
    obtain ⟨x, rfl, hx⟩ := h3
    obtain ⟨y, d1, rfl⟩ := List.exists_cons_of_ne_nil h1.1
    obtain ⟨z, d2, rfl⟩ := List.exists_cons_of_ne_nil h4.1
    refine ⟨y, d1 ++ c1, x, z, d2 ++ c2 ++ rest, by simp, h1.2 y (by simp), ?_, hx, h4.2 z (by simp)⟩
    exact digit_or_comma (fun c hc => h1.2 c (by simp [hc])) h2
  · rintro ⟨x, ys, c, z, rest, rfl, hx, hy, hc, hz⟩
    refine ⟨[x] ++ (ys ++ ([c] ++ ([z] ++ []))), rest, by simp, [x], _, rfl, ?_, ys, _, rfl, ?_, [c], _, rfl, ?_, [z], [], rfl, ?_, ?_⟩
    · rw [lang_digits]; simpa using hx
    · rw [lang_digitCommas]; exact hy
    · rw [lang_acd]; exact ⟨c, rfl, hc⟩
    · rw [lang_digits]; simpa using hz
    · rw [lang_digitCommas]; simp

theorem ed_iff (l : Str) : reFmtEd.atStart l = true ↔ EdCmd l := by
  rw [atStart_iff, reFmtEd]
  simp only [lang_cat_cons, lang_cat_one]
  constructor
  · rintro ⟨_, rest, rfl, d1, _, rfl, h1, c1, a, rfl, h2, h3⟩
    rw [lang_digits] at h1
    rw [lang_digitCommas] at h2
    rw [lang_acd] at h3
    obtain ⟨x, rfl, hx⟩ := h3
    obtain ⟨y, d1, rfl⟩ := List.exists_cons_of_ne_nil h1.1
    refine ⟨y, d1 ++ c1, x, rest, by simp, h1.2 y (by simp), ?_, hx⟩
    exact digit_or_comma (fun c hc => h1.2 c (by simp [hc])) h2
  · rintro ⟨x, ys, c, rest, rfl, hx, hy, hc⟩
    refine ⟨[x] ++ (ys ++ [c]), rest, by simp, [x], _, rfl, ?_, ys, _, rfl, ?_, ?_⟩
    · rw [lang_digits]; simpa using hx
    · rw [lang_digitCommas]; exact hy
    · rw [lang_acd]; exact ⟨c, rfl, hc⟩

theorem rcs_iff (l : Str) : reFmtRcs.atStart l = true ↔ RcsCmd l := by
  rw [atStart_iff, reFmtRcs]
  simp only [lang_cat_cons, lang_cat_one]
  constructor
  · rintro ⟨_, rest, rfl, a, _, rfl, h1, ds, _, rfl, h2, sp, d2, rfl, h3, h4⟩
    rw [lang_digits] at h2 h4
    rw [lang_acd] at h1
    rw [lang_lit] at h3
    obtain ⟨x, rfl, hx⟩ := h1
    obtain ⟨z, d2, rfl⟩ := List.exists_cons_of_ne_nil h4.1
    exact ⟨x, ds, z, d2 ++ rest, by simp [h3], hx, h2.1, h2.2, h4.2 z (by simp)⟩
  · rintro ⟨c, ds, z, rest, rfl, hc, hne, hd, hz⟩
    refine ⟨[c] ++ (ds ++ ([' '] ++ [z])), rest, by simp, [c], _, rfl, ?_, ds, _, rfl, ?_, [' '], [z], rfl, ?_, ?_⟩
    · rw [lang_acd]; exact ⟨c, rfl, hc⟩
    · rw [lang_digits]; exact ⟨hne, hd⟩
    · rw [lang_lit]
    · rw [lang_digits]; simpa using hz

theorem field_iff (pre : String) (l : Str) : (cat [text (str pre), many1 noTab, lit '\t']).atStart l = true ↔ Field pre l := by
  rw [atStart_iff]
  simp only [lang_cat_cons, lang_cat_one]
  constructor
  · rintro ⟨_, rest, rfl, a, _, rfl, h1, n, t, rfl, h2, h3⟩
    rw [lang_text] at h1
    rw [noTab, lang_many1_chr] at h2
    rw [lang_lit] at h3
    simp only [decide_eq_true_eq] at h2
    exact ⟨n, rest, by simp [h1, h3], h2.1, fun h => h2.2 _ h rfl⟩
  · rintro ⟨n, rest, rfl, hne, ht⟩
    refine ⟨str pre ++ (n ++ ['\t']), rest, by simp, _, _, rfl, (lang_text _ _).2 rfl, _, _, rfl, ?_, (lang_lit _ _).2 rfl⟩
    rw [noTab, lang_many1_chr]
    simp only [decide_eq_true_eq]
    exact ⟨hne, fun c hc e => ht (e ▸ hc)⟩

theorem lang_range (n : Nat) (d r : Str) (h : (many1 digit).Lang d) (h2 : (Re.grp n (.alt .eps (.seq (lit ',') (many1 digit)))).Lang r) :
    Range (d ++ r) := by
  rw [lang_digits] at h
  rw [lang_grp, lang_alt] at h2
  rcases h2 with h2 | ⟨c, e, rfl, h2, h3⟩
  · exact ⟨d, h.1, h.2, .inl (by rw [show r = [] from h2]; simp)⟩
  · rw [lang_lit] at h2
    rw [lang_digits] at h3
    exact ⟨d, h.1, h.2, .inr ⟨e, h3.1, h3.2, by simp [h2]⟩⟩

theorem range_lang (n : Nat) (l : Str) (h : Range l) :
    ∃ d r, l = d ++ r ∧ (many1 digit).Lang d ∧ (Re.grp n (.alt .eps (.seq (lit ',') (many1 digit)))).Lang r := by
  obtain ⟨d, hne, hd, h | ⟨e, hne2, he, h⟩⟩ := h
  · refine ⟨d, [], by simp [h], (lang_digits _).2 ⟨hne, hd⟩, ?_⟩
    rw [lang_grp, lang_alt]; exact .inl rfl
  · refine ⟨d, ',' :: e, by simp [h], (lang_digits _).2 ⟨hne, hd⟩, ?_⟩
    rw [lang_grp, lang_alt]
    exact .inr ⟨[','], e, rfl, (lang_lit _ _).2 rfl, (lang_digits _).2 ⟨hne2, he⟩⟩

theorem normalP4_iff (l : Str) : reFmtNormalP4.atStart l = true ↔ NormalCmdP4 l := by
  rw [atStart_iff, reFmtNormalP4]
  simp only [lang_cat_cons, lang_cat_one]
  constructor
  · rintro ⟨_, rest, rfl, d1, _, rfl, h1, c1, _, rfl, h2, a, _, rfl, h3, d2, c2, rfl, h4, h5⟩
    have hr := lang_range 1 d1 c1 h1 h2
    rw [lang_digits] at h4
    rw [lang_acd] at h3
    obtain ⟨x, rfl, hx⟩ := h3
    obtain ⟨z, d2, rfl⟩ := List.exists_cons_of_ne_nil h4.1
    exact ⟨d1 ++ c1, x, z, d2 ++ c2 ++ rest, by simp, hr, hx, h4.2 z (by simp)⟩
  · rintro ⟨r, c, z, rest, rfl, hr, hc, hz⟩
    obtain ⟨d, e, rfl, h1, h2⟩ := range_lang 1 r hr
    refine ⟨d ++ (e ++ ([c] ++ ([z] ++ []))), rest, by simp, d, _, rfl, h1, e, _, rfl, h2, [c], _, rfl, ?_, [z], [], rfl, ?_, ?_⟩
    · rw [lang_acd]; exact ⟨c, rfl, hc⟩
    · rw [lang_digits]; simpa using hz
    · rw [lang_grp, lang_alt]; exact .inl rfl

/-! ### Exclusion by the first character -/

theorem Spec.NormalCmd.head {l : Str} (h : NormalCmd l) : ∃ x s, l = x :: s ∧ Digit x := by
  obtain ⟨x, ys, c, z, rest, rfl, hx, _⟩ := h; exact ⟨x, _, rfl, hx⟩
theorem Spec.EdCmd.head {l : Str} (h : EdCmd l) : ∃ x s, l = x :: s ∧ Digit x := by
  obtain ⟨x, ys, c, rest, rfl, hx, _⟩ := h; exact ⟨x, _, rfl, hx⟩
theorem Spec.RcsCmd.head {l : Str} (h : RcsCmd l) : ∃ x s, l = x :: s ∧ Letter x := by
  obtain ⟨c, ds, z, rest, rfl, hx, _⟩ := h; exact ⟨c, _, rfl, hx⟩
theorem Spec.NormalCmdP4.head {l : Str} (h : NormalCmdP4 l) : ∃ x s, l = x :: s ∧ Digit x := by
  obtain ⟨r, c, z, rest, rfl, ⟨d, hne, hd, h | ⟨e, _, _, h⟩⟩, _⟩ := h
  · obtain ⟨x, d, rfl⟩ := List.exists_cons_of_ne_nil hne
    exact ⟨x, _, by rw [h]; rfl, hd x (by simp)⟩
  · obtain ⟨x, d, rfl⟩ := List.exists_cons_of_ne_nil hne
    exact ⟨x, _, by rw [h]; rfl, hd x (by simp)⟩
theorem unified_head {l : Str} (h : str "--- " <+: l) : ∃ s, l = '-' :: s := by obtain ⟨s, rfl⟩ := h; exact ⟨_, rfl⟩
theorem context_head {l : Str} (h : str "*** " <+: l) : ∃ s, l = '*' :: s := by obtain ⟨s, rfl⟩ := h; exact ⟨_, rfl⟩
theorem at_head {l : Str} (h : str "@@" <+: l) : ∃ s, l = '@' :: s := by obtain ⟨s, rfl⟩ := h; exact ⟨_, rfl⟩
theorem stars_head {l : Str} (h : List.replicate 15 '*' <+: l) : ∃ s, l = '*' :: s := by obtain ⟨s, rfl⟩ := h; exact ⟨_, rfl⟩
theorem Spec.Field.prefix {p : String} {l : Str} (h : Field p l) : str p <+: l := by
  obtain ⟨n, r, rfl, _⟩ := h; exact ⟨n ++ '\t' :: r, by simp⟩

theorem letter_not_digit {x : Char} (h : Letter x) : ¬ Digit x := by
  rcases h with rfl | rfl | rfl <;> decide

theorem Bool.neg_iff {b : Bool} {p : Prop} (h : b = true ↔ p) : b = false ↔ ¬ p := by
  rw [← h]; simp

/-- Kinds of first characters, disjoint. -/
inductive Kind where
  | digit | letter | minus | star | at
  deriving DecidableEq

/-- The first character of the line is of the kind. -/
def HeadKind (k : Kind) (l : Str) : Prop :=
  ∃ x s, l = x :: s ∧ match k with
    | .digit => Digit x
    | .letter => Letter x
    | .minus => x = '-'
    | .star => x = '*'
    | .at => x = '@'

theorem HeadKind.unique {k k' : Kind} {l : Str} (h : HeadKind k l) (h' : HeadKind k' l) : k = k' := by
  obtain ⟨x, s, rfl, h⟩ := h
  obtain ⟨x', s', e, h'⟩ := h'
  simp only [List.cons.injEq] at e
  obtain ⟨rfl, _⟩ := e
  cases k <;> cases k' <;> simp only at h h' <;> first
    | rfl
    | (exfalso; first
        | exact letter_not_digit h' h
        | exact letter_not_digit h h'
        | (subst h; exact absurd h' (by decide))
        | (subst h'; exact absurd h (by decide)))

theorem shows_of_lineFormat (g : Generator) (l : Str) (f : Format) : lineFormat l (formatPatterns g) = some f ↔ Shows g l f := by
  have n := normal_iff l
  have u := atStart_text_iff (str "--- ") l
  have c := atStart_text_iff (str "*** ") l
  have r := rcs_iff l
  have e := ed_iff l
  have cu := field_iff "--- " l
  have cc := field_iff "*** " l
  have pu := atStart_text_iff (str "@@") l
  have pc := atStart_text_iff (List.replicate 15 '*') l
  have pn := normalP4_iff l
  have kn : NormalCmd l → HeadKind .digit l := fun h => h.head
  have ke : EdCmd l → HeadKind .digit l := fun h => h.head
  have kr : RcsCmd l → HeadKind .letter l := fun h => h.head
  have ku : str "--- " <+: l → HeadKind .minus l := fun h => by obtain ⟨s, rfl⟩ := unified_head h; exact ⟨_, _, rfl, rfl⟩
  have kc : str "*** " <+: l → HeadKind .star l := fun h => by obtain ⟨s, rfl⟩ := context_head h; exact ⟨_, _, rfl, rfl⟩
  have kcu : Field "--- " l → HeadKind .minus l := fun h => ku h.prefix
  have kcc : Field "*** " l → HeadKind .star l := fun h => kc h.prefix
  have kpu : str "@@" <+: l → HeadKind .at l := fun h => by obtain ⟨s, rfl⟩ := at_head h; exact ⟨_, _, rfl, rfl⟩
  have kpc : List.replicate 15 '*' <+: l → HeadKind .star l := fun h => by obtain ⟨s, rfl⟩ := stars_head h; exact ⟨_, _, rfl, rfl⟩
  have kpn : NormalCmdP4 l → HeadKind .digit l := fun h => h.head
  have key : ∀ {k k' : Kind}, k ≠ k' → HeadKind k l → ¬ HeadKind k' l := fun hne h h' => hne (h.unique h')
  cases g
  · simp only [formatPatterns, lineFormat]
    have cu' : reFmtUnifiedCvs.atStart l = true ↔ Field "--- " l := cu
    have cc' : reFmtContextCvs.atStart l = true ↔ Field "*** " l := cc
    by_cases h1 : NormalCmd l
    · rw [if_pos (n.2 h1)]
      have k := kn h1
      cases f <;> simp [Shows, h1] <;> intro h <;> first
        | exact key (by decide) k (kcu h) | exact key (by decide) k (kcc h) | exact key (by decide) k (kr h)
    rw [if_neg (fun h => h1 (n.1 h))]
    by_cases h2 : Field "--- " l
    · rw [if_pos (cu'.2 h2)]
      have k := kcu h2
      cases f <;> simp [Shows, h1, h2] <;> intro h <;> first
        | exact key (by decide) k (kcc h) | exact key (by decide) k (kr h) | exact key (by decide) k (ke h)
    rw [if_neg (fun h => h2 (cu'.1 h))]
    by_cases h3 : Field "*** " l
    · rw [if_pos (cc'.2 h3)]
      have k := kcc h3
      cases f <;> simp [Shows, h1, h2, h3] <;> intro h <;> first
        | exact key (by decide) k (kr h) | exact key (by decide) k (ke h)
    rw [if_neg (fun h => h3 (cc'.1 h))]
    by_cases h4 : RcsCmd l
    · rw [if_pos (r.2 h4)]
      have k := kr h4
      cases f <;> simp [Shows, h1, h2, h3, h4] <;> intro h <;> exact key (by decide) k (ke h)
    rw [if_neg (fun h => h4 (r.1 h))]
    by_cases h5 : EdCmd l
    · rw [if_pos (e.2 h5)]
      cases f <;> simp [Shows, h1, h2, h3, h4, h5]
    rw [if_neg (fun h => h5 (e.1 h))]
    cases f <;> simp [Shows, h1, h2, h3, h4, h5]
  · simp only [formatPatterns, lineFormat]
    have u' : reFmtUnified.atStart l = true ↔ str "--- " <+: l := u
    have c' : reFmtContext.atStart l = true ↔ str "*** " <+: l := c
    by_cases h1 : NormalCmd l
    · rw [if_pos (n.2 h1)]
      have k := kn h1
      cases f <;> simp [Shows, h1] <;> intro h <;> first
        | exact key (by decide) k (ku h) | exact key (by decide) k (kc h) | exact key (by decide) k (kr h)
    rw [if_neg (fun h => h1 (n.1 h))]
    by_cases h2 : str "--- " <+: l
    · rw [if_pos (u'.2 h2)]
      have k := ku h2
      cases f <;> simp [Shows, h1, h2] <;> intro h <;> first
        | exact key (by decide) k (kc h) | exact key (by decide) k (kr h) | exact key (by decide) k (ke h)
    rw [if_neg (fun h => h2 (u'.1 h))]
    by_cases h3 : str "*** " <+: l
    · rw [if_pos (c'.2 h3)]
      have k := kc h3
      cases f <;> simp [Shows, h1, h2, h3] <;> intro h <;> first
        | exact key (by decide) k (kr h) | exact key (by decide) k (ke h)
    rw [if_neg (fun h => h3 (c'.1 h))]
    by_cases h4 : RcsCmd l
    · rw [if_pos (r.2 h4)]
      have k := kr h4
      cases f <;> simp [Shows, h1, h2, h3, h4] <;> intro h <;> exact key (by decide) k (ke h)
    rw [if_neg (fun h => h4 (r.1 h))]
    by_cases h5 : EdCmd l
    · rw [if_pos (e.2 h5)]
      cases f <;> simp [Shows, h1, h2, h3, h4, h5]
    rw [if_neg (fun h => h5 (e.1 h))]
    cases f <;> simp [Shows, h1, h2, h3, h4, h5]
  · simp only [formatPatterns, lineFormat]
    have u' : reFmtUnifiedP4.atStart l = true ↔ str "@@" <+: l := pu
    have c' : reFmtContextP4.atStart l = true ↔ List.replicate 15 '*' <+: l := pc
    by_cases h2 : str "@@" <+: l
    · rw [if_pos (u'.2 h2)]
      have k := kpu h2
      cases f <;> simp only [Shows, h2, iff_true, iff_false, Option.some.injEq, reduceCtorEq, false_iff, not_false_eq_true] <;> intro h <;> first
        | exact key (by decide) k (kpc h) | exact key (by decide) k (kr h) | exact key (by decide) k (kpn h)
    rw [if_neg (fun h => h2 (u'.1 h))]
    by_cases h3 : List.replicate 15 '*' <+: l
    · rw [if_pos (c'.2 h3)]
      have k := kpc h3
      cases f <;> simp only [Shows, h2, h3, iff_true, iff_false, Option.some.injEq, reduceCtorEq, false_iff, not_false_eq_true] <;> intro h <;> first
        | exact key (by decide) k (kr h) | exact key (by decide) k (kpn h)
    rw [if_neg (fun h => h3 (c'.1 h))]
    by_cases h1 : NormalCmdP4 l
    · rw [if_pos (pn.2 h1)]
      have k := kpn h1
      cases f <;> simp only [Shows, h1, h2, h3, iff_true, iff_false, Option.some.injEq, reduceCtorEq, false_iff, not_false_eq_true] <;> intro h <;> 
        exact key (by decide) k (kr h)
    rw [if_neg (fun h => h1 (pn.1 h))]
    by_cases h4 : RcsCmd l
    · rw [if_pos (r.2 h4)]
      cases f <;> simp only [Shows, h1, h2, h3, h4, iff_true, iff_false, Option.some.injEq, reduceCtorEq, false_iff, not_false_eq_true]
    rw [if_neg (fun h => h4 (r.1 h))]
    cases f <;> simp only [Shows, h1, h2, h3, h4, reduceCtorEq]

theorem determineFormat_iff (g : Generator) (ls : List Str) (f : Format) :
    determineFormat g ls = f ↔
      (f = .UnknownFormat ∧ ∀ l ∈ ls, ∀ f', ¬ Shows g l f') ∨
      ∃ pre l post, ls = pre ++ l :: post ∧ (∀ l' ∈ pre, ∀ f', ¬ Shows g l' f') ∧ Shows g l f := by
  induction ls with
  | nil => simp [determineFormat, eq_comm]
  | cons l ls ih =>
    simp only [determineFormat]
    cases hl : lineFormat l (formatPatterns g) with
    | some f' =>
      simp only
      rw [shows_of_lineFormat] at hl
      constructor
      · rintro rfl; exact .inr ⟨[], l, ls, rfl, by simp, hl⟩
      · rintro (⟨_, h⟩ | ⟨pre, l', post, e, h1, h2⟩)
        · exact absurd hl (h l (by simp) _)
        · cases pre with
          | nil =>
            simp only [List.nil_append, List.cons.injEq] at e
            rw [← e.1] at h2
            rw [← shows_of_lineFormat] at hl h2
            rw [hl] at h2; simpa using h2
          | cons p pre =>
            simp only [List.cons_append, List.cons.injEq] at e
            exact absurd hl (e.1 ▸ h1 p (by simp) _)
    | none =>
      simp only
      have hno : ∀ f', ¬ Shows g l f' := by
        intro f' h
        rw [← shows_of_lineFormat, hl] at h
        simp at h
      rw [ih]
      constructor
      · rintro (⟨h1, h2⟩ | ⟨pre, l', post, e, h1, h2⟩)
        · refine .inl ⟨h1, ?_⟩
          intro x hx
          rcases List.mem_cons.1 hx with rfl | hx
          · exact hno
          · exact h2 x hx
        · refine .inr ⟨l :: pre, l', post, by simp [e], ?_, h2⟩
          intro x hx
          rcases List.mem_cons.1 hx with rfl | hx
          · exact hno
          · exact h1 x hx
      · rintro (⟨h1, h2⟩ | ⟨pre, l', post, e, h1, h2⟩)
        · exact .inl ⟨h1, fun x hx => h2 x (by simp [hx])⟩
        · cases pre with
          | nil =>
            simp only [List.nil_append, List.cons.injEq] at e
            exact absurd (e.1 ▸ h2) (hno _)
          | cons p pre =>
            simp only [List.cons_append, List.cons.injEq] at e
            exact .inr ⟨pre, l', post, e.2, fun x hx => h1 x (by simp [hx]), h2⟩

theorem unknown_not_shown (g : Generator) (l : Str) : ¬ Shows g l .UnknownFormat := by
  cases g <;> simp [Shows]

/-! ### Generator -/

theorem index_not_perforce {l : Str} (h : str "Index: " <+: l) : ¬ str "==== " <+: l := by
  rintro ⟨s, rfl⟩
  obtain ⟨t, e⟩ := h
  simp [str] at e

theorem generator_iff (ls : List Str) :
    (determineGenerator ls = .CVSDiff ↔ ∃ pre l post, ls = pre ++ l :: post ∧ str "Index: " <+: l ∧ ∀ l' ∈ pre, ¬ str "==== " <+: l') ∧
    (determineGenerator ls = .Perforce ↔ ∃ pre l post, ls = pre ++ l :: post ∧ str "==== " <+: l ∧ ∀ l' ∈ pre, ¬ str "Index: " <+: l') := by
  induction ls with
  | nil => simp [determineGenerator]
  | cons l ls ih =>
    simp only [determineGenerator, List.isPrefixOf_iff_prefix]
    by_cases h1 : str "Index: " <+: l
    · rw [if_pos h1]
      refine ⟨⟨fun _ => ⟨[], l, ls, rfl, h1, by simp⟩, fun _ => rfl⟩, ⟨by simp, ?_⟩⟩
      rintro ⟨pre, l', post, e, h2, h3⟩
      cases pre with
      | nil =>
        simp only [List.nil_append, List.cons.injEq] at e
        exact absurd (e.1 ▸ h2) (index_not_perforce h1)
      | cons p pre =>
        simp only [List.cons_append, List.cons.injEq] at e
        exact absurd (e.1 ▸ h1) (h3 p (by simp))
    · rw [if_neg h1]
      by_cases h2 : str "==== " <+: l
      · rw [if_pos h2]
        refine ⟨⟨by simp, ?_⟩, ⟨fun _ => ⟨[], l, ls, rfl, h2, by simp⟩, fun _ => rfl⟩⟩
        rintro ⟨pre, l', post, e, h4, h3⟩
        cases pre with
        | nil =>
          simp only [List.nil_append, List.cons.injEq] at e
          exact absurd (e.1 ▸ h4) h1
        | cons p pre =>
          simp only [List.cons_append, List.cons.injEq] at e
          exact absurd (e.1 ▸ h2) (h3 p (by simp))
      · rw [if_neg h2]
        have lift : ∀ a b : String, ¬ str a <+: l → ¬ str b <+: l →
            ((∃ pre x post, ls = pre ++ x :: post ∧ str a <+: x ∧ ∀ l' ∈ pre, ¬ str b <+: l') ↔
              ∃ pre x post, l :: ls = pre ++ x :: post ∧ str a <+: x ∧ ∀ l' ∈ pre, ¬ str b <+: l') := by
          intro a b ha hb
          constructor
          · rintro ⟨pre, x, post, e, h3, h4⟩
            refine ⟨l :: pre, x, post, by simp [e], h3, ?_⟩
            intro y hy
            rcases List.mem_cons.1 hy with rfl | hy
            · exact hb
            · exact h4 y hy
          · rintro ⟨pre, x, post, e, h3, h4⟩
            cases pre with
            | nil =>
              simp only [List.nil_append, List.cons.injEq] at e
              exact absurd (e.1 ▸ h3) ha
            | cons p pre =>
              simp only [List.cons_append, List.cons.injEq] at e
              exact ⟨pre, x, post, e.2, h3, fun y hy => h4 y (by simp [hy])⟩
        exact ⟨ih.1.trans (lift _ _ h1 h2), ih.2.trans (lift _ _ h2 h1)⟩

/-! ### Cleaning -/

theorem not_remark {l : Str} (h : ¬ Remark l) : (str "\\ No newline").isPrefixOf l = false := by
  rw [Bool.eq_false_iff, ne_eq, List.isPrefixOf_iff_prefix]; exact h

theorem truncate_nil (l : Str) (h : '\n' ∉ l) : truncateAtNewline l = [] := by
  unfold truncateAtNewline
  rw [if_neg]
  simpa using h

theorem truncate_noNewline (l : Str) : '\n' ∉ truncateAtNewline l := by
  unfold truncateAtNewline
  split
  · intro h
    have : ∀ (q : Char → Bool) (l : Str) (c : Char), c ∈ l.takeWhile q → q c = true := by
      intro q l c
      induction l with
      | nil => simp
      | cons x l ih =>
        rw [List.takeWhile_cons]
        split
        · rename_i hq
          intro hc
          rcases List.mem_cons.1 hc with rfl | hc
          · exact hq
          · exact ih hc
        · simp
    have := this _ _ _ h
    simp at this
  · simp

theorem cleanUpLoop_remarks (before : List Str) (l : Str) (ms rest : List Str) (h : ∀ m ∈ ms, Remark m) :
    cleanUpLoop (before ++ [l]) (ms ++ rest) = cleanUpLoop (before ++ [ms.foldl (fun l _ => truncateAtNewline l) l]) rest := by
  induction ms generalizing l with
  | nil => rfl
  | cons m ms ih =>
    have hm : (str "\\ No newline").isPrefixOf m = true := by rw [List.isPrefixOf_iff_prefix]; exact h m (by simp)
    simp only [List.cons_append, cleanUpLoop, hm, if_true, List.getLast?_append, List.getLast?_singleton, Option.some_or,
      List.dropLast_concat, List.foldl_cons]
    exact ih _ (fun x hx => h x (by simp [hx]))

theorem cleanUpLoop_groups (gs : List Remarked) (h : ∀ g ∈ gs, g.Ok) (before : List Str) :
    cleanUpLoop before (gs.flatMap Remarked.raw) =
      Res.ok (before ++ gs.map (fun g => g.remarks.foldl (fun l _ => truncateAtNewline l) g.line)) := by
  induction gs generalizing before with
  | nil => simp [cleanUpLoop]
  | cons g gs ih =>
    obtain ⟨h1, h2⟩ := h g (by simp)
    simp only [List.flatMap_cons, Remarked.raw, List.cons_append, cleanUpLoop, not_remark h1, Bool.false_eq_true, if_false]
    rw [cleanUpLoop_remarks _ _ _ _ h2, ih (fun g hg => h g (by simp [hg]))]
    simp

theorem groups_exist (ls : List Str) : (∃ m ms, ls = m :: ms ∧ Remark m) ∨ ∃ gs : List Remarked, (∀ g ∈ gs, g.Ok) ∧ ls = gs.flatMap Remarked.raw := by
  induction ls with
  | nil => exact .inr ⟨[], by simp, rfl⟩
  | cons l ls ih =>
    by_cases hl : Remark l
    · exact .inl ⟨l, ls, rfl, hl⟩
    · right
      -- the remarks directly behind the line
      have hsplit : ∀ ls : List Str, ∃ ms rest : List Str, ls = ms ++ rest ∧ (∀ m ∈ ms, Remark m) ∧ ∀ x xs, rest = x :: xs → ¬ Remark x := by
        intro ls
        induction ls with
        | nil => exact ⟨[], [], rfl, by simp, by simp⟩
        | cons a as ih =>
          by_cases ha : Remark a
          · obtain ⟨ms, rest, e, h1, h2⟩ := ih
            refine ⟨a :: ms, rest, by simp [e], ?_, h2⟩
            intro m hm
            rcases List.mem_cons.1 hm with rfl | hm
            · exact ha
            · exact h1 m hm
          · exact ⟨[], a :: as, rfl, by simp, by intro x xs e; simp only [List.cons.injEq] at e; exact e.1 ▸ ha⟩
      have hgroups : ∀ n (ls : List Str), ls.length ≤ n → (∀ x xs, ls = x :: xs → ¬ Remark x) →
          ∃ gs : List Remarked, (∀ g ∈ gs, g.Ok) ∧ ls = gs.flatMap Remarked.raw := by
        intro n
        induction n with
        | zero =>
          intro ls h _
          exact ⟨[], by simp, by simpa using h⟩
        | succ n ih =>
          intro ls h h0
          cases ls with
          | nil => exact ⟨[], by simp, rfl⟩
          | cons x xs =>
            obtain ⟨ms, rest, e, h1, h2⟩ := hsplit xs
            have hlen : rest.length ≤ n := by
              simp only [List.length_cons] at h
              rw [e, List.length_append] at h
              omega
            obtain ⟨gs, hg, e2⟩ := ih rest hlen h2
            refine ⟨⟨x, ms⟩ :: gs, ?_, by simp [Remarked.raw, e, e2]⟩
            intro g hg'
            rcases List.mem_cons.1 hg' with rfl | hg'
            · exact ⟨h0 x xs rfl, h1⟩
            · exact hg g hg'
      exact hgroups _ _ (Nat.le_refl _) (by intro x xs e; simp only [List.cons.injEq] at e; exact e.1 ▸ hl)

theorem foldl_truncate (l : Str) (ms : List Str) :
    ms.foldl (fun l _ => truncateAtNewline l) l =
      match ms.length with
      | 0 => l
      | 1 => truncateAtNewline l
      | _ => [] := by
  have hnil : ∀ ms : List Str, ms.foldl (fun l _ => truncateAtNewline l) ([] : Str) = [] := by
    intro ms
    induction ms with
    | nil => rfl
    | cons m ms ih => simpa [truncateAtNewline] using ih
  cases ms with
  | nil => rfl
  | cons m ms =>
    cases ms with
    | nil => rfl
    | cons m' ms =>
      simp only [List.foldl_cons, List.length_cons]
      rw [truncate_nil _ (truncate_noNewline _)]
      exact hnil ms

end KompareDiff2
