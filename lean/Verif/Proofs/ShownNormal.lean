import Verif.Spec.ShownNormal
import Verif.Proofs.ShownContextOnce
import Verif.Proofs.NormalDiff
/-
What the parser shows of arbitrary lines: the normal format.
-/
namespace KompareDiff2
open Spec Re

/-! ### `diff OPTIONS OLD NEW` -/

theorem m_optionChars_k {α : Type} {s : Str} {c : Caps} {k : Str → Caps → Option α} {r : α}
    (h : (cat [many1 reOptionChar, lit ' ']).m s c k = some r) : ∃ n u, s = n ++ ' ' :: u ∧ n ≠ [] ∧ (∀ x ∈ n, OptionChar x) ∧ k u c = some r := by
  rw [m_cat_cons, m_many1, reOptionChar] at h
  cases s with
  | nil => simp at h
  | cons x s =>
    rw [m_chr_cons] at h
    split at h
    · rename_i hp
      rw [m_many_chr] at h
      obtain ⟨t, u, rfl, ht, hk⟩ := greedy_some h
      cases u with
      | nil => simp at hk
      | cons y u =>
        simp only [m_cat_one, m_lit_cons] at hk
        split at hk
        · rename_i hy
          subst hy
          refine ⟨x :: t, u, rfl, by simp, ?_, hk⟩
          intro z hz
          rcases List.mem_cons.1 hz with rfl | hz
          · exact (optionChar_iff z).1 hp
          · exact (optionChar_iff z).1 (ht z hz)
        · cases hk
    · cases h

theorem m_option_k {α : Type} {s : Str} {c : Caps} {k : Str → Caps → Option α} {r : α} (h : reOption.m s c k = some r) :
    ∃ w u, OptionWord w ∧ s = w ++ ' ' :: u ∧ k u c = some r := by
  rw [reOption, m_cat_cons, m_alt] at h
  cases s with
  | nil => exact absurd h (by simp [m_text, str])
  | cons x s =>
    by_cases hx : x = '-'
    · subst hx
      rw [m_lit_cons, if_pos rfl] at h
      cases h1 : (cat [many1 reOptionChar, lit ' ']).m s c k with
      | some r' =>
        obtain ⟨n, u, rfl, hn, ho, hk⟩ := m_optionChars_k h1
        rw [h1] at h
        simp only [Option.some_or, Option.some.injEq] at h
        exact ⟨'-' :: n, u, ⟨n, hn, ho, .inl rfl⟩, rfl, by rw [hk, h]⟩
      | none =>
        rw [h1, Option.none_or, m_text] at h
        split at h
        · rename_i hp
          obtain ⟨v, e⟩ := List.isPrefixOf_iff_prefix.1 hp
          have e' : s = '-' :: v := (congrArg List.tail e).symm
          subst e'
          have h2 : (cat [many1 reOptionChar, lit ' ']).m v c k = some r := h
          obtain ⟨n, u, rfl, hn, ho, hk⟩ := m_optionChars_k h2
          exact ⟨'-' :: '-' :: n, u, ⟨n, hn, ho, .inr rfl⟩, rfl, hk⟩
        · cases h
    · have : ('-' == x) = false := by simpa using fun e => hx e.symm
      exact absurd h (by simp [m_text, str, List.isPrefixOf, this, hx])

/-- The options are read one after the other, whatever is done after them. -/
theorem m_options_then {α : Type} (ws : List Str) (s : Str) (c : Caps) (k : Str → Caps → Option α) (r : α) (hw : ∀ w ∈ ws, OptionWord w)
    (hs : ∀ n, s.length < n → starM (fun s c k => reOption.m s c k) true n s c k = some r) :
    (many reOption).m (ws.flatMap (· ++ [' ']) ++ s) c k = some r := by
  have key : ∀ n, (ws.flatMap (· ++ [' ']) ++ s).length < n →
      starM (fun s c k => reOption.m s c k) true n (ws.flatMap (· ++ [' ']) ++ s) c k = some r := by
    induction ws with
    | nil => exact hs
    | cons w ws ih =>
      intro n hn
      cases n with
      | zero => omega
      | succ n =>
        have e : (w :: ws).flatMap (· ++ [' ']) ++ s = w ++ ' ' :: (ws.flatMap (· ++ [' ']) ++ s) := by simp
        rw [e] at hn ⊢
        rw [starM_succ, if_pos rfl, m_option w (ws.flatMap (· ++ [' ']) ++ s) c _ r (hw w (by simp))]
        · rfl
        · rw [if_pos (by simp only [List.length_append, List.length_cons]; omega)]
          apply ih (fun w h => hw w (by simp [h]))
          simp only [List.length_append, List.length_cons] at hn ⊢; omega
  exact key _ (by omega)

/-- The pattern after the options. -/
def reNames : Re :=
  cat [.alt .eps (.seq (text (str "--")) (many1 (lit ' '))), .grp 1 (many dot), many1 (lit ' '), .grp 2 (many dot), lit '\n']

theorem spaces_lang {s : Str} (h : (many1 (lit ' ')).Lang s) : ' ' ∈ s := by
  unfold lit at h
  rw [lang_many1_chr] at h
  cases s with
  | nil => exact absurd rfl h.1
  | cons x s =>
    have := h.2 x (by simp)
    simp only [decide_eq_true_eq] at this
    simp [this]

theorem names_space {u : Str} (h : reNames.Lang u) : ' ' ∈ u := by
  unfold reNames at h
  rw [lang_cat_cons] at h
  obtain ⟨s1, s2, rfl, _, h⟩ := h
  rw [lang_cat_cons] at h
  obtain ⟨s3, s4, rfl, _, h⟩ := h
  rw [lang_cat_cons] at h
  obtain ⟨s5, s6, rfl, h5, _⟩ := h
  have := spaces_lang h5
  simp [this]

theorem names_none {t : Str} (h : ' ' ∉ t) : reNames.m (t ++ ['\n']) [] endK = none := by
  have := (Re.full_none reNames (t ++ ['\n'])).2 (fun hl => by
    have := names_space hl
    simp [h] at this)
  exact this

/-- The names of a header line are understood. -/
theorem diffLine_full {l s t : Str} (h : DiffLine l s t) : reNormalDiffHeader.full l = some [(2, t), (1, s)] := by
  obtain ⟨ws, rfl, hw, hs, ht, hts, hmax⟩ := h
  have e : str "diff " ++ ws.flatMap (· ++ [' ']) ++ s ++ ' ' :: t ++ ['\n'] = str "diff " ++ (ws.flatMap (· ++ [' ']) ++ (s ++ ' ' :: (t ++ ['\n']))) := by simp
  unfold reNormalDiffHeader Re.full
  rw [e, m_cat_cons, m_text_append, m_cat_cons]
  refine m_options_then ws _ _ _ _ hw ?_
  intro n hn
  cases n with
  | zero => omega
  | succ n =>
    rw [starM_succ, if_pos rfl]
    have hk : reNames.m (s ++ ' ' :: (t ++ ['\n'])) [] endK = some [(2, t), (1, s)] := m_names s t [] hs ht hts
    have hopt : ∀ k : Str → Caps → Option Caps, reOption.m (s ++ ' ' :: (t ++ ['\n'])) [] k = none ∨ ∃ r, k (t ++ ['\n']) [] = some r := by
      intro k
      cases hx : reOption.m (s ++ ' ' :: (t ++ ['\n'])) [] k with
      | none => exact .inl rfl
      | some r =>
        obtain ⟨w, u, h1, h2, h3⟩ := m_option_k hx
        right
        have hws := optionWord_noSpace h1
        -- the option ends at the last space
        have : u = t ++ ['\n'] := by
          by_cases hss : ' ' ∈ s
          · exfalso
            obtain ⟨p, q, rfl, hp⟩ : ∃ p q, s = p ++ ' ' :: q ∧ ' ' ∉ p := by
              clear hx h2 hk hmax hs hn e
              induction s with
              | nil => simp at hss
              | cons x s ih =>
                by_cases hxs : x = ' '
                · exact ⟨[], s, by rw [hxs]; rfl, by simp⟩
                · have : ' ' ∈ s := by
                    rcases List.mem_cons.1 hss with h | h
                    · exact absurd h.symm hxs
                    · exact h
                  obtain ⟨p, q, rfl, hp⟩ := ih this
                  refine ⟨x :: p, q, rfl, ?_⟩
                  simp only [List.mem_cons, not_or]
                  exact ⟨fun h => hxs h.symm, hp⟩
            have := split_at (c := ' ') (s := p) (t := w) hp hws (by rw [← h2]; simp; rfl)
            exact hmax w h1 ⟨q, by rw [this.1]; simp⟩
          · exact (split_at (c := ' ') (s := s) (t := w) hss hws h2).2.symm
        rw [this] at h3
        exact ⟨r, h3⟩
    have key : reOption.m (s ++ ' ' :: (t ++ ['\n'])) [] (fun s' c' => if s'.length < (s ++ ' ' :: (t ++ ['\n'])).length then
        starM (fun s c k => reOption.m s c k) true n s' c' (fun s c => reNames.m s c endK) else none) = none := by
      rcases hopt (fun s' c' => if s'.length < (s ++ ' ' :: (t ++ ['\n'])).length then
        starM (fun s c k => reOption.m s c k) true n s' c' (fun s c => reNames.m s c endK) else none) with h | ⟨r, h⟩
      · exact h
      · exfalso
        split at h
        · cases n with
          | zero => rw [starM, names_none hts] at h; cases h
          | succ n =>
            rw [starM_succ, if_pos rfl] at h
            have h1 : ∀ k : Str → Caps → Option Caps, reOption.m (t ++ ['\n']) [] k = none := by
              intro k
              cases hx : reOption.m (t ++ ['\n']) [] k with
              | none => rfl
              | some r =>
                obtain ⟨w, u, _, h2, _⟩ := m_option_k hx
                exfalso
                have : ' ' ∈ t ++ ['\n'] := by rw [h2]; simp
                simp [hts] at this
            rw [h1, names_none hts] at h
            cases h
        · cases h
    exact (congrArg (fun x => Option.or x _) key).trans hk

theorem last_space {r : Str} (h : ' ' ∈ r) : ∃ s t, r = s ++ ' ' :: t ∧ ' ' ∉ t := by
  induction r with
  | nil => simp at h
  | cons x r ih =>
    by_cases hr : ' ' ∈ r
    · obtain ⟨s, t, rfl, ht⟩ := ih hr
      exact ⟨x :: s, t, rfl, ht⟩
    · rcases List.mem_cons.1 h with h | h
      · exact ⟨[], r, by rw [← h]; rfl, hr⟩
      · exact absurd h hr

/-- A line with a space after the first one can be divided into options and names. -/
theorem options_divide (n : Nat) (r : Str) (hn : r.length ≤ n) (hs : ' ' ∈ r) (hl : '\n' ∉ r) :
    ∃ (ws : List Str) (s t : Str), r = ws.flatMap (· ++ [' ']) ++ (s ++ ' ' :: t) ∧ (∀ w ∈ ws, OptionWord w) ∧ '\n' ∉ s ∧ '\n' ∉ t ∧ ' ' ∉ t ∧
      ∀ w, OptionWord w → ¬ (w ++ [' ']) <+: s := by
  induction n generalizing r with
  | zero =>
    cases r with
    | nil => simp at hs
    | cons x r => simp at hn
  | succ n ih =>
    obtain ⟨s, t, rfl, ht⟩ := last_space hs
    simp only [List.mem_append, List.mem_cons, not_or] at hl
    by_cases hw : ∃ w, OptionWord w ∧ (w ++ [' ']) <+: s
    · obtain ⟨w, hw, q, rfl⟩ := hw
      have e : w ++ [' '] ++ q ++ ' ' :: t = w ++ ' ' :: (q ++ ' ' :: t) := by simp
      obtain ⟨ws, s', t', e1, e2, e3⟩ := ih (q ++ ' ' :: t) (by simp at hn ⊢; omega) (by simp)
        (by simp only [List.mem_append, List.mem_cons, not_or] at hl ⊢; exact ⟨hl.1.2, hl.2⟩)
      refine ⟨w :: ws, s', t', ?_, ?_, e3⟩
      · rw [e, e1]; simp
      · intro x hx
        rcases List.mem_cons.1 hx with rfl | hx
        · exact hw
        · exact e2 x hx
    · exact ⟨[], s, t, rfl, by simp, hl.1, hl.2.2, ht, fun w h1 h2 => hw ⟨w, h1, h2⟩⟩

theorem diffHeader_divides {l : Str} (h : DiffHeaderLine l) : ∃ s t, DiffLine l s t := by
  obtain ⟨r, rfl, h1, h2⟩ := h
  obtain ⟨ws, s, t, rfl, e⟩ := options_divide r.length r (by omega) h1 h2
  exact ⟨s, t, ws, by simp, e⟩

theorem option_noNewline {x : Str} (h : reOption.Lang x) : '\n' ∉ x := by
  unfold reOption at h
  rw [lang_cat_cons] at h
  obtain ⟨s1, s2, rfl, h1, h⟩ := h
  rw [lang_cat_cons] at h
  obtain ⟨s3, s4, rfl, h3, h⟩ := h
  rw [lang_cat_one, lang_lit] at h
  rw [reOptionChar, lang_many1_chr] at h3
  have e1 : '\n' ∉ s1 := by
    rw [lang_alt, lang_lit, lang_text] at h1
    rcases h1 with rfl | rfl <;> decide
  have e3 : '\n' ∉ s3 := fun hx => absurd ((optionChar_iff _).1 (h3.2 _ hx)) (by unfold OptionChar; decide)
  subst h
  simp [e1, e3]

theorem many_option_noNewline {s : Str} (h : (many reOption).Lang s) : '\n' ∉ s := by
  obtain ⟨ss, rfl, h⟩ := h
  intro hx
  obtain ⟨x, hx1, hx2⟩ := List.mem_flatten.1 hx
  exact option_noNewline (h x hx1) hx2

theorem names_shape {u : Str} (h : reNames.Lang u) : ∃ v, u = v ++ ['\n'] ∧ ' ' ∈ v ∧ '\n' ∉ v := by
  unfold reNames at h
  rw [lang_cat_cons] at h
  obtain ⟨s1, s2, rfl, h1, h⟩ := h
  rw [lang_cat_cons] at h
  obtain ⟨s3, s4, rfl, h3, h⟩ := h
  rw [lang_cat_cons] at h
  obtain ⟨s5, s6, rfl, h5, h⟩ := h
  rw [lang_cat_cons] at h
  obtain ⟨s7, s8, rfl, h7, h⟩ := h
  rw [lang_cat_one, lang_lit] at h
  rw [lang_grp, manyDot_lang] at h3 h7
  have h5' : ∀ s, (many1 (lit ' ')).Lang s → '\n' ∉ s := by
    intro s h hx
    unfold lit at h
    rw [lang_many1_chr] at h
    simpa using h.2 _ hx
  have e1 : '\n' ∉ s1 := by
    rw [lang_alt, lang_seq] at h1
    rcases h1 with h1 | ⟨a, b, rfl, ha, hb⟩
    · have : s1 = [] := h1
      simp [this]
    · rw [lang_text] at ha
      subst ha
      simp [str, h5' b hb]
  subst h
  refine ⟨s1 ++ (s3 ++ (s5 ++ s7)), by simp, ?_, ?_⟩
  · simp [spaces_lang h5]
  · simp [e1, h3, h5' s5 h5, h7]

theorem diffHeader_lang (l : Str) : reNormalDiffHeader.Lang l ↔ DiffHeaderLine l := by
  constructor
  · intro h
    unfold reNormalDiffHeader at h
    rw [lang_cat_cons] at h
    obtain ⟨s1, s2, rfl, h1, h⟩ := h
    rw [lang_cat_cons] at h
    obtain ⟨s3, s4, rfl, h3, h⟩ := h
    rw [lang_text] at h1
    obtain ⟨v, rfl, e1, e2⟩ := names_shape h
    refine ⟨s3 ++ v, by rw [h1]; simp, by simp [e1], ?_⟩
    simp [many_option_noNewline h3, e2]
  · intro h
    obtain ⟨s, t, h⟩ := diffHeader_divides h
    rw [← Re.full_isSome, diffLine_full h]; rfl

theorem diffHeader_full {l : Str} {c : Caps} (h : reNormalDiffHeader.full l = some c) : DiffLine l (c.get 1) (c.get 2) := by
  have hl : reNormalDiffHeader.Lang l := by rw [← Re.full_isSome, h]; rfl
  obtain ⟨s, t, hd⟩ := diffHeader_divides ((diffHeader_lang l).1 hl)
  rw [diffLine_full hd] at h
  simp only [Option.some.injEq] at h
  rw [← h]
  exact hd

theorem diffLine_det {l s t s' t' : Str} (h : DiffLine l s t) (h' : DiffLine l s' t') : s = s' ∧ t = t' := by
  have e := diffLine_full h
  rw [diffLine_full h'] at e
  simp only [Option.some.injEq, List.cons.injEq, Prod.mk.injEq, true_and, and_true] at e
  exact ⟨e.2.symm, e.1.symm⟩

/-! ### `Index: name` -/

theorem indexHeader_lang (l : Str) : reIndexHeader.Lang l ↔ ∃ name, IndexLine l name := by
  unfold reIndexHeader IndexLine
  rw [lang_cat_cons]
  constructor
  · rintro ⟨s1, s2, rfl, h1, h⟩
    rw [lang_cat_cons] at h
    obtain ⟨s3, s4, rfl, h3, h⟩ := h
    rw [lang_cat_one, lang_lit] at h
    rw [lang_grp, manyDot_lang] at h3
    rw [lang_text] at h1
    subst h h1
    exact ⟨s3, by simp, h3⟩
  · rintro ⟨name, rfl, h⟩
    refine ⟨str "Index: ", name ++ ['\n'], by simp, (lang_text _ _).2 rfl, ?_⟩
    rw [lang_cat_cons]
    exact ⟨name, ['\n'], rfl, (manyDot_lang _).2 h, (lang_lit _ _).2 rfl⟩

theorem indexLine_full {l name : Str} (h : IndexLine l name) : reIndexHeader.full l = some [(1, name)] := by
  obtain ⟨rfl, h⟩ := h
  unfold reIndexHeader Re.full
  rw [List.append_assoc, m_cat_cons, m_text_append]
  exact dotLit_newline 1 name [] h

theorem indexHeader_full {l : Str} {c : Caps} (h : reIndexHeader.full l = some c) : IndexLine l (c.get 1) := by
  have hl : reIndexHeader.Lang l := by rw [← Re.full_isSome, h]; rfl
  obtain ⟨name, hd⟩ := (indexHeader_lang l).1 hl
  rw [indexLine_full hd] at h
  simp only [Option.some.injEq] at h
  rw [← h]
  exact hd

/-! ### Command lines -/

theorem digits_noNewline {d : Str} (h : Digits d) : '\n' ∉ d := fun hx => nl_noDigit (h.2 _ hx)

theorem rangeEnd_noNewline {e : Str} (h : RangeEnd e) : '\n' ∉ e := by
  rcases h with rfl | ⟨d, rfl, h⟩
  · simp
  · simp [digits_noNewline h]

theorem digits_divide {b r : Str} (hb : Digits b) (hr : '\n' ∉ r) : ∃ b' t, b ++ r = b' ++ t ∧ Digits b' ∧ '\n' ∉ t ∧ ∀ d, t.head? = some d → ¬ Digit d := by
  induction r generalizing b with
  | nil => exact ⟨b, [], rfl, hb, by simp, by simp⟩
  | cons x r ih =>
    by_cases hx : Digit x
    · obtain ⟨b', t, e, k⟩ := ih (b := b ++ [x]) ⟨by simp, fun d hd => by
        rcases List.mem_append.1 hd with hd | hd
        · exact hb.2 d hd
        · simp only [List.mem_singleton] at hd; subst hd; exact hx⟩ (fun h => hr (by simp [h]))
      exact ⟨b', t, by rw [← e]; simp, k⟩
    · refine ⟨b, x :: r, rfl, hb, hr, ?_⟩
      intro d hd
      simp only [List.head?_cons, Option.some.injEq] at hd
      subst hd; exact hx

theorem noDigit_line {t : Str} (h : ∀ d, t.head? = some d → ¬ Digit d) : ∀ x, (t ++ ['\n']).head? = some x → ¬ IsDigit x := by
  intro x hx
  cases t with
  | nil => simp at hx; rw [← hx]; exact nl_noDigit
  | cons y t => exact h x hx

theorem added_full (a b t : Str) (ha : Digits a) (hb : Digits b) (ht : '\n' ∉ t) (hd : ∀ d, t.head? = some d → ¬ Digit d) :
    reNormalAdded.full (a ++ 'a' :: (b ++ (t ++ ['\n']))) = some [(4, t), (3, []), (2, b), (1, a)] := by
  unfold reNormalAdded Re.full
  rw [m_cat_cons, m_grp]
  refine m_digits a _ _ _ _ ha.2 ha.1 (fun x hx => by simp at hx; rw [← hx]; exact a_noDigit) ?_
  rw [take_len, m_cat_cons, m_lit_cons, if_pos rfl, m_cat_cons, m_grp]
  refine m_digits b _ _ _ _ hb.2 hb.1 (noDigit_line hd) ?_
  rw [take_len]
  exact m_rangeTail 3 t _ ht

theorem removed_full (a e b t : Str) (ha : Digits a) (he : RangeEnd e) (hb : Digits b) (ht : '\n' ∉ t) (hd : ∀ d, t.head? = some d → ¬ Digit d) :
    reNormalRemoved.full (a ++ (e ++ 'd' :: (b ++ (t ++ ['\n'])))) = some [(4, t), (3, b), (2, e), (1, a)] := by
  unfold reNormalRemoved Re.full
  rw [m_cat_cons, m_grp]
  refine m_digits a _ _ _ _ ha.2 ha.1 (head_noDigit he d_noDigit) ?_
  rw [take_len, m_cat_cons]
  refine m_rangeEnd 2 e _ 'd' _ _ _ he d_noDigit (fun s' c' => cat_lit_none 'd' ',' _ _ _ _ _ (by decide)) ?_
  rw [m_cat_cons, m_lit_cons, if_pos rfl, m_cat_cons, m_grp]
  refine m_digits b _ _ _ _ hb.2 hb.1 (noDigit_line hd) ?_
  rw [take_len]
  exact dotLit_newline 4 t _ ht

theorem changed_full (a e b t : Str) (ha : Digits a) (he : RangeEnd e) (hb : Digits b) (ht : '\n' ∉ t) (hd : ∀ d, t.head? = some d → ¬ Digit d) :
    reNormalChanged.full (a ++ (e ++ 'c' :: (b ++ (t ++ ['\n'])))) = some [(5, t), (4, []), (3, b), (2, e), (1, a)] := by
  unfold reNormalChanged Re.full
  rw [m_cat_cons, m_grp]
  refine m_digits a _ _ _ _ ha.2 ha.1 (head_noDigit he c_noDigit) ?_
  rw [take_len, m_cat_cons]
  refine m_rangeEnd 2 e _ 'c' _ _ _ he c_noDigit (fun s' c' => cat_lit_none 'c' ',' _ _ _ _ _ (by decide)) ?_
  rw [m_cat_cons, m_lit_cons, if_pos rfl, m_cat_cons, m_grp]
  refine m_digits b _ _ _ _ hb.2 hb.1 (noDigit_line hd) ?_
  rw [take_len]
  exact m_rangeTail 4 t _ ht

/-- A command line is understood. -/
theorem command_head_ok {l : Str} {ty : DiffType} {x y : Int} (h : CommandHead l ty x y) : normalHunkHeader l = some (ty, x, y) := by
  obtain ⟨a, e, c, b, t, rfl, ha, he, hb, ht, hd, rfl, rfl, hc⟩ := h
  have hl : a ++ e ++ c :: b ++ t ++ ['\n'] = a ++ (e ++ c :: (b ++ (t ++ ['\n']))) := by simp
  rw [hl]
  have he' : RangeEnd e := he
  have hA : c ≠ 'a' → ¬ IsDigit c → c ≠ ',' → reNormalAdded.full (a ++ (e ++ c :: (b ++ (t ++ ['\n'])))) = none := by
    intro h1 h2 h3
    rw [Re.full_none]
    intro h
    obtain ⟨d, s, h, hd⟩ := added_form h
    exact h1 (letter_unique (e' := []) ha hd he' (.inl rfl) h2 a_noDigit h3 (by decide) h)
  rcases hc with ⟨rfl, rfl, rfl⟩ | ⟨rfl, rfl⟩ | ⟨rfl, rfl⟩
  · rw [List.nil_append, normalHunkHeader, added_full a b t ha hb ht hd]
    exact congrArg some (by rw [← toInt_number ha, ← toInt_number hb]; rfl)
  · rw [normalHunkHeader, hA (by decide) d_noDigit (by decide), removed_full a e b t ha he' hb ht hd]
    exact congrArg some (by rw [← toInt_number ha, ← toInt_number hb]; rfl)
  · have hR : reNormalRemoved.full (a ++ (e ++ 'c' :: (b ++ (t ++ ['\n'])))) = none := by
      rw [Re.full_none]
      intro h
      obtain ⟨d, e', s, h, hd, he''⟩ := removed_form h
      exact absurd (letter_unique ha hd he' he'' c_noDigit d_noDigit (by decide) (by decide) h) (by decide)
    rw [normalHunkHeader, hA (by decide) c_noDigit (by decide), hR, changed_full a e b t ha he' hb ht hd]
    exact congrArg some (by rw [← toInt_number ha, ← toInt_number hb]; rfl)

theorem added_divides {l : Str} (h : reNormalAdded.Lang l) : ∃ x y, CommandHead l .Insert x y := by
  unfold reNormalAdded at h
  rw [lang_cat_cons] at h
  obtain ⟨s1, s2, rfl, h1, h⟩ := h
  rw [lang_cat_cons] at h
  obtain ⟨s3, s4, rfl, h3, h⟩ := h
  rw [lang_cat_cons] at h
  obtain ⟨s5, s6, rfl, h5, h⟩ := h
  rw [lang_cat_cons] at h
  obtain ⟨s7, s8, rfl, h7, h⟩ := h
  rw [lang_cat_cons] at h
  obtain ⟨s9, s10, rfl, h9, h⟩ := h
  rw [lang_cat_one, lang_lit] at h
  rw [lang_lit] at h3
  rw [lang_grp, many1Digit_lang] at h1 h5
  rw [rangeEnd_lang] at h7
  rw [lang_grp, manyDot_lang] at h9
  subst h h3
  obtain ⟨b, t, e, k1, k2, k3⟩ := digits_divide h5 (r := s7 ++ s9) (by simp [rangeEnd_noNewline h7, h9])
  refine ⟨_, _, s1, [], 'a', b, t, ?_, h1, .inl rfl, k1, k2, k3, rfl, rfl, .inl ⟨rfl, rfl, rfl⟩⟩
  have : s5 ++ (s7 ++ (s9 ++ ['\n'])) = b ++ t ++ ['\n'] := by rw [← e]; simp
  simp [this]

theorem removed_divides {l : Str} (h : reNormalRemoved.Lang l) : ∃ x y, CommandHead l .Delete x y := by
  unfold reNormalRemoved at h
  rw [lang_cat_cons] at h
  obtain ⟨s1, s2, rfl, h1, h⟩ := h
  rw [lang_cat_cons] at h
  obtain ⟨s3, s4, rfl, h3, h⟩ := h
  rw [lang_cat_cons] at h
  obtain ⟨s5, s6, rfl, h5, h⟩ := h
  rw [lang_cat_cons] at h
  obtain ⟨s7, s8, rfl, h7, h⟩ := h
  rw [lang_cat_cons] at h
  obtain ⟨s9, s10, rfl, h9, h⟩ := h
  rw [lang_cat_one, lang_lit] at h
  rw [lang_lit] at h5
  rw [lang_grp, many1Digit_lang] at h1 h7
  rw [rangeEnd_lang] at h3
  rw [lang_grp, manyDot_lang] at h9
  subst h h5
  obtain ⟨b, t, e, k1, k2, k3⟩ := digits_divide h7 (r := s9) (h9)
  refine ⟨_, _, s1, s3, 'd', b, t, ?_, h1, h3, k1, k2, k3, rfl, rfl, .inr (.inl ⟨rfl, rfl⟩)⟩
  have : s7 ++ (s9 ++ ['\n']) = b ++ t ++ ['\n'] := by rw [← e]; simp
  simp [this]

theorem changed_divides {l : Str} (h : reNormalChanged.Lang l) : ∃ x y, CommandHead l .Change x y := by
  unfold reNormalChanged at h
  rw [lang_cat_cons] at h
  obtain ⟨s1, s2, rfl, h1, h⟩ := h
  rw [lang_cat_cons] at h
  obtain ⟨s3, s4, rfl, h3, h⟩ := h
  rw [lang_cat_cons] at h
  obtain ⟨s5, s6, rfl, h5, h⟩ := h
  rw [lang_cat_cons] at h
  obtain ⟨s7, s8, rfl, h7, h⟩ := h
  rw [lang_cat_cons] at h
  obtain ⟨s9, s10, rfl, h9, h⟩ := h
  rw [lang_cat_cons] at h
  obtain ⟨s11, s12, rfl, h11, h⟩ := h
  rw [lang_cat_one, lang_lit] at h
  rw [lang_lit] at h5
  rw [lang_grp, many1Digit_lang] at h1 h7
  rw [rangeEnd_lang] at h3
  rw [rangeEnd_lang] at h9
  rw [lang_grp, manyDot_lang] at h11
  subst h h5
  obtain ⟨b, t, e, k1, k2, k3⟩ := digits_divide h7 (r := s9 ++ s11) (by simp [rangeEnd_noNewline h9, h11])
  refine ⟨_, _, s1, s3, 'c', b, t, ?_, h1, h3, k1, k2, k3, rfl, rfl, .inr (.inr ⟨rfl, rfl⟩)⟩
  have : s7 ++ (s9 ++ (s11 ++ ['\n'])) = b ++ t ++ ['\n'] := by rw [← e]; simp
  simp [this]

theorem command_head_iff {l : Str} {ty : DiffType} {x y : Int} : normalHunkHeader l = some (ty, x, y) ↔ CommandHead l ty x y := by
  refine ⟨?_, command_head_ok⟩
  intro h
  have key : CommandLine l := by
    have h' := h
    unfold normalHunkHeader at h'
    split at h'
    · rename_i c hc
      obtain ⟨x, y, k⟩ := added_divides ((Re.full_isSome _ _).1 (by rw [hc]; rfl))
      exact ⟨_, x, y, k⟩
    · split at h'
      · rename_i c hc
        obtain ⟨x, y, k⟩ := removed_divides ((Re.full_isSome _ _).1 (by rw [hc]; rfl))
        exact ⟨_, x, y, k⟩
      · split at h'
        · rename_i c hc
          obtain ⟨x, y, k⟩ := changed_divides ((Re.full_isSome _ _).1 (by rw [hc]; rfl))
          exact ⟨_, x, y, k⟩
        · cases h'
  obtain ⟨ty', x', y', k⟩ := key
  rw [command_head_ok k] at h
  simp only [Option.some.injEq, Prod.mk.injEq] at h
  obtain ⟨rfl, rfl, rfl⟩ := h
  exact k

theorem command_none_iff {l : Str} : normalHunkHeader l = none ↔ ¬ CommandLine l := by
  constructor
  · rintro h ⟨ty, x, y, k⟩
    rw [command_head_ok k] at h; cases h
  · intro h
    cases hx : normalHunkHeader l with
    | none => rfl
    | some r => exact absurd ⟨r.1, r.2.1, r.2.2, command_head_iff.1 hx⟩ h

theorem commandHead_det {l : Str} {ty ty' : DiffType} {x y x' y' : Int} (h : CommandHead l ty x y) (h' : CommandHead l ty' x' y') :
    ty = ty' ∧ x = x' ∧ y = y' := by
  have e := command_head_ok h
  rw [command_head_ok h'] at e
  simp only [Option.some.injEq, Prod.mk.injEq] at e
  exact ⟨e.1.symm, e.2.1.symm, e.2.2.symm⟩

/-! ### Commands -/

theorem divider_iff (l : Str) : (reNormalDivider.full l).isSome = true ↔ l = str "---\n" := by
  rw [Re.full_isSome, reNormalDivider, lang_text]

/-- The lines of a command. -/
theorem normalBody_shown (ty : DiffType) (hty : ty ≠ .Unchanged) (a b : Int) (ls : List Str) :
    CommandBody (normalHunkBody ty a b ls).1.view ls (normalHunkBody ty a b ls).2 := by
  have hm : ∀ m x, (fun x => decide (x = m)) x = true ↔ x = m := isMark
  have r1 := captureRun_run (hm '<') ls
  cases ty with
  | Unchanged => exact absurd rfl hty
  | Insert =>
    have r2 := captureRun_run (hm '>') ls
    have e : normalHunkBody .Insert a b ls = ((captureRun reNormalBodyAdded ls).1.foldl Diff.addDest (Diff.new a b .Insert), (captureRun reNormalBodyAdded ls).2) := by
      simp [normalHunkBody]
    rw [e]
    simp only
    rw [show (captureRun reNormalBodyAdded ls).1.foldl Diff.addDest (Diff.new a b .Insert) = (captureRun reNormalBodyAdded ls).1.foldl Diff.addDest (([] : List Str).foldl Diff.addSource (Diff.new a b .Insert)) from rfl, built_view]
    exact .insert _ _ rfl rfl r2
  | Delete =>
    have e : normalHunkBody .Delete a b ls = ((captureRun reNormalBodyRemoved ls).1.foldl Diff.addSource (Diff.new a b .Delete), (captureRun reNormalBodyRemoved ls).2) := by
      simp [normalHunkBody]
    rw [e]
    simp only
    rw [show (captureRun reNormalBodyRemoved ls).1.foldl Diff.addSource (Diff.new a b .Delete) = ([] : List Str).foldl Diff.addDest ((captureRun reNormalBodyRemoved ls).1.foldl Diff.addSource (Diff.new a b .Delete)) from rfl, built_view]
    exact .delete _ _ rfl r1 rfl
  | Change =>
    cases hr : (captureRun reNormalBodyRemoved ls).2 with
    | nil =>
      have e : normalHunkBody .Change a b ls = ((captureRun reNormalBodyRemoved ls).1.foldl Diff.addSource (Diff.new a b .Change), []) := by
        simp [normalHunkBody, hr]
      rw [e]
      simp only
      rw [show (captureRun reNormalBodyRemoved ls).1.foldl Diff.addSource (Diff.new a b .Change) = ([] : List Str).foldl Diff.addDest ((captureRun reNormalBodyRemoved ls).1.foldl Diff.addSource (Diff.new a b .Change)) from rfl, built_view]
      have r1' : MarkedRun '<' ls (captureRun reNormalBodyRemoved ls).1 [] := by rw [← hr]; exact r1
      exact .undivided _ _ rfl r1' rfl (by simp)
    | cons l more =>
      by_cases hd : l = str "---\n"
      · have r2 := captureRun_run (hm '>') more
        have e : normalHunkBody .Change a b ls =
            ((captureRun reNormalBodyAdded more).1.foldl Diff.addDest ((captureRun reNormalBodyRemoved ls).1.foldl Diff.addSource (Diff.new a b .Change)),
              (captureRun reNormalBodyAdded more).2) := by
          simp [normalHunkBody, hr, (divider_iff l).2 hd]
        rw [e]
        simp only
        rw [built_view]
        have r1' : MarkedRun '<' ls (captureRun reNormalBodyRemoved ls).1 (str "---\n" :: more) := by rw [← hd, ← hr]; exact r1
        exact .change _ more _ rfl r1' r2
      · have hn : (reNormalDivider.full l).isSome = false := by
          cases hx : (reNormalDivider.full l).isSome with
          | false => rfl
          | true => exact absurd ((divider_iff l).1 hx) hd
        have e : normalHunkBody .Change a b ls = ((captureRun reNormalBodyRemoved ls).1.foldl Diff.addSource (Diff.new a b .Change), l :: more) := by
          simp [normalHunkBody, hr, hn]
        rw [e]
        simp only
        rw [show (captureRun reNormalBodyRemoved ls).1.foldl Diff.addSource (Diff.new a b .Change) = ([] : List Str).foldl Diff.addDest ((captureRun reNormalBodyRemoved ls).1.foldl Diff.addSource (Diff.new a b .Change)) from rfl, built_view]
        have r1' : MarkedRun '<' ls (captureRun reNormalBodyRemoved ls).1 (l :: more) := by rw [← hr]; exact r1
        exact .undivided _ _ rfl r1' rfl (by simp [hd])

theorem normalHunks_shown (n : Nat) (st st' : PState) (h : hunkLoop parseNormalHunk n st = Res.ok st') :
    HunksShow HView.NormalOk NormalShown st st' := by
  induction n generalizing st with
  | zero => simp [hunkLoop] at h
  | succ n ih =>
    simp only [hunkLoop] at h
    obtain ⟨r, hr, h⟩ := Res.bind_eq_ok.1 h
    cases e : st.rest with
    | nil =>
      have : r = none := by simp only [parseNormalHunk, e, Res.ok.injEq] at hr; exact hr.symm
      subst this
      simp only [Res.ok.injEq] at h
      subst h
      exact .refl _ (.stop _ (by simp [e]))
    | cons l ls =>
      cases hx : normalHunkHeader l with
      | none =>
        have : r = none := by simp only [parseNormalHunk, e, hx, Res.ok.injEq] at hr; exact hr.symm
        subst this
        simp only [Res.ok.injEq] at h
        subst h
        refine .refl _ (.stop _ ?_)
        intro x hl
        rw [e] at hl
        simp only [List.head?_cons, Option.some.injEq] at hl
        subst hl
        exact command_none_iff.1 hx
      | some q =>
        obtain ⟨ty, x, y⟩ := q
        have hty := normalHunkHeader_type hx
        obtain ⟨ss, ds, hv, h1, h2⟩ := normalBody_sound ty hty x y ls
        have hb := normalBody_shown ty hty x y ls
        simp only [parseNormalHunk, e, hx, Res.ok.injEq] at hr
        subst hr
        have hvt : (normalHunkBody ty x y ls).1.view.type = ty := by rw [hv]
        have hf : Entries.Flagged [((normalHunkBody ty x y ls).1, true)] := by
          intro z hz
          simp only [List.mem_singleton] at hz
          subst hz
          have : (normalHunkBody ty x y ls).1.type = ty := hvt
          simp [this, hty]
        have ok : HView.NormalOk (hunkView x y [] [((normalHunkBody ty x y ls).1, true)]) := by
          refine ⟨rfl, _, rfl, ?_⟩
          simp only
          rw [hv]
          exact ⟨rfl, rfl, ⟨rfl, rfl, rfl, rfl⟩, hty, h1, h2⟩
        refine (ih _ h).add hf ok rfl rfl rfl rfl rfl (fun hs g => ?_)
        rw [e]
        refine .hunk l ls _ _ (normalHunkBody ty x y ls).1.view hs _ ?_ hb rfl rfl ok g
        rw [hvt]
        exact command_head_iff.1 hx

/-! ### Files -/

theorem normalHeaderLoop_shown {h : Re} {mk : Caps → DModel} {o : FileForm} (hF : ∀ l, h.Lang l ↔ o.first l)
    (hY : ∀ l c, h.full l = some c → ∃ f, o.header [l] f ∧ ∀ h, (mk c).view h = f.view []) (ls : List Str) :
    (∀ m ls', normalHeaderLoop h mk ls = some (m, ls') → ∃ pre hdr f, ls = pre ++ (hdr ++ ls') ∧ (∀ x ∈ pre, ¬ o.first x) ∧ o.header hdr f ∧
      ∀ h, m.view h = f.view []) ∧ (normalHeaderLoop h mk ls = none → ∀ l ∈ ls, ¬ o.first l) := by
  induction ls with
  | nil => simp [normalHeaderLoop]
  | cons l ls ih =>
    unfold normalHeaderLoop
    cases hx : h.full l with
    | some c =>
      simp only
      refine ⟨?_, by simp⟩
      intro m ls' e
      simp only [Option.some.injEq, Prod.mk.injEq] at e
      obtain ⟨rfl, rfl⟩ := e
      obtain ⟨f, g1, g2⟩ := hY l c hx
      exact ⟨[], [l], f, rfl, by simp, g1, g2⟩
    | none =>
      simp only
      have hl : ¬ o.first l := by rw [← hF]; exact (Re.full_none _ _).1 hx
      refine ⟨?_, ?_⟩
      · intro m ls' e
        obtain ⟨pre, hdr, f, e1, e2, e3, e4⟩ := ih.1 m ls' e
        exact ⟨l :: pre, hdr, f, by rw [e1]; rfl, by simpa [hl] using e2, e3, e4⟩
      · intro e
        simpa [hl] using ih.2 e

theorem new_view (s d : Str) (h : Heap) : (DModel.new s d).view h = FileNames.view { source := s, destination := d } [] := rfl

/-- The model of a header. -/
def namedModel (win : Bool) (g : Generator) (c : Caps) : DModel :=
  match g with
  | .CVSDiff => DModel.new (c.get 1) (c.get 1)
  | _ => DModel.new (unescapePath win (c.get 1)) (unescapePath win (c.get 2))

/-- The search for a header. -/
theorem normal_header_loop (win : Bool) (g : Generator) (hg : g ≠ .Perforce) (ls : List Str) :
    (∀ m ls', normalHeaderLoop (normalHeader g) (namedModel win g) ls = some (m, ls') →
      ∃ pre hdr f, ls = pre ++ (hdr ++ ls') ∧ (∀ x ∈ pre, ¬ (normalForm (unescapePath win) g).first x) ∧ (normalForm (unescapePath win) g).header hdr f ∧
        ∀ h, m.view h = f.view []) ∧
    (normalHeaderLoop (normalHeader g) (namedModel win g) ls = none → ∀ l ∈ ls, ¬ (normalForm (unescapePath win) g).first l) := by
  cases g with
  | Perforce => exact absurd rfl hg
  | CVSDiff =>
    exact normalHeaderLoop_shown (h := reIndexHeader) (mk := fun c : Caps => DModel.new (c.get 1) (c.get 1)) (o := normalForm (unescapePath win) .CVSDiff) (fun l => indexHeader_lang l) (fun l c h => ⟨{ source := c.get 1, destination := c.get 1 }, ⟨l, rfl, indexHeader_full h, rfl, rfl, rfl⟩, fun _ => rfl⟩) ls
  | Diff =>
    exact normalHeaderLoop_shown (h := reNormalDiffHeader) (mk := fun c : Caps => DModel.new (unescapePath win (c.get 1)) (unescapePath win (c.get 2))) (o := normalForm (unescapePath win) .Diff) (fun l => diffHeader_lang l) (fun l c h => ⟨{ source := unescapePath win (c.get 1), destination := unescapePath win (c.get 2) }, ⟨l, _, _, rfl, diffHeader_full h, rfl, rfl, rfl, rfl⟩, fun _ => rfl⟩) ls

theorem parseNormalDiffHeader_search (win : Bool) (g : Generator) (hg : g ≠ .Perforce) (st : PState) :
    parseNormalDiffHeader win g st = match normalHeaderLoop (normalHeader g) (namedModel win g) st.rest with
      | some (m, ls) => ({ st with rest := ls, cur := m }, true)
      | none => ({ st with rest := st.lines, cur := {}, single := true }, false) := by
  cases g <;> first | rfl | exact absurd rfl hg

theorem normal_header_shows {win : Bool} {g : Generator} {st st' : PState} (h : parseNormalDiffHeader win g st = (st', true)) :
    HeaderShows (normalForm (unescapePath win) g) st st' true := by
  by_cases hg : g = .Perforce
  · subst hg
    exact p4_header_shows h
  · have hs := (normalHeader_step h).1
    refine ⟨hs, fun _ => ?_⟩
    rw [parseNormalDiffHeader_search win g hg] at h
    split at h
    · rename_i m ls e
      simp only [Prod.mk.injEq, and_true] at h
      obtain ⟨pre, hdr, f, e1, e2, e3, e4⟩ := (normal_header_loop win g hg st.rest).1 m ls e
      rw [← h]
      exact ⟨pre, hdr, f, e1, e2, e3, e4⟩
    · simp at h

theorem normal_header_hidden {win : Bool} {g : Generator} {st st' : PState} (h : parseNormalDiffHeader win g st = (st', false)) :
    (∀ l ∈ st.rest, ¬ (normalForm (unescapePath win) g).first l) ∧
      (g = .Perforce → st'.single = st.single) ∧ (g ≠ .Perforce → st'.single = true ∧ st'.rest = st.lines ∧ st'.cur = {}) := by
  by_cases hg : g = .Perforce
  · subst hg
    have hs := p4Header_step st st.rest
    unfold parseNormalDiffHeader at h
    simp only at h
    have h1 := p4_hidden (st := st) st.rest (by rw [h])
    rw [h] at hs
    exact ⟨h1, fun _ => hs.2, fun h => absurd rfl h⟩
  · rw [parseNormalDiffHeader_search win g hg] at h
    split at h
    · simp at h
    · rename_i e
      simp only [Prod.mk.injEq, and_true] at h
      refine ⟨(normal_header_loop win g hg st.rest).2 e, fun h => absurd h hg, fun _ => ?_⟩
      rw [← h]
      exact ⟨rfl, rfl, rfl⟩

theorem empty_view (h : Heap) : ({} : DModel).view h = nameless.view [] := rfl

/-- Everything the parser shows of a normal diff. -/
theorem normalFiles_shown {win : Bool} {g : Generator} {h0 : Heap} {st st' : PState} (hf : FoundAll HView.NormalOk h0 st) (hs : st.single = false)
    (hl : st.lines = st.rest) (h : normalFiles win g st = Res.ok st') : 
      ∃ ms, NormalFiles (unescapePath win) g st.rest ms ∧
        st'.models.map (fun m => m.view st'.heap) = st.models.map (fun m => m.view st.heap) ++ ms := by
  unfold normalFiles at h
  obtain ⟨s1, h1, h⟩ := Res.bind_eq_ok.1 h
  obtain ⟨i1, ie, fs, ⟨n1, n2, n3⟩, i2⟩ := fileLoop_shown (P := HView.NormalOk) (H := NormalShown) (o := normalForm (unescapePath win) g)
    (N := fun st ms st' => ShowsFiles (normalForm (unescapePath win) g) NormalShown st.rest ms ∧ (g = .Perforce → st'.single = st.single) ∧
      (g ≠ .Perforce → st'.single = true ∧ st'.rest = st.lines ∧ st'.cur = {}))
    (fun st st' e => by
      simp only [Res.ok.injEq] at e
      exact normal_header_shows e)
    (fun h0 st st' _ e => by
      simp only [Res.ok.injEq] at e
      have k := (normalHeader_step e).1
      obtain ⟨k1, k2, k3⟩ := normal_header_hidden e
      exact ⟨k.heap, k.models, .finished _ k1, k2, k3⟩)
    (fun st st' e => normalHunks_shown _ st st' e)
    (fun st s ms st' pre hdr f hs n el es e1 e2 e3 => by
      obtain ⟨ls, e1, e4⟩ := e1
      refine ⟨?_, fun hg => by rw [n.2.1 hg, es], fun hg => by rw [← el]; exact n.2.2 hg⟩
      rw [e1]
      exact .file pre hdr ls s.rest f hs ms e2 e3 e4 n.1) _ h0 st s1 hf h1
  by_cases hg : g = .Perforce
  · have : s1.single = false := by rw [n2 hg, hs]
    rw [this] at h
    simp only [Bool.false_eq_true, if_false, Res.ok.injEq] at h
    rw [← h]
    exact ⟨fs, ⟨fs, n1, .inl ⟨hg, rfl⟩⟩, i2⟩
  · obtain ⟨m1, m2, m3⟩ := n3 hg
    rw [m1] at h
    simp only [if_true] at h
    obtain ⟨s2, h2, h⟩ := Res.bind_eq_ok.1 h
    simp only [Res.ok.injEq] at h
    have w := normalHunks_shown _ s1 s2 h2
    have hb : Building HView.NormalOk h0 s1 := i1.start (st' := s1) rfl rfl (by rw [m3]; exact empty_blank)
    obtain ⟨hs', g1, g2⟩ := w.shown h0 hb
    rw [m2, hl] at g1
    rw [m3, empty_view, names_addHunks] at g2
    obtain ⟨k1, k2, k3⟩ := keepModel_shown s2 nameless hs' g2
    refine ⟨fs ++ nameless.shown hs', ⟨fs, n1, .inr ⟨hg, hs', s2.rest, g1, rfl⟩⟩, ?_⟩
    have e : st'.models = s2.keepModel.models ∧ st'.heap = s2.heap := by
      rw [← h]
      split
      · exact ⟨rfl, k1⟩
      · exact ⟨rfl, k1⟩
    rw [e.1, e.2, k3, w.models, models_ext i1 w.ext, i2, List.append_assoc]

/-! ### There is only one reading -/

theorem normalForm_proper (unesc : Str → Str) (g : Generator) : (normalForm unesc g).Proper := by
  cases g with
  | Perforce => exact perforceForm_proper
  | CVSDiff =>
    refine ⟨?_, ?_, ?_⟩
    · rintro hdr f ⟨l, rfl, h, _⟩
      exact ⟨l, [], rfl, _, h⟩
    · rintro hdr f ⟨l, rfl, _⟩
      simp
    · rintro hdr hdr' f f' ls ls' ⟨l, rfl, h1, h2, h3, h4⟩ ⟨l', rfl, g1, g2, g3, g4⟩ e
      simp only [List.cons_append, List.nil_append, List.cons.injEq] at e
      obtain ⟨rfl, _⟩ := e
      refine ⟨rfl, ?_⟩
      have e := indexLine_full h1
      rw [indexLine_full g1] at e
      cases f; cases f'
      simp_all
  | Diff =>
    refine ⟨?_, ?_, ?_⟩
    · rintro hdr f ⟨l, s, t, rfl, h, _⟩
      refine ⟨l, [], rfl, ?_⟩
      have : DiffHeaderLine l := by rw [← diffHeader_lang, ← Re.full_isSome, diffLine_full h]; rfl
      exact this
    · rintro hdr f ⟨l, s, t, rfl, _⟩
      simp
    · rintro hdr hdr' f f' ls ls' ⟨l, s, t, rfl, h1, h2, h3, h4, h5⟩ ⟨l', s', t', rfl, g1, g2, g3, g4, g5⟩ e
      simp only [List.cons_append, List.nil_append, List.cons.injEq] at e
      obtain ⟨rfl, _⟩ := e
      obtain ⟨rfl, rfl⟩ := diffLine_det h1 g1
      refine ⟨rfl, ?_⟩
      cases f; cases f'
      simp_all

theorem commandBody_det {v w : DView} {ls r r' : List Str} (hv : CommandBody v ls r) (hw : CommandBody w ls r') (ht : v.type = w.type) :
    v.src = w.src ∧ v.dst = w.dst ∧ r = r' := by
  cases hv with
  | insert _ h1 h2 h3 =>
    cases hw with
    | insert _ g1 g2 g3 => obtain ⟨e1, e2⟩ := markedRun_det h3 g3; exact ⟨by rw [h2, g2], e1, e2⟩
    | delete _ g1 _ _ => rw [h1, g1] at ht; cases ht
    | change _ _ g1 _ _ => rw [h1, g1] at ht; cases ht
    | undivided _ g1 _ _ _ => rw [h1, g1] at ht; cases ht
  | delete _ h1 h2 h3 =>
    cases hw with
    | insert _ g1 g2 g3 => rw [h1, g1] at ht; cases ht
    | delete _ g1 g2 g3 => obtain ⟨e1, e2⟩ := markedRun_det h2 g2; exact ⟨e1, by rw [h3, g3], e2⟩
    | change _ _ g1 _ _ => rw [h1, g1] at ht; cases ht
    | undivided _ g1 _ _ _ => rw [h1, g1] at ht; cases ht
  | change _ _ h1 h2 h3 =>
    cases hw with
    | insert _ g1 g2 g3 => rw [h1, g1] at ht; cases ht
    | delete _ g1 g2 g3 => rw [h1, g1] at ht; cases ht
    | change _ _ g1 g2 g3 =>
      obtain ⟨e1, e2⟩ := markedRun_det h2 g2
      simp only [List.cons.injEq, true_and] at e2
      subst e2
      obtain ⟨e3, e4⟩ := markedRun_det h3 g3
      exact ⟨e1, e3, e4⟩
    | undivided _ g1 g2 g3 g4 =>
      obtain ⟨e1, e2⟩ := markedRun_det h2 g2
      rw [← e2] at g4
      exact absurd rfl g4
  | undivided _ h1 h2 h3 h4 =>
    cases hw with
    | insert _ g1 g2 g3 => rw [h1, g1] at ht; cases ht
    | delete _ g1 g2 g3 => rw [h1, g1] at ht; cases ht
    | change _ _ g1 g2 g3 =>
      obtain ⟨e1, e2⟩ := markedRun_det h2 g2
      rw [e2] at h4
      exact absurd rfl h4
    | undivided _ g1 g2 g3 g4 =>
      obtain ⟨e1, e2⟩ := markedRun_det h2 g2
      exact ⟨e1, by rw [h3, g3], e2⟩

theorem normalShown_det {ls : List Str} {hs hs' : List HView} {r r' : List Str} (h : NormalShown ls hs r) (h' : NormalShown ls hs' r') :
    hs = hs' ∧ r = r' := by
  induction h generalizing hs' r' with
  | stop ls h1 =>
    cases h' with
    | stop _ _ => exact ⟨rfl, rfl⟩
    | hunk l ls after h v hs rest g1 _ _ _ _ _ => exact absurd ⟨_, _, _, g1⟩ (h1 l rfl)
  | hunk l ls after h v hs rest h1 h2 h3 h4 h5 h6 ih =>
    cases h' with
    | stop _ g1 => exact absurd ⟨_, _, _, h1⟩ (g1 l rfl)
    | hunk _ _ after' h' v' hs' rest' g1 g2 g3 g4 g5 g6 =>
      obtain ⟨e1, e2, e3⟩ := commandHead_det h1 g1
      obtain ⟨e4, e5, rfl⟩ := commandBody_det h2 g2 e1
      obtain ⟨rfl, rfl⟩ := ih g6
      refine ⟨?_, rfl⟩
      have hv : v = v' := by
        obtain ⟨_, u, hu, a1, a2, a3, _⟩ := h5
        obtain ⟨_, u', hu', b1, b2, b3, _⟩ := g5
        rw [h4] at hu; rw [g4] at hu'
        simp only [List.cons.injEq, and_true] at hu hu'
        subst hu hu'
        obtain ⟨c1, c2, c3, c4⟩ := a3
        obtain ⟨d1, d2, d3, d4⟩ := b3
        cases v; cases v'
        simp_all
      subst hv
      have t1 := h5.1
      have t2 := g5.1
      cases h; cases h'
      simp_all

theorem normalFiles_det {unesc : Str → Str} {g : Generator} {ls : List Str} {ms ms' : List MView} (h : NormalFiles unesc g ls ms)
    (h' : NormalFiles unesc g ls ms') : ms = ms' := by
  obtain ⟨fs, h1, h2⟩ := h
  obtain ⟨fs', g1, g2⟩ := h'
  have e := showsFiles_det (normalForm_proper unesc g) (H := NormalShown) (fun _ _ _ _ _ h h' => normalShown_det h h') h1 g1
  subst e
  rcases h2 with ⟨a, rfl⟩ | ⟨a, hs, r, b, rfl⟩
  · rcases g2 with ⟨c, rfl⟩ | ⟨c, _⟩
    · rfl
    · exact absurd a c
  · rcases g2 with ⟨c, _⟩ | ⟨c, hs', r', d, rfl⟩
    · exact absurd c a
    · rw [(normalShown_det b d).1]

/-! ### Everything stands in the text -/

theorem normalShown_stands {ls : List Str} {hs : List HView} {rest : List Str} (h : NormalShown ls hs rest) :
    HunksStand NormalText hs ls rest := by
  induction h with
  | stop ls _ => exact .nil _
  | hunk l ls after h v hs rest h1 h2 h3 h4 h5 _ ih =>
    cases h2 with
    | insert _ a1 a2 a3 =>
      have e : l :: ls = [] ++ ((l :: v.src.map (markedLine '<') ++ v.dst.map (markedLine '>')) ++ after) := by rw [a2, a3.1]; simp
      rw [e]
      exact .cons [] _ _ _ h hs ⟨l, v, h4, h1, .inl ⟨rfl, .inl a2⟩⟩ ih
    | delete _ a1 a2 a3 =>
      have e : l :: ls = [] ++ ((l :: v.src.map (markedLine '<') ++ v.dst.map (markedLine '>')) ++ after) := by rw [a3, a2.1]; simp
      rw [e]
      exact .cons [] _ _ _ h hs ⟨l, v, h4, h1, .inl ⟨rfl, .inr a3⟩⟩ ih
    | change more _ a1 a2 a3 =>
      have e : l :: ls = [] ++ ((l :: v.src.map (markedLine '<') ++ str "---\n" :: v.dst.map (markedLine '>')) ++ after) := by rw [a2.1, a3.1]; simp
      rw [e]
      exact .cons [] _ _ _ h hs ⟨l, v, h4, h1, .inr ⟨a1, rfl⟩⟩ ih
    | undivided _ a1 a2 a3 _ =>
      have e : l :: ls = [] ++ ((l :: v.src.map (markedLine '<') ++ v.dst.map (markedLine '>')) ++ after) := by rw [a3, a2.1]; simp
      rw [e]
      exact .cons [] _ _ _ h hs ⟨l, v, h4, h1, .inl ⟨rfl, .inr a3⟩⟩ ih

theorem markedRun_split {c : Char} {ls ts rest : List Str} (h : MarkedRun c ls ts rest) : ∃ top, ls = top ++ rest ∧ ∀ x ∈ top, x.head? = some c := by
  refine ⟨ts.map (markedLine c), h.1, ?_⟩
  intro x hx
  obtain ⟨t, _, rfl⟩ := List.mem_map.1 hx
  rfl

/-- The lines of commands begin with a digit, `<`, `>` or `-`. -/
theorem normalShown_top {ls : List Str} {hs : List HView} {rest : List Str} (h : NormalShown ls hs rest) :
    ∃ top, ls = top ++ rest ∧ ∀ x ∈ top, ∃ c, x.head? = some c ∧ (Digit c ∨ c = '<' ∨ c = '>' ∨ c = '-') := by
  induction h with
  | stop ls _ => exact ⟨[], rfl, by simp⟩
  | hunk l ls after h v hs rest h1 h2 h3 h4 h5 _ ih =>
    obtain ⟨top, e, ht⟩ := ih
    have hl : ∃ c, l.head? = some c ∧ (Digit c ∨ c = '<' ∨ c = '>' ∨ c = '-') := by
      obtain ⟨a, e, c, b, t, rfl, ha, _⟩ := h1
      cases a with
      | nil => exact absurd rfl ha.1
      | cons d a => exact ⟨d, rfl, .inl (ha.2 d (by simp))⟩
    have key : ∃ body, ls = body ++ after ∧ ∀ x ∈ body, ∃ c, x.head? = some c ∧ (Digit c ∨ c = '<' ∨ c = '>' ∨ c = '-') := by
      cases h2 with
      | insert _ a1 a2 a3 =>
        obtain ⟨b, e, k⟩ := markedRun_split a3
        exact ⟨b, e, fun x hx => ⟨_, k x hx, by simp⟩⟩
      | delete _ a1 a2 a3 =>
        obtain ⟨b, e, k⟩ := markedRun_split a2
        exact ⟨b, e, fun x hx => ⟨_, k x hx, by simp⟩⟩
      | change more _ a1 a2 a3 =>
        obtain ⟨b, e, k⟩ := markedRun_split a2
        obtain ⟨b', e', k'⟩ := markedRun_split a3
        refine ⟨b ++ str "---\n" :: b', by rw [e, e']; simp, ?_⟩
        intro x hx
        rcases List.mem_append.1 hx with hx | hx
        · exact ⟨_, k x hx, by simp⟩
        · rcases List.mem_cons.1 hx with rfl | hx
          · exact ⟨'-', rfl, by simp⟩
          · exact ⟨_, k' x hx, by simp⟩
      | undivided _ a1 a2 a3 _ =>
        obtain ⟨b, e, k⟩ := markedRun_split a2
        exact ⟨b, e, fun x hx => ⟨_, k x hx, by simp⟩⟩
    obtain ⟨body, e', hb⟩ := key
    refine ⟨l :: (body ++ top), by rw [e', e]; simp, ?_⟩
    intro x hx
    rcases List.mem_cons.1 hx with rfl | hx
    · exact hl
    · rcases List.mem_append.1 hx with hx | hx
      · exact hb x hx
      · exact ht x hx

theorem shows_skip {o : FileForm} (hp : o.Proper) {H : List Str → List HView → List Str → Prop} {top ls : List Str} {ms : List MView}
    (ht : ∀ x ∈ top, ¬ o.first x) (h : ShowsFiles o H (top ++ ls) ms) : ShowsFiles o H ls ms := by
  have split : ∀ (pre : List Str) (l : Str) (more : List Str), top ++ ls = pre ++ l :: more → o.first l →
      ∃ pre', pre = top ++ pre' ∧ ls = pre' ++ l :: more := by
    intro pre l more e hl
    rcases List.append_eq_append_iff.1 e with ⟨a, e1, e2⟩ | ⟨b, e1, e2⟩
    · exact ⟨a, e1, e2⟩
    · cases b with
      | nil => exact ⟨[], by simpa using e1.symm, by simpa using e2.symm⟩
      | cons x b =>
        simp only [List.cons_append, List.cons.injEq] at e2
        exact absurd (e2.1 ▸ hl) (ht x (by rw [e1]; simp))
  generalize he : top ++ ls = ls0 at h
  cases h with
  | finished _ h1 => exact .finished _ (fun l hl => h1 l (by rw [← he]; simp [hl]))
  | abandoned pre l l2 more h1 h2 h3 h4 =>
    obtain ⟨pre', rfl, rfl⟩ := split _ _ _ he h2
    exact .abandoned pre' l l2 more (fun x hx => h1 x (by simp [hx])) h2 h3 h4
  | file pre hdr more rest f hs ms h1 h2 h3 h4 =>
    obtain ⟨l, t, rfl, hl⟩ := hp.opens _ _ h2
    obtain ⟨pre', rfl, e⟩ := split pre l (t ++ more) (by rw [he]; simp) hl
    rw [e, show pre' ++ l :: (t ++ more) = pre' ++ ((l :: t) ++ more) by simp]
    exact .file pre' (l :: t) more rest f hs ms (fun x hx => h1 x (by simp [hx])) h2 h3 h4

/-- The files are found after the commands at the top. -/
theorem shows_after_top {unesc : Str → Str} {g : Generator} (hg : g ≠ .Perforce) {ls : List Str} {hs : List HView} {rest : List Str} {ms : List MView}
    (h : NormalShown ls hs rest) (hf : ShowsFiles (normalForm unesc g) NormalShown ls ms) : ShowsFiles (normalForm unesc g) NormalShown rest ms := by
  obtain ⟨top, rfl, ht⟩ := normalShown_top h
  refine shows_skip (normalForm_proper unesc g) ?_ hf
  intro x hx
  obtain ⟨c, e, hc⟩ := ht x hx
  cases g with
  | Perforce => exact absurd rfl hg
  | CVSDiff =>
    rintro ⟨name, rfl, _⟩
    have : c = 'I' := by simpa [str] using e.symm
    subst this
    revert hc; unfold Digit; decide
  | Diff =>
    rintro ⟨r, rfl, _⟩
    have : c = 'd' := by simpa [str] using e.symm
    subst this
    revert hc; unfold Digit; decide

end KompareDiff2
