import Verif.Proofs.NormalHunk
import Verif.Props.Context
/-
Whole normal diffs: one file without a header, several files with `diff` lines.
-/
namespace KompareDiff2
open Spec Re

/-! ### Lines -/

theorem digit_cases {x : Char} (h : IsDigit x) : x ≠ 'I' ∧ x ≠ '=' ∧ x ≠ '\\' ∧ x ≠ 'd' := by
  refine ⟨?_, ?_, ?_, ?_⟩ <;> rintro rfl <;> exact absurd h (by unfold IsDigit; decide)

/-- A line of a command. -/
def NLine (l : Str) : Prop := ∃ c s, l = c :: s ∧ (IsDigit c ∨ c = '<' ∨ c = '>' ∨ c = '-')

theorem NLine.head {l : Str} (h : NLine l) : ∃ c s, l = c :: s ∧ c ≠ 'I' ∧ c ≠ '=' ∧ c ≠ '\\' ∧ c ≠ 'd' := by
  obtain ⟨c, s, e, h⟩ := h
  refine ⟨c, s, e, ?_⟩
  rcases h with h | rfl | rfl | rfl
  · exact digit_cases h
  all_goals decide

theorem prefix_head {x : Char} {p : Str} {c : Char} {s : Str} (h : (x :: p) <+: (c :: s)) : x = c := by
  obtain ⟨t, e⟩ := h
  simp only [List.cons_append, List.cons.injEq] at e
  exact e.1

theorem NLine.quiet {l : Str} (h : NLine l) : ¬ str "Index: " <+: l ∧ ¬ str "==== " <+: l ∧ ¬ str "\\ No newline" <+: l ∧ ¬ str "diff " <+: l := by
  obtain ⟨c, s, rfl, h1, h2, h3, h4⟩ := h.head
  exact ⟨fun h => h1 (prefix_head h).symm, fun h => h2 (prefix_head h).symm, fun h => h3 (prefix_head h).symm, fun h => h4 (prefix_head h).symm⟩

theorem shortRange_noNewline (a n : Nat) : '\n' ∉ shortRange a n := by
  rw [shortRange_eq, List.mem_append, not_or]
  exact ⟨decNat_noNewline a, endOf_noNewline a n⟩

theorem marked_lines {ch : Char} (hc : ch = '<' ∨ ch = '>') (ls : List Str) (h : ∀ t ∈ ls, '\n' ∉ t) :
    ∀ l ∈ ls.map (markedLine ch), NLine l ∧ WholeLine l := by
  intro l hl
  obtain ⟨t, ht, rfl⟩ := List.mem_map.1 hl
  have := h t ht
  refine ⟨⟨ch, _, rfl, .inr (by rcases hc with rfl | rfl <;> simp)⟩, ch :: ' ' :: t, ?_, rfl⟩
  rcases hc with rfl | rfl <;> simp [this]

theorem NCmd.lines_ok (c : NCmd) (ok : c.Ok) : ∀ l ∈ c.render, NLine l ∧ WholeLine l := by
  have ho : ∀ t ∈ c.old, '\n' ∉ t := fun t ht => ok.lines t (by simp [ht])
  have hn : ∀ t ∈ c.new, '\n' ∉ t := fun t ht => ok.lines t (by simp [ht])
  intro l hl
  rcases List.mem_cons.1 hl with rfl | hl
  · obtain ⟨x, s, e, hx⟩ := command_head c
    refine ⟨⟨x, s, e, .inl hx⟩, ?_⟩
    cases c with
    | insert after dst ls =>
      refine ⟨decNat after ++ 'a' :: shortRange dst ls.length, ?_, by simp [NCmd.command]⟩
      simp [decNat_noNewline, shortRange_noNewline]
    | delete src ls after =>
      refine ⟨shortRange src ls.length ++ 'd' :: decNat after, ?_, by simp [NCmd.command]⟩
      simp [decNat_noNewline, shortRange_noNewline]
    | change src r dst a =>
      refine ⟨shortRange src r.length ++ 'c' :: shortRange dst a.length, ?_, by simp [NCmd.command]⟩
      simp [shortRange_noNewline]
  · cases c with
    | insert after dst ls => exact marked_lines (.inr rfl) ls hn l hl
    | delete src ls after => exact marked_lines (.inl rfl) ls ho l hl
    | change src r dst a =>
      simp only [NCmd.body, List.mem_append, List.mem_cons] at hl
      rcases hl with hl | rfl | hl
      · exact marked_lines (.inl rfl) r ho l hl
      · exact ⟨⟨'-', _, rfl, by simp⟩, str "---", by decide, rfl⟩
      · exact marked_lines (.inr rfl) a hn l hl

theorem ncmds_lines (cs : List NCmd) (ok : ∀ c ∈ cs, c.Ok) : ∀ l ∈ cs.flatMap NCmd.render, NLine l ∧ WholeLine l := by
  intro l hl
  obtain ⟨c, hc, hl⟩ := List.mem_flatMap.1 hl
  exact NCmd.lines_ok c (ok c hc) l hl

theorem endOf_comma (a n : Nat) : ∀ y ∈ endOf a n, Digit y ∨ y = ',' := by
  intro y hy
  rcases endOf_ok a n with h | ⟨d, h, hd⟩
  · rw [h] at hy; simp at hy
  · rw [h] at hy
    rcases List.mem_cons.1 hy with rfl | hy
    · exact .inr rfl
    · exact .inl (hd.2 y hy)

theorem command_normal (c : NCmd) : NormalCmd c.command := by
  cases c with
  | insert after dst ls =>
    obtain ⟨x, d, e, h⟩ := decNat_cons after
    obtain ⟨z, d', e', h'⟩ := decNat_cons dst
    refine ⟨x, d, 'a', z, d' ++ (endOf dst ls.length ++ ['\n']), ?_, h, ?_, .inl rfl, h'⟩
    · simp [NCmd.command, shortRange_eq, e, e']
    · intro y hy; exact .inl (decNat_isDigit after y (by rw [e]; simp [hy]))
  | delete src ls after =>
    obtain ⟨x, d, e, h⟩ := decNat_cons src
    obtain ⟨z, d', e', h'⟩ := decNat_cons after
    refine ⟨x, d ++ endOf src ls.length, 'd', z, d' ++ ['\n'], ?_, h, ?_, .inr (.inr rfl), h'⟩
    · simp [NCmd.command, shortRange_eq, e, e']
    · intro y hy
      rcases List.mem_append.1 hy with hy | hy
      · exact .inl (decNat_isDigit src y (by rw [e]; simp [hy]))
      · exact endOf_comma _ _ y hy
  | change src r dst a =>
    obtain ⟨x, d, e, h⟩ := decNat_cons src
    obtain ⟨z, d', e', h'⟩ := decNat_cons dst
    refine ⟨x, d ++ endOf src r.length, 'c', z, d' ++ (endOf dst a.length ++ ['\n']), ?_, h, ?_, .inr (.inl rfl), h'⟩
    · simp [NCmd.command, shortRange_eq, e, e']
    · intro y hy
      rcases List.mem_append.1 hy with hy | hy
      · exact .inl (decNat_isDigit src y (by rw [e]; simp [hy]))
      · exact endOf_comma _ _ y hy

theorem command_format (c : NCmd) : lineFormat c.command (formatPatterns .Diff) = some .Normal := by
  simp [formatPatterns, lineFormat, (normal_iff _).2 (command_normal c)]

theorem notPrefix_bool {p l : Str} (h : ¬ p <+: l) : p.isPrefixOf l = false := by
  cases e : p.isPrefixOf l with
  | false => rfl
  | true => exact absurd (List.isPrefixOf_iff_prefix.1 e) h

theorem normalHeader_none {l : Str} (h : ¬ str "diff " <+: l) : reNormalDiffHeader.full l = none := full_text_cat_none (notPrefix_bool h)

theorem normalHeaderLoop_skip (h : Re) (mk : Caps → DModel) (pre ls : List Str) (hp : ∀ l ∈ pre, h.full l = none) :
    normalHeaderLoop h mk (pre ++ ls) = normalHeaderLoop h mk ls := by
  induction pre with
  | nil => rfl
  | cons l pre ih => simp only [List.cons_append, normalHeaderLoop, hp l (by simp)]; exact ih (fun l hl => hp l (by simp [hl]))

theorem NAfter.nil : NAfter [] := ⟨fun l h => by simp at h, fun l h => by simp at h, fun l h => by simp at h⟩

/-! ### One file -/

theorem render_length (cs : List NCmd) : cs.length ≤ (cs.flatMap NCmd.render).length := by
  induction cs with
  | nil => simp
  | cons c cs ih => simp only [List.flatMap_cons, List.length_append, List.length_cons, NCmd.render]; omega

theorem ncmdDiffs_pos (cs : List NCmd) : 0 < (ncmdDiffs cs).length ↔ cs ≠ [] := by
  cases cs with
  | nil => simp [ncmdDiffs]
  | cons c cs => simp [ncmdDiffs, NCmd.view]

theorem parse_normal (cs : List NCmd) (ok : ∀ c ∈ cs, c.Ok) (hne : cs ≠ []) (win : Bool) (cmp : Str → Str → Int) (heap : Heap) :
    ∃ m h', parse win cmp heap (cs.flatMap NCmd.render) = Res.ok { models := some [m], malformed := false, heap := h' } ∧
      m.view h' = normalView [] [] cs ∧ Parsed (fun _ => True) h' m := by
  have hl := ncmds_lines cs ok
  have hclean : cleanUpCrap (cs.flatMap NCmd.render) = Res.ok (cs.flatMap NCmd.render) := clean_quiet _ (fun l h => (hl l h).1.quiet.2.2.1)
  have hgen : determineGenerator (cs.flatMap NCmd.render) = .Diff := generator_diff _ (fun l h => ⟨(hl l h).1.quiet.1, (hl l h).1.quiet.2.1⟩)
  have hfmt : determineFormat .Diff (cs.flatMap NCmd.render) = .Normal := by
    cases cs with
    | nil => exact absurd rfl hne
    | cons c cs => simp only [List.flatMap_cons, NCmd.render, List.cons_append, determineFormat, command_format c]
  have hnone : ∀ l ∈ cs.flatMap NCmd.render, reNormalDiffHeader.full l = none := fun l h => normalHeader_none (hl l h).1.quiet.2.2.2
  unfold parse
  rw [hclean, hgen]
  simp only [Res.bind_ok, parseLines, hfmt, normalFiles, fileLoop, parseNormalDiffHeader, normalHeader]
  have hloop := normalHeaderLoop_skip reNormalDiffHeader (fun c => DModel.new (unescapePath win (c.get 1)) (unescapePath win (c.get 2)))
    (cs.flatMap NCmd.render) [] hnone
  rw [List.append_nil] at hloop
  rw [hloop]
  simp only [normalHeaderLoop, if_true, Res.bind_ok, normalHunks]
  obtain ⟨st', g1, g2, g3, g4, _, _, g5, g6, g7⟩ := ncmds_ok cs ok [] NAfter.nil ((cs.flatMap NCmd.render).length + 1)
    (by have := render_length cs; omega)
    { lines := cs.flatMap NCmd.render, rest := cs.flatMap NCmd.render, heap := heap, cur := {}, models := [], single := true, malformed := false }
    (by simp) (empty_blank.parsed _)
  rw [g1]
  have hv : st'.cur.view st'.heap = normalView [] [] cs := by
    rw [g7]
    simp [DModel.view, normalView, ncmdDiffs, DModel.source, DModel.destination]
  have hd : st'.cur.differences.length > 0 := by
    have := congrArg (fun v => v.differences.length) hv
    simp only [DModel.view, normalView, List.length_map] at this
    have h2 := (ncmdDiffs_pos cs).2 hne
    unfold ncmdDiffs at h2
    omega
  refine ⟨st'.cur, st'.heap, ?_, hv, g6⟩
  simp only [Res.bind_ok, PState.keepModel, if_pos hd, g2, g3, g4, finishParse]
  simp [sortModels, insertModel]

/-! ### Several files: the header line -/

/-- `(?:-|--)[a-zA-Z0-9="]+ ` -/
def reOption : Re := cat [.alt (lit '-') (text (str "--")), many1 reOptionChar, lit ' ']

theorem optionChar_iff (x : Char) : (fun x => (decide ('a' ≤ x) && decide (x ≤ 'z')) || (decide ('A' ≤ x) && decide (x ≤ 'Z')) ||
    (decide ('0' ≤ x) && decide (x ≤ '9')) || decide (x = '=') || decide (x = '"')) x = true ↔ OptionChar x := by
  simp only [Bool.or_eq_true, Bool.and_eq_true, decide_eq_true_eq, OptionChar]
  constructor
  · rintro ((((h | h) | h) | h) | h) <;> simp [h]
  · rintro (h | h | h | h | h) <;> simp [h]

theorem m_optionChars {α : Type} (n s : Str) (c : Caps) (k : Str → Caps → Option α) (r : α) (hn : n ≠ []) (ho : ∀ x ∈ n, OptionChar x)
    (hk : k s c = some r) : (cat [many1 reOptionChar, lit ' ']).m (n ++ ' ' :: s) c k = some r := by
  rw [m_cat_cons]
  cases n with
  | nil => exact absurd rfl hn
  | cons x n =>
    rw [m_many1, reOptionChar, List.cons_append, m_chr_cons, if_pos ((optionChar_iff x).2 (ho x (by simp))), m_many_chr]
    refine greedy_run (fun y hy => (optionChar_iff y).2 (ho y (by simp [hy]))) ?_ ?_
    · intro y hy; simp only [List.head?_cons, Option.some.injEq] at hy; subst hy; decide
    · simp [hk]

theorem m_option {α : Type} (w s : Str) (c : Caps) (k : Str → Caps → Option α) (r : α) (hw : OptionWord w) (hk : k s c = some r) :
    reOption.m (w ++ ' ' :: s) c k = some r := by
  obtain ⟨n, hn, ho, rfl | rfl⟩ := hw
  · rw [reOption, m_cat_cons, m_alt, List.cons_append, m_lit_cons, if_pos rfl, m_optionChars n s c k r hn ho hk]; rfl
  · rw [reOption, m_cat_cons, m_alt, List.cons_append, m_lit_cons, if_pos rfl]
    have h1 : (cat [many1 reOptionChar, lit ' ']).m ('-' :: n ++ ' ' :: s) c k = none := by
      rw [m_cat_cons, m_many1, reOptionChar, List.cons_append, m_chr_cons, if_neg (by decide)]
    rw [h1]
    have h2 : (text (str "--")).m ('-' :: ('-' :: n ++ ' ' :: s)) c (fun s' c' => (cat [many1 reOptionChar, lit ' ']).m s' c' k) = some r := by
      have := m_text_append (str "--") (n ++ ' ' :: s) c (fun s' c' => (cat [many1 reOptionChar, lit ' ']).m s' c' k)
      rw [m_optionChars n s c k r hn ho hk] at this
      exact this
    rw [h2]; rfl

theorem optionChar_ne {x : Char} (h : OptionChar x) : x ≠ ' ' ∧ x ≠ '-' := by
  constructor <;> (rintro rfl; exact absurd h (by unfold OptionChar; decide))

theorem optionWord_noSpace {w : Str} (h : OptionWord w) : ' ' ∉ w := by
  obtain ⟨n, _, hn, e⟩ := h
  have : ' ' ∉ n := fun h => (optionChar_ne (hn _ h)).1 rfl
  rcases e with rfl | rfl <;> simp [this]

theorem optionWord_noNewline {w : Str} (h : OptionWord w) : '\n' ∉ w := by
  obtain ⟨n, _, hn, e⟩ := h
  have : '\n' ∉ n := fun h => absurd (hn _ h) (by unfold OptionChar; decide)
  rcases e with rfl | rfl <;> simp [this]

theorem m_optionChars_some {α : Type} {s : Str} {c : Caps} {k : Str → Caps → Option α} {r : α}
    (h : (cat [many1 reOptionChar, lit ' ']).m s c k = some r) : ∃ n u, s = n ++ ' ' :: u ∧ n ≠ [] ∧ ∀ x ∈ n, OptionChar x := by
  rw [m_cat_cons, m_many1, reOptionChar] at h
  cases s with
  | nil => simp at h
  | cons x s =>
    rw [m_chr_cons] at h
    split at h
    · rename_i hp
      rw [m_many_chr] at h
      obtain ⟨t, u, rfl, ht, hk⟩ := greedy_some h
      cases u with
      | nil => simp at hk
      | cons y u =>
        simp only [m_cat_one, m_lit_cons] at hk
        split at hk
        · rename_i hy
          subst hy
          refine ⟨x :: t, u, rfl, by simp, ?_⟩
          intro z hz
          rcases List.mem_cons.1 hz with rfl | hz
          · exact (optionChar_iff z).1 hp
          · exact (optionChar_iff z).1 (ht z hz)
        · cases hk
    · cases h

theorem m_option_some {α : Type} {s : Str} {c : Caps} {k : Str → Caps → Option α} {r : α} (h : reOption.m s c k = some r) :
    ∃ w u, OptionWord w ∧ s = w ++ ' ' :: u := by
  rw [reOption, m_cat_cons, m_alt] at h
  cases s with
  | nil => exact absurd h (by simp [m_text, str])
  | cons x s =>
    by_cases hx : x = '-'
    · subst hx
      rw [m_lit_cons, if_pos rfl] at h
      cases h1 : (cat [many1 reOptionChar, lit ' ']).m s c k with
      | some r' =>
        obtain ⟨n, u, rfl, hn, ho⟩ := m_optionChars_some h1
        exact ⟨'-' :: n, u, ⟨n, hn, ho, .inl rfl⟩, rfl⟩
      | none =>
        rw [h1, Option.none_or, m_text] at h
        split at h
        · rename_i hp
          obtain ⟨v, e⟩ := List.isPrefixOf_iff_prefix.1 hp
          have e' : s = '-' :: v := (congrArg List.tail e).symm
          subst e'
          have h2 : (cat [many1 reOptionChar, lit ' ']).m v c k = some r := h
          obtain ⟨n, u, rfl, hn, ho⟩ := m_optionChars_some h2
          exact ⟨'-' :: '-' :: n, u, ⟨n, hn, ho, .inr rfl⟩, rfl⟩
        · cases h
    · have : ('-' == x) = false := by simpa using fun e => hx e.symm
      exact absurd h (by simp [m_text, str, List.isPrefixOf, this, hx])

theorem m_option_none {α : Type} (s u : Str) (c : Caps) (k : Str → Caps → Option α) (h : ∀ w, OptionWord w → ¬ (w ++ [' ']) <+: (s ++ [' '])) :
    reOption.m (s ++ ' ' :: u) c k = none := by
  cases hx : reOption.m (s ++ ' ' :: u) c k with
  | none => rfl
  | some r =>
    exfalso
    obtain ⟨w, v, hw, e⟩ := m_option_some hx
    apply h w hw
    have p1 : (w ++ [' ']) <+: (s ++ ' ' :: u) := ⟨v, by rw [e]; simp⟩
    have p2 : (s ++ [' ']) <+: (s ++ ' ' :: u) := ⟨u, by simp⟩
    refine List.prefix_of_prefix_length_le p1 p2 ?_
    simp only [List.length_append, List.length_singleton, Nat.add_le_add_iff_right]
    rcases Nat.lt_or_ge s.length w.length with hl | hl
    · exfalso
      apply optionWord_noSpace hw
      have : (s ++ [' ']) <+: w := by
        refine List.prefix_of_prefix_length_le p2 ⟨' ' :: v, e.symm⟩ ?_
        simp; omega
      obtain ⟨z, rfl⟩ := this
      simp
    · exact hl

/-- The options are read one after the other. -/
theorem m_options {α : Type} (ws : List Str) (s : Str) (c : Caps) (k : Str → Caps → Option α) (r : α) (hw : ∀ w ∈ ws, OptionWord w)
    (hs : ∀ k : Str → Caps → Option α, reOption.m s c k = none) (hk : k s c = some r) :
    (many reOption).m (ws.flatMap (· ++ [' ']) ++ s) c k = some r := by
  have key : ∀ n, (ws.flatMap (· ++ [' ']) ++ s).length < n →
      starM (fun s c k => reOption.m s c k) true n (ws.flatMap (· ++ [' ']) ++ s) c k = some r := by
    induction ws with
    | nil =>
      intro n hn
      cases n with
      | zero => omega
      | succ n =>
        simp only [List.flatMap_nil, List.nil_append]
        rw [starM_succ, if_pos rfl, hs]
        exact hk
    | cons w ws ih =>
      intro n hn
      cases n with
      | zero => omega
      | succ n =>
        have e : (w :: ws).flatMap (· ++ [' ']) ++ s = w ++ ' ' :: (ws.flatMap (· ++ [' ']) ++ s) := by simp
        rw [e] at hn ⊢
        rw [starM_succ, if_pos rfl, m_option w (ws.flatMap (· ++ [' ']) ++ s) c _ r (hw w (by simp))]
        · rfl
        · rw [if_pos (by simp only [List.length_append, List.length_cons]; omega)]
          apply ih (fun w h => hw w (by simp [h]))
          simp only [List.length_append, List.length_cons] at hn ⊢; omega
  exact key _ (by omega)

/-- `(?:|-- +)(.*) +(.*)\n`: everything up to the last space is the first name. -/
theorem m_names (u d : Str) (c : Caps) (hu : '\n' ∉ u) (hd : '\n' ∉ d) (hds : ' ' ∉ d) :
    (cat [.alt .eps (.seq (text (str "--")) (many1 (lit ' '))), .grp 1 (many dot), many1 (lit ' '), .grp 2 (many dot), lit '\n']).m
      (u ++ ' ' :: (d ++ ['\n'])) c endK = some ((2, d) :: (1, u) :: c) := by
  rw [m_cat_cons, m_alt, m_eps]
  have h : (cat [.grp 1 (many dot), many1 (lit ' '), .grp 2 (many dot), lit '\n']).m (u ++ ' ' :: (d ++ ['\n'])) c endK = some ((2, d) :: (1, u) :: c) := by
    rw [m_cat_cons, m_grp, dot, m_many_chr]
    have hlast : ∀ (k : Str → Caps → Option Caps) c, (∀ x, (d ++ ['\n']).head? = some x → x ≠ ' ') →
        (many1 (lit ' ')).m (' ' :: (d ++ ['\n'])) c k = k (d ++ ['\n']) c := by
      intro k c hh
      rw [m_many1, m_lit_cons, if_pos rfl, lit, m_many_chr]
      cases hx : d ++ ['\n'] with
      | nil => simp at hx
      | cons x t => 
        have := hh x (by rw [hx]; rfl)
        simp [greedy, this]
    refine greedy_backoff (t := u) (s := ' ' :: (d ++ ['\n'])) (dot_ok hu) ?_
    have hsp : ∀ x ∈ d ++ ['\n'], x ≠ ' ' := by
      intro x hx
      rcases List.mem_append.1 hx with hx | hx
      · rintro rfl; exact hds hx
      · simp only [List.mem_singleton] at hx; subst hx; decide
    rw [greedy, if_pos (by decide), greedy_none]
    · rw [m_cat_cons, hlast _ _ (fun x hx => hsp x (by cases hq : d ++ ['\n'] with | nil => simp at hq | cons y t => rw [hq] at hx; simp at hx; simp [hx])),
        m_cat_cons, take_len]
      simp only [m_cat_one, Option.none_or]
      exact dotLit_newline 2 d _ hd
    · intro t v e _
      cases v with
      | nil => rw [m_cat_cons, m_many1]; rfl
      | cons x v =>
        rw [m_cat_cons, m_many1, m_lit_cons, if_neg (hsp x (by rw [e]; simp))]
  rw [h]; rfl

/-- The header line is understood. -/
theorem header_match (f : NFile) (h : f.NamesOk) (ho : ∀ w ∈ f.options, OptionWord w) :
    ∃ c, reNormalDiffHeader.full f.header = some c ∧ c.get 1 = f.src ∧ c.get 2 = f.dst := by
  refine ⟨[(2, f.dst), (1, f.src)], ?_, rfl, rfl⟩
  have e : f.header = str "diff " ++ (f.options.flatMap (· ++ [' ']) ++ (f.src ++ ' ' :: (f.dst ++ ['\n']))) := by simp [NFile.header]
  unfold reNormalDiffHeader Re.full
  rw [e, m_cat_cons, m_text_append, m_cat_cons]
  refine m_options f.options _ _ _ _ ho ?_ (m_names f.src f.dst [] h.src.1 h.dst.1 h.dst.2)
  intro k
  exact m_option_none f.src (f.dst ++ ['\n']) [] k h.src.2

/-! ### Several files: the loop -/

theorem between_line {t : Str} (h : NBetween t) : ∀ x s, t ++ ['\n'] = x :: s → ¬ IsDigit x := by
  intro x s e
  cases t with
  | nil =>
    simp only [List.nil_append, List.cons.injEq] at e
    rw [← e.1]; exact nl_noDigit
  | cons y t =>
    simp only [List.cons_append, List.cons.injEq] at e
    rw [← e.1]
    exact h.1.2.2.1 y t rfl

theorem between_body {t : Str} {ch : Char} (hp : ¬ [ch, ' '] <+: t) (hc : ch ≠ '\n') : (reBody (fun x => decide (x = ch))).full (t ++ ['\n']) = none := by
  cases hx : (reBody (fun x => decide (x = ch))).full (t ++ ['\n']) with
  | none => rfl
  | some k =>
    exfalso
    obtain ⟨x, u, hx, _, e, _⟩ := reBody_full.1 hx
    simp only [decide_eq_true_eq] at hx
    subst hx
    apply hp
    cases t with
    | nil => simp at e
    | cons y t =>
      cases t with
      | nil => simp at e
      | cons z t =>
        simp only [List.cons_append, List.cons.injEq] at e
        exact ⟨t, by simp [e.1, e.2.1]⟩

/-- The first line of a file ends the commands before it. -/
theorem nfile_after (f : NFile) (ok : f.Ok) (rest : List Str) : NAfter (f.render ++ rest) := by
  have key : ∀ l, (f.render ++ rest).head? = some l → (∃ t ∈ f.preamble, l = t ++ ['\n']) ∨ ∃ s, l = 'd' :: s := by
    intro l hl
    unfold NFile.render at hl
    cases hp : f.preamble with
    | nil =>
      rw [hp] at hl
      simp only [List.map_nil, List.nil_append, List.cons_append, List.head?_cons, Option.some.injEq] at hl
      rw [← hl]
      exact .inr ⟨_, rfl⟩
    | cons t ts =>
      rw [hp] at hl
      simp only [List.map_cons, List.cons_append, List.head?_cons, Option.some.injEq] at hl
      exact .inl ⟨t, by simp, hl.symm⟩
  refine ⟨fun l hl => ?_, fun l hl => ?_, fun l hl => ?_⟩
  · rcases key l hl with ⟨t, ht, rfl⟩ | ⟨s, rfl⟩
    · exact between_body (ok.between t ht).2.2.2.2 (by decide)
    · exact body_none rfl
  · rcases key l hl with ⟨t, ht, rfl⟩ | ⟨s, rfl⟩
    · exact between_body (ok.between t ht).2.2.2.1 (by decide)
    · exact body_none rfl
  · rcases key l hl with ⟨t, ht, rfl⟩ | ⟨s, rfl⟩
    · apply command_none
      intro x hx
      cases hq : t ++ ['\n'] with
      | nil => simp at hq
      | cons y s =>
        rw [hq] at hx
        simp only [List.head?_cons, Option.some.injEq] at hx
        rw [← hx]
        exact between_line (ok.between t ht) y s hq
    · apply command_none
      intro x hx
      simp only [List.head?_cons, Option.some.injEq] at hx
      rw [← hx]; exact d_noDigit

/-- The file as seen by a client. -/
def nfileView (win : Bool) (f : NFile) : MView := normalView (unescapePath win f.src) (unescapePath win f.dst) f.cmds

/-- The file has commands. -/
def hasCmds (f : NFile) : Bool := decide (f.cmds ≠ [])

theorem nheader_ok (win : Bool) (f : NFile) (ok : f.Ok) (st : PState) (rest : List Str) (e : st.rest = f.render ++ rest) :
    parseNormalDiffHeader win .Diff st =
      ({ st with rest := f.cmds.flatMap NCmd.render ++ rest, cur := DModel.new (unescapePath win f.src) (unescapePath win f.dst) }, true) := by
  obtain ⟨c, h, h1, h2⟩ := header_match f ok.names ok.options
  unfold parseNormalDiffHeader
  simp only [normalHeader, e, NFile.render, List.append_assoc]
  rw [normalHeaderLoop_skip]
  · simp only [List.cons_append, normalHeaderLoop, h, h1, h2]
  · intro l hl
    obtain ⟨t, ht, rfl⟩ := List.mem_map.1 hl
    apply normalHeader_none
    intro hp
    exact (ok.between t ht).2.1 (prefix_newline (by decide) (List.isPrefixOf_iff_prefix.2 hp))

theorem checkHeader_keeps (r : Re) (st : PState) : (checkHeader r st).rest = st.rest ∧ (checkHeader r st).models = st.models ∧
    (checkHeader r st).heap = st.heap ∧ (checkHeader r st).lines = st.lines := by
  unfold checkHeader
  split
  · simp
  · split <;> simp

theorem FilesInv.congr {st st' : PState} {vs : List MView} (inv : FilesInv st vs) (h1 : st'.models = st.models) (h2 : st'.heap = st.heap) :
    FilesInv st' vs := ⟨by rw [h1, h2]; exact inv.parsed, by rw [h1, h2]; exact inv.views⟩

theorem nfile_ok (win : Bool) (f : NFile) (ok : f.Ok) (st : PState) (rest : List Str) (hr : NAfter rest) (e : st.rest = f.render ++ rest)
    (vs : List MView) (inv : FilesInv st vs) :
    ∃ st1 st2, parseNormalDiffHeader win .Diff st = (st1, true) ∧ normalHunks st1 = Res.ok st2 ∧ st2.keepModel.rest = rest ∧
      st2.keepModel.lines = st.lines ∧ FilesInv st2.keepModel (vs ++ if hasCmds f then [nfileView win f] else []) := by
  have h1 := nheader_ok win f ok st rest e
  have hb : (DModel.new (unescapePath win f.src) (unescapePath win f.dst)).Blank := new_blank _ _
  obtain ⟨st2, g1, g2, g3, _, _, g4, g5, g6, g7⟩ := ncmds_ok f.cmds ok.cmds rest hr ((f.cmds.flatMap NCmd.render ++ rest).length + 1)
    (by have := render_length f.cmds; simp only [List.length_append]; omega)
    { st with rest := f.cmds.flatMap NCmd.render ++ rest, cur := DModel.new (unescapePath win f.src) (unescapePath win f.dst) } rfl (hb.parsed _)
  have hview : st2.cur.view st2.heap = nfileView win f := by
    rw [g7]
    simp only [DModel.view, nfileView, normalView, hb.hunks, hb.differences, hb.initial.1, List.map_nil, List.nil_append]
    rfl
  have hcount : hasCmds f = decide (0 < st2.cur.differences.length) := by
    have := congrArg (fun v => v.differences.length) hview
    simp only [DModel.view, nfileView, normalView, List.length_map] at this
    unfold hasCmds
    rw [this, decide_eq_decide, ← ncmdDiffs_pos]
    rfl
  have hold : FilesInv st2 vs := by
    constructor
    · intro m hm
      rw [g3] at hm
      exact (inv.parsed m hm).ext g5
    · rw [g3, ← inv.views]
      apply List.map_congr_left
      intro m hm
      exact (inv.parsed m hm).view_ext g5
  refine ⟨_, st2, h1, g1, by rw [keepModel_rest, g2], ?_, ?_⟩
  · unfold PState.keepModel
    split <;> exact g4
  · unfold PState.keepModel
    rw [hcount]
    by_cases hc : 0 < st2.cur.differences.length
    · rw [if_pos hc]
      simp only [hc, decide_true, if_true]
      constructor
      · intro m hm
        simp only [List.mem_append, List.mem_singleton] at hm
        rcases hm with hm | rfl
        · exact hold.parsed m hm
        · exact g6
      · simp only [List.map_append, List.map_cons, List.map_nil, hold.views, hview]
    · rw [if_neg hc]
      simp only [hc, decide_false, Bool.false_eq_true, if_false, List.append_nil]
      exact hold

theorem nfiles_ok (win : Bool) (fs : List NFile) (ok : ∀ f ∈ fs, f.Ok) (n : Nat) (hn : fs.length < n) (st : PState) (vs : List MView)
    (inv : FilesInv st vs) (e : st.rest = fs.flatMap NFile.render) :
    ∃ st', fileLoop (fun st => Res.ok (parseNormalDiffHeader win .Diff st)) normalHunks reNormalDiffHeader n st = Res.ok st' ∧
      st'.rest = st.lines ∧ st'.single = true ∧ st'.cur = {} ∧ FilesInv st' (vs ++ (fs.filter hasCmds).map (nfileView win)) := by
  induction fs generalizing n st vs with
  | nil =>
    cases n with
    | zero => simp at hn
    | succ n =>
      simp only [List.flatMap_nil] at e
      refine ⟨{ st with rest := st.lines, cur := {}, single := true }, ?_, rfl, rfl, rfl, ?_⟩
      · simp [fileLoop, parseNormalDiffHeader, e, normalHeaderLoop]
      · simp only [List.filter_nil, List.map_nil, List.append_nil]
        exact inv.congr rfl rfl
  | cons f fs ih =>
    cases n with
    | zero => simp at hn
    | succ n =>
      simp only [List.length_cons] at hn
      have hafter : NAfter (fs.flatMap NFile.render) := by
        cases fs with
        | nil => exact NAfter.nil
        | cons f' fs => rw [List.flatMap_cons]; exact nfile_after f' (ok f' (by simp)) _
      obtain ⟨st1, st2, h1, h2, h3, h4, h5⟩ := nfile_ok win f (ok f (by simp)) st _ hafter (by rw [e, List.flatMap_cons]) vs inv
      obtain ⟨k1, k2, k3, k4⟩ := checkHeader_keeps reNormalDiffHeader st2.keepModel
      obtain ⟨st', g1, g2, g3, g4, g5⟩ := ih (fun f hf => ok f (by simp [hf])) n (by omega) (checkHeader reNormalDiffHeader st2.keepModel) _
        (h5.congr k2 k3) (by rw [k1, h3])
      refine ⟨st', ?_, by rw [g2, k4, h4], g3, g4, ?_⟩
      · simp only [fileLoop, h1, Res.bind_ok, Bool.true_eq_false, if_false, h2]
        exact g1
      · rw [List.append_assoc] at g5
        by_cases hc : hasCmds f
        · simpa [hc] using g5
        · simpa [hc] using g5

/-- The lines of several files. -/
theorem NFile.lines_ok (f : NFile) (ok : f.Ok) : ∀ l ∈ f.render,
    ((∃ t, NBetween t ∧ l = t ++ ['\n']) ∨ l = f.header ∨ NLine l) ∧ WholeLine l := by
  intro l hl
  simp only [NFile.render, List.mem_append, List.mem_map, List.mem_cons] at hl
  rcases hl with ⟨t, ht, rfl⟩ | rfl | hl
  · exact ⟨.inl ⟨t, ok.between t ht, rfl⟩, t, (ok.between t ht).1.1.1, rfl⟩
  · refine ⟨.inr (.inl rfl), str "diff " ++ f.options.flatMap (· ++ [' ']) ++ f.src ++ ' ' :: f.dst, ?_, by simp [NFile.header]⟩
    have ho : '\n' ∉ f.options.flatMap (· ++ [' ']) := by
      intro h
      obtain ⟨w, hw, h⟩ := List.mem_flatMap.1 h
      simp [optionWord_noNewline (ok.options w hw)] at h
    simp only [List.mem_append, List.mem_cons, not_or]
    exact ⟨⟨⟨by decide, ho⟩, ok.names.src.1⟩, by decide, ok.names.dst.1⟩
  · have := ncmds_lines f.cmds ok.cmds l hl
    exact ⟨.inr (.inr this.1), this.2⟩

theorem nfile_quiet {f : NFile} {l : Str} (h : (∃ t, NBetween t ∧ l = t ++ ['\n']) ∨ l = f.header ∨ NLine l) :
    ¬ str "Index: " <+: l ∧ ¬ str "==== " <+: l ∧ ¬ str "\\ No newline" <+: l := by
  rcases h with ⟨t, ht, rfl⟩ | rfl | h
  · refine ⟨fun hp => ht.2.2.1 (prefix_newline (by decide) (List.isPrefixOf_iff_prefix.2 hp)),
      fun hp => ht.1.1.2.2.1 (prefix_newline (by decide) (List.isPrefixOf_iff_prefix.2 hp)),
      fun hp => ht.1.1.2.2.2 (prefix_newline (by decide) (List.isPrefixOf_iff_prefix.2 hp))⟩
  · have e : ∃ s, f.header = 'd' :: s := ⟨_, rfl⟩
    obtain ⟨s, e⟩ := e
    rw [e]
    exact ⟨fun h => absurd (prefix_head h) (by decide), fun h => absurd (prefix_head h) (by decide), fun h => absurd (prefix_head h) (by decide)⟩
  · exact ⟨h.quiet.1, h.quiet.2.1, h.quiet.2.2.1⟩

theorem header_text (f : NFile) (ok : f.Ok) : ∃ s, '\n' ∉ s ∧ f.header = ('d' :: 'i' :: 'f' :: 'f' :: ' ' :: s) ++ ['\n'] := by
  obtain ⟨t, ht, e⟩ := (NFile.lines_ok f ok f.header (by simp [NFile.render])).2
  have e2 : ∃ s, f.header = ('d' :: 'i' :: 'f' :: 'f' :: ' ' :: s) ++ ['\n'] :=
    ⟨f.options.flatMap (· ++ [' ']) ++ f.src ++ ' ' :: f.dst, by simp [NFile.header, str]⟩
  obtain ⟨s, e2⟩ := e2
  refine ⟨s, ?_, e2⟩
  rw [e2] at e
  have := List.append_cancel_right e
  rw [← this] at ht
  simp only [List.mem_cons, not_or] at ht
  exact ht.2.2.2.2.2

theorem header_noFormat (f : NFile) (ok : f.Ok) : lineFormat f.header (formatPatterns .Diff) = none := by
  obtain ⟨s, hs, e⟩ := header_text f ok
  rw [e]
  apply preamble_format _ (by simp)
  refine ⟨⟨by simp [hs], ?_, ?_, ?_⟩, ?_, ?_, ?_⟩
  · exact fun h => absurd (prefix_head h) (by decide)
  · exact fun h => absurd (prefix_head h) (by decide)
  · exact fun h => absurd (prefix_head h) (by decide)
  · exact fun h => absurd (prefix_head h) (by decide)
  · intro x t e
    simp only [List.cons.injEq] at e
    rw [← e.1]; decide
  · intro x y t e _
    simp only [List.cons.injEq] at e
    rw [← e.2.1]; decide

theorem nfiles_format (fs : List NFile) (ok : ∀ f ∈ fs, f.Ok) (hc : ∃ f ∈ fs, f.cmds ≠ []) : determineFormat .Diff (fs.flatMap NFile.render) = .Normal := by
  induction fs with
  | nil => obtain ⟨f, hf, _⟩ := hc; simp at hf
  | cons f fs ih =>
    have e : (f :: fs).flatMap NFile.render = (f.preamble.map (· ++ ['\n']) ++ [f.header]) ++ (f.cmds.flatMap NCmd.render ++ fs.flatMap NFile.render) := by
      simp [NFile.render]
    rw [e, format_skip]
    · cases hcm : f.cmds with
      | nil =>
        simp only [List.flatMap_nil, List.nil_append]
        apply ih (fun f hf => ok f (by simp [hf]))
        obtain ⟨g, hg, hgc⟩ := hc
        rcases List.mem_cons.1 hg with rfl | hg
        · exact absurd hcm hgc
        · exact ⟨g, hg, hgc⟩
      | cons c cs =>
        simp only [List.flatMap_cons, NCmd.render, List.cons_append, determineFormat, command_format c]
    · intro l hl
      simp only [List.mem_append, List.mem_map, List.mem_singleton] at hl
      rcases hl with ⟨t, ht, rfl⟩ | rfl
      · exact preamble_format _ (by simp) t ((ok f (by simp)).between t ht).1
      · exact header_noFormat f (ok f (by simp))

theorem nfiles_length (fs : List NFile) : fs.length ≤ (fs.flatMap NFile.render).length := by
  induction fs with
  | nil => simp
  | cons f fs ih => simp only [List.flatMap_cons, List.length_append, List.length_cons, NFile.render]; omega

theorem parse_normal_files (fs : List NFile) (ok : ∀ f ∈ fs, f.Ok) (hc : ∃ f ∈ fs, f.cmds ≠ []) (win : Bool) (cmp : Str → Str → Int) (heap : Heap) :
    ∃ st, parse win cmp heap (fs.flatMap NFile.render) = Res.ok (finishParse cmp st) ∧ st.malformed = true ∧
      FilesInv st ((fs.filter hasCmds).map (nfileView win)) := by
  have hl : ∀ l ∈ fs.flatMap NFile.render, ¬ str "Index: " <+: l ∧ ¬ str "==== " <+: l ∧ ¬ str "\\ No newline" <+: l := by
    intro l h
    obtain ⟨f, hf, h⟩ := List.mem_flatMap.1 h
    exact nfile_quiet (NFile.lines_ok f (ok f hf) l h).1
  have hclean : cleanUpCrap (fs.flatMap NFile.render) = Res.ok (fs.flatMap NFile.render) := clean_quiet _ (fun l h => (hl l h).2.2)
  have hgen : determineGenerator (fs.flatMap NFile.render) = .Diff := generator_diff _ (fun l h => ⟨(hl l h).1, (hl l h).2.1⟩)
  have hne : fs.flatMap NFile.render ≠ [] := by
    obtain ⟨f, hf, _⟩ := hc
    have := nfiles_length fs
    have h2 := List.length_pos_of_mem hf
    intro e
    rw [e] at this
    simp only [List.length_nil] at this
    omega
  unfold parse
  rw [hclean, hgen]
  simp only [Res.bind_ok, parseLines, nfiles_format fs ok hc, normalFiles, normalHeader]
  obtain ⟨st', g1, g2, g3, g4, g5⟩ := nfiles_ok win fs ok ((fs.flatMap NFile.render).length + 1) (by have := nfiles_length fs; omega)
    { lines := fs.flatMap NFile.render, rest := fs.flatMap NFile.render, heap := heap, cur := {}, models := [], single := false, malformed := false }
    [] ⟨by simp, rfl⟩ rfl
  rw [g1]
  simp only at g2
  have hfirst : ∀ l, (fs.flatMap NFile.render).head? = some l → normalHunkHeader l = none := by
    cases fs with
    | nil => exact absurd rfl hne
    | cons f fs => exact (by rw [List.flatMap_cons]; exact (nfile_after f (ok f (by simp)) _).noCommand)
  have hstop : normalHunks st' = Res.ok st' := by
    have : parseNormalHunk st' = Res.ok none := by
      unfold parseNormalHunk
      rw [g2]
      cases hx : fs.flatMap NFile.render with
      | nil => rfl
      | cons l ls => simp [hfirst l (by rw [hx]; rfl)]
    simp [normalHunks, hunkLoop, this]
  have hkeep : st'.keepModel = st' := by
    unfold PState.keepModel
    rw [if_neg]
    rw [g4]; exact fun h => absurd h (by decide)
  refine ⟨{ st' with malformed := true }, ?_, rfl, ?_⟩
  · simp only [Res.bind_ok, g3, if_true, hstop, hkeep, g2, ne_eq, hne, not_false_eq_true]
  · have h := g5.congr (st' := { st' with malformed := true }) rfl rfl
    simpa using h

theorem nlines_split (ls : List Str) (h : ∀ l ∈ ls, WholeLine l) : split ls.flatten = ls := by
  apply split_flatten
  have := LineList.append (as := ls) (bs := []) h .nil
  simpa using this

/-! ### CVS -/

/-- No command comes directly after an `Index: ` line. -/
def Guarded : List Str → Prop
  | [] => True
  | l :: ls => (str "Index: " <+: l → ∀ h, ls.head? = some h → normalHunkHeader h = none) ∧ Guarded ls

theorem Guarded.append {a b : List Str} (ha : ∀ l ∈ a, ¬ str "Index: " <+: l) (hb : Guarded b) : Guarded (a ++ b) := by
  induction a with
  | nil => exact hb
  | cons l a ih => exact ⟨fun h => absurd h (ha l (by simp)), ih (fun l hl => ha l (by simp [hl]))⟩

theorem guarded_loop {mk : Caps → DModel} {ls : List Str} (g : Guarded ls) {m : DModel} {ls' : List Str}
    (h : normalHeaderLoop reIndexHeader mk ls = some (m, ls')) :
    (∃ c, m = mk c) ∧ Guarded ls' ∧ ls'.length < ls.length ∧ ∀ x, ls'.head? = some x → normalHunkHeader x = none := by
  induction ls with
  | nil => simp [normalHeaderLoop] at h
  | cons l ls ih =>
    simp only [normalHeaderLoop] at h
    cases hx : reIndexHeader.full l with
    | some c =>
      rw [hx] at h
      simp only [Option.some.injEq, Prod.mk.injEq] at h
      obtain ⟨rfl, rfl⟩ := h
      refine ⟨⟨c, rfl⟩, g.2, by simp, g.1 ?_⟩
      have : ¬ (str "Index: ").isPrefixOf l = false := by
        intro e
        rw [show reIndexHeader.full l = none from full_text_cat_none e] at hx
        cases hx
      exact List.isPrefixOf_iff_prefix.1 (by simpa using this)
    | none =>
      rw [hx] at h
      obtain ⟨h1, h2, h3, h4⟩ := ih g.2 h
      exact ⟨h1, h2, by simp; omega, h4⟩

theorem cvs_loop (win : Bool) (n : Nat) (st : PState) (g : Guarded st.rest) (hn : st.rest.length < n) (hm : st.models = []) :
    ∃ st', fileLoop (fun st => Res.ok (parseNormalDiffHeader win .CVSDiff st)) normalHunks reIndexHeader n st = Res.ok st' ∧
      st'.rest = st.lines ∧ st'.lines = st.lines ∧ st'.models = [] ∧ st'.single = true ∧ st'.cur = {} ∧ st'.heap = st.heap := by
  induction n generalizing st with
  | zero => omega
  | succ n ih =>
    simp only [fileLoop, parseNormalDiffHeader, normalHeader]
    cases hx : normalHeaderLoop reIndexHeader (fun c => DModel.new (c.get 1) (c.get 1)) st.rest with
    | none => exact ⟨{ st with rest := st.lines, cur := {}, single := true }, by simp only [Res.bind_ok, if_true], rfl, rfl, hm, rfl, rfl, rfl⟩
    | some r =>
      obtain ⟨m, ls'⟩ := r
      obtain ⟨⟨c, rfl⟩, h2, h3, h4⟩ := guarded_loop g hx
      simp only [Res.bind_ok, Bool.true_eq_false, if_false, normalHunks]
      rw [normalLoop_stop _ _ h4]
      simp only [Res.bind_ok]
      have hk : ({ st with rest := ls', cur := DModel.new (c.get 1) (c.get 1) } : PState).keepModel =
          { st with rest := ls', cur := DModel.new (c.get 1) (c.get 1) } := by
        simp [PState.keepModel, (new_blank (c.get 1) (c.get 1)).differences]
      rw [hk]
      obtain ⟨a1, a2, _⟩ := checkHeader_same reIndexHeader ({ st with rest := ls', cur := DModel.new (c.get 1) (c.get 1) } : PState)
      obtain ⟨b1, _, _, b2⟩ := checkHeader_keeps reIndexHeader ({ st with rest := ls', cur := DModel.new (c.get 1) (c.get 1) } : PState)
      generalize checkHeader reIndexHeader ({ st with rest := ls', cur := DModel.new (c.get 1) (c.get 1) } : PState) = st2 at a1 a2 b1 b2
      obtain ⟨st', k1, k2, k3, k4, k5, k6, k7⟩ := ih st2 (by rw [b1]; exact h2) (by rw [b1]; simp only; omega) (by rw [a2]; exact hm)
      refine ⟨st', k1, by rw [k2, b2], by rw [k3, b2], k4, k5, k6, by rw [k7, a1]⟩

end KompareDiff2
