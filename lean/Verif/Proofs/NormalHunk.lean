import Verif.Spec.Normal
import Verif.Proofs.ContextDiff
import Verif.Proofs.Structure
/-
The normal parser on one well-formed command.
-/
namespace KompareDiff2
open Spec Re

/-! ### Command lines -/

theorem digit_split {d1 d2 s1 s2 : Str} (h1 : ∀ x ∈ d1, IsDigit x) (h2 : ∀ x ∈ d2, IsDigit x) (hs1 : ∀ x, s1.head? = some x → ¬ IsDigit x)
    (hs2 : ∀ x, s2.head? = some x → ¬ IsDigit x) (e : d1 ++ s1 = d2 ++ s2) : d1 = d2 ∧ s1 = s2 := by
  induction d1 generalizing d2 with
  | nil =>
    cases d2 with
    | nil => exact ⟨rfl, e⟩
    | cons y d2 =>
      simp only [List.nil_append, List.cons_append] at e
      exact absurd (h2 y (by simp)) (hs1 y (by rw [e]; rfl))
  | cons x d1 ih =>
    cases d2 with
    | nil =>
      simp only [List.nil_append, List.cons_append] at e
      exact absurd (h1 x (by simp)) (hs2 x (by rw [← e]; rfl))
    | cons y d2 =>
      simp only [List.cons_append, List.cons.injEq] at e
      obtain ⟨rfl, e⟩ := e
      obtain ⟨rfl, e'⟩ := ih (fun z hz => h1 z (by simp [hz])) (fun z hz => h2 z (by simp [hz])) e
      exact ⟨rfl, e'⟩

/-- The end of a range: nothing or a comma and digits. -/
def RangeEnd (e : Str) : Prop := e = [] ∨ ∃ d, e = ',' :: d ∧ Digits d

theorem rangeEnd_lang (n : Nat) (s : Str) : (reRangeEnd n).Lang s ↔ RangeEnd s := by
  unfold reRangeEnd RangeEnd
  rw [lang_grp, lang_alt, lang_seq]
  constructor
  · rintro (h | ⟨s1, s2, rfl, h1, h2⟩)
    · exact .inl h
    · rw [lang_lit] at h1
      rw [many1Digit_lang] at h2
      exact .inr ⟨s2, by rw [h1]; rfl, h2⟩
  · rintro (h | ⟨d, rfl, h⟩)
    · exact .inl h
    · exact .inr ⟨[','], d, rfl, (lang_lit _ _).2 rfl, (many1Digit_lang _).2 h⟩

theorem digits_isDigit {d : Str} (h : Digits d) : ∀ x ∈ d, IsDigit x := h.2

/-- A line of `([0-9]+)a…`. -/
theorem added_form {l : Str} (h : reNormalAdded.Lang l) : ∃ d s, l = d ++ 'a' :: s ∧ Digits d := by
  unfold reNormalAdded at h
  rw [lang_cat_cons] at h
  obtain ⟨s1, s2, rfl, h1, h⟩ := h
  rw [lang_cat_cons] at h
  obtain ⟨s3, s4, rfl, h3, h⟩ := h
  rw [lang_lit] at h3
  subst h3
  exact ⟨s1, s4, rfl, (many1Digit_lang _).1 h1⟩

/-- A line of `([0-9]+)(|,[0-9]+)d…`. -/
theorem removed_form {l : Str} (h : reNormalRemoved.Lang l) : ∃ d e s, l = d ++ (e ++ 'd' :: s) ∧ Digits d ∧ RangeEnd e := by
  unfold reNormalRemoved at h
  rw [lang_cat_cons] at h
  obtain ⟨s1, s2, rfl, h1, h⟩ := h
  rw [lang_cat_cons] at h
  obtain ⟨s3, s4, rfl, h3, h⟩ := h
  rw [lang_cat_cons] at h
  obtain ⟨s5, s6, rfl, h5, h⟩ := h
  rw [lang_lit] at h5
  subst h5
  exact ⟨s1, s3, s6, rfl, (many1Digit_lang _).1 h1, (rangeEnd_lang _ _).1 h3⟩

/-- A line of `([0-9]+)(|,[0-9]+)c…`. -/
theorem changed_form {l : Str} (h : reNormalChanged.Lang l) : ∃ d e s, l = d ++ (e ++ 'c' :: s) ∧ Digits d ∧ RangeEnd e := by
  unfold reNormalChanged at h
  rw [lang_cat_cons] at h
  obtain ⟨s1, s2, rfl, h1, h⟩ := h
  rw [lang_cat_cons] at h
  obtain ⟨s3, s4, rfl, h3, h⟩ := h
  rw [lang_cat_cons] at h
  obtain ⟨s5, s6, rfl, h5, h⟩ := h
  rw [lang_lit] at h5
  subst h5
  exact ⟨s1, s3, s6, rfl, (many1Digit_lang _).1 h1, (rangeEnd_lang _ _).1 h3⟩

theorem rangeEnd_head {e s : Str} {c : Char} (h : RangeEnd e) : ∀ x, (e ++ c :: s).head? = some x → x = ',' ∨ x = c := by
  rcases h with rfl | ⟨d, rfl, _⟩ <;> intro x hx <;> simp only [List.nil_append, List.cons_append, List.head?_cons, Option.some.injEq] at hx
  · exact .inr hx.symm
  · exact .inl hx.symm

theorem comma_noDigit : ¬ IsDigit ',' := by unfold IsDigit; decide
theorem a_noDigit : ¬ IsDigit 'a' := by unfold IsDigit; decide
theorem c_noDigit : ¬ IsDigit 'c' := by unfold IsDigit; decide
theorem d_noDigit : ¬ IsDigit 'd' := by unfold IsDigit; decide
theorem nl_noDigit : ¬ IsDigit '\n' := by unfold IsDigit; decide

theorem head_noDigit {e s : Str} {c : Char} (h : RangeEnd e) (hc : ¬ IsDigit c) : ∀ x, (e ++ c :: s).head? = some x → ¬ IsDigit x := by
  intro x hx
  rcases rangeEnd_head h x hx with rfl | rfl
  · exact comma_noDigit
  · exact hc

/-- The letter after the range is determined. -/
theorem letter_unique {d d' e e' s s' : Str} {c c' : Char} (hd : Digits d) (hd' : Digits d') (he : RangeEnd e) (he' : RangeEnd e')
    (hc : ¬ IsDigit c) (hc' : ¬ IsDigit c') (h1 : c ≠ ',') (h2 : c' ≠ ',') (h : d ++ (e ++ c :: s) = d' ++ (e' ++ c' :: s')) : c = c' := by
  obtain ⟨_, h⟩ := digit_split hd.2 hd'.2 (head_noDigit he hc) (head_noDigit he' hc') h
  rcases he with rfl | ⟨x, rfl, hx⟩
  · rcases he' with rfl | ⟨y, rfl, hy⟩
    · simp only [List.nil_append, List.cons.injEq] at h; exact h.1
    · simp only [List.nil_append, List.cons_append, List.cons.injEq] at h; exact absurd h.1 h1
  · rcases he' with rfl | ⟨y, rfl, hy⟩
    · simp only [List.nil_append, List.cons_append, List.cons.injEq] at h; exact absurd h.1.symm h2
    · simp only [List.cons_append, List.cons.injEq, true_and] at h
      obtain ⟨_, h⟩ := digit_split hx.2 hy.2 (fun z hz => by simp at hz; rw [← hz]; exact hc) (fun z hz => by simp at hz; rw [← hz]; exact hc') h
      simp only [List.cons.injEq] at h; exact h.1

theorem decNat_digits (n : Nat) : Digits (decNat n) := ⟨decNat_ne_nil n, decNat_isDigit n⟩

/-- The end of a short range. -/
def endOf (start count : Nat) : Str := if count = 1 then [] else ',' :: decNat (start + count - 1)

theorem shortRange_eq (start count : Nat) : shortRange start count = decNat start ++ endOf start count := rfl

theorem endOf_ok (start count : Nat) : RangeEnd (endOf start count) := by
  unfold endOf
  split
  · exact .inl rfl
  · exact .inr ⟨_, rfl, decNat_digits _⟩

theorem endOf_noNewline (start count : Nat) : '\n' ∉ endOf start count := by
  unfold endOf
  split
  · simp
  · simp [decNat_noNewline]

/-- `(|,[0-9]+)` before a letter. -/
theorem m_rangeEnd {α : Type} (n : Nat) (e s : Str) (x : Char) (c : Caps) (k : Str → Caps → Option α) (r : α) (he : RangeEnd e)
    (hx : ¬ IsDigit x) (hk0 : ∀ s' c', k (',' :: s') c' = none) (hk : k (x :: s) ((n, e) :: c) = some r) :
    (reRangeEnd n).m (e ++ x :: s) c k = some r := by
  unfold reRangeEnd
  rw [m_grp, m_alt, m_eps, m_seq]
  rcases he with rfl | ⟨d, rfl, hd⟩
  · simp only [List.nil_append]
    have : (x :: s).take ((x :: s).length - (x :: s).length) = [] := by simp
    rw [this, hk]; rfl
  · rw [List.cons_append, hk0, m_lit_cons, if_pos rfl]
    simp only [Option.none_or]
    refine m_digits d (x :: s) c _ r hd.2 hd.1 ?_ ?_
    · intro y hy; simp only [List.head?_cons, Option.some.injEq] at hy; rw [← hy]; exact hx
    · have e2 : (',' :: (d ++ x :: s)).take ((',' :: (d ++ x :: s)).length - (x :: s).length) = ',' :: d := take_len (',' :: d) (x :: s)
      rw [e2]; exact hk

/-- `(|,[0-9]+)(.*)\n` at the end of the line: the first alternative is taken, the rest goes to the last group. -/
theorem m_rangeTail (n : Nat) (e : Str) (c : Caps) (he : '\n' ∉ e) :
    (cat [reRangeEnd n, .grp (n + 1) (many dot), lit '\n']).m (e ++ ['\n']) c endK = some ((n + 1, e) :: (n, []) :: c) := by
  rw [m_cat_cons, reRangeEnd, m_grp, m_alt, m_eps, m_cat_cons]
  have : (e ++ ['\n']).take ((e ++ ['\n']).length - (e ++ ['\n']).length) = [] := by simp
  rw [this]
  have h2 := dotLit_newline (n + 1) e ((n, []) :: c) he
  simp only [m_cat_one]
  rw [h2]; rfl

theorem noDigit_nl {e : Str} (he : RangeEnd e) : ∀ x, (e ++ ['\n']).head? = some x → ¬ IsDigit x := head_noDigit (s := []) he nl_noDigit

theorem added_match (a b e : Str) (ha : Digits a) (hb : Digits b) (he : RangeEnd e) (hn : '\n' ∉ e) :
    ∃ c, reNormalAdded.full (a ++ 'a' :: (b ++ (e ++ ['\n']))) = some c ∧ c.get 1 = a ∧ c.get 2 = b := by
  refine ⟨[(4, e), (3, []), (2, b), (1, a)], ?_, rfl, rfl⟩
  unfold reNormalAdded Re.full
  rw [m_cat_cons, m_grp]
  refine m_digits a _ _ _ _ ha.2 ha.1 (fun x hx => by simp at hx; rw [← hx]; exact a_noDigit) ?_
  rw [take_len, m_cat_cons, m_lit_cons, if_pos rfl, m_cat_cons, m_grp]
  refine m_digits b _ _ _ _ hb.2 hb.1 (noDigit_nl he) ?_
  rw [take_len]
  exact m_rangeTail 3 e _ hn

theorem cat_lit_none {α : Type} (y x : Char) (r : Re) (rs : List Re) (s : Str) (c : Caps) (k : Str → Caps → Option α) (h : x ≠ y) :
    (cat (lit y :: r :: rs)).m (x :: s) c k = none := by
  rw [m_cat_cons, m_lit_cons, if_neg h]

theorem removed_match (a e b : Str) (ha : Digits a) (he : RangeEnd e) (hb : Digits b) :
    ∃ c, reNormalRemoved.full (a ++ (e ++ 'd' :: (b ++ ['\n']))) = some c ∧ c.get 1 = a ∧ c.get 3 = b := by
  refine ⟨[(4, []), (3, b), (2, e), (1, a)], ?_, rfl, rfl⟩
  unfold reNormalRemoved Re.full
  rw [m_cat_cons, m_grp]
  refine m_digits a _ _ _ _ ha.2 ha.1 (head_noDigit he d_noDigit) ?_
  rw [take_len, m_cat_cons]
  refine m_rangeEnd 2 e _ 'd' _ _ _ he d_noDigit (fun s' c' => cat_lit_none 'd' ',' _ _ _ _ _ (by decide)) ?_
  rw [m_cat_cons, m_lit_cons, if_pos rfl, m_cat_cons, m_grp]
  refine m_digits b _ _ _ _ hb.2 hb.1 (fun x hx => by simp at hx; rw [← hx]; exact nl_noDigit) ?_
  rw [take_len]
  exact dotLit_newline 4 [] _ (by simp)

theorem changed_match (a e b e' : Str) (ha : Digits a) (he : RangeEnd e) (hb : Digits b) (he' : RangeEnd e') (hn : '\n' ∉ e') :
    ∃ c, reNormalChanged.full (a ++ (e ++ 'c' :: (b ++ (e' ++ ['\n'])))) = some c ∧ c.get 1 = a ∧ c.get 3 = b := by
  refine ⟨[(5, e'), (4, []), (3, b), (2, e), (1, a)], ?_, rfl, rfl⟩
  unfold reNormalChanged Re.full
  rw [m_cat_cons, m_grp]
  refine m_digits a _ _ _ _ ha.2 ha.1 (head_noDigit he c_noDigit) ?_
  rw [take_len, m_cat_cons]
  refine m_rangeEnd 2 e _ 'c' _ _ _ he c_noDigit (fun s' c' => cat_lit_none 'c' ',' _ _ _ _ _ (by decide)) ?_
  rw [m_cat_cons, m_lit_cons, if_pos rfl, m_cat_cons, m_grp]
  refine m_digits b _ _ _ _ hb.2 hb.1 (noDigit_nl he') ?_
  rw [take_len]
  exact m_rangeTail 4 e' _ hn

/-- The command line is understood. -/
theorem command_ok (c : NCmd) (ok : c.Ok) : normalHunkHeader c.command = some (c.type, ((c.lineNumbers.1 : Nat) : Int), ((c.lineNumbers.2 : Nat) : Int)) := by
  obtain ⟨n1, n2⟩ := ok.numbers
  cases c with
  | insert after dst ls =>
    have e : NCmd.command (.insert after dst ls) = decNat after ++ 'a' :: (decNat dst ++ (endOf dst ls.length ++ ['\n'])) := by
      simp [NCmd.command, shortRange_eq]
    obtain ⟨c, h, h1, h2⟩ := added_match _ _ _ (decNat_digits after) (decNat_digits dst) (endOf_ok dst ls.length) (endOf_noNewline _ _)
    rw [normalHunkHeader, e, h]
    simp only [h1, h2, NCmd.type, NCmd.lineNumbers]
    rw [toInt_decNat _ (by exact n1), toInt_decNat _ (by exact n2)]
  | delete src ls after =>
    have e : NCmd.command (.delete src ls after) = decNat src ++ (endOf src ls.length ++ 'd' :: (decNat after ++ ['\n'])) := by
      simp [NCmd.command, shortRange_eq]
    have hA : reNormalAdded.full (NCmd.command (.delete src ls after)) = none := by
      rw [Re.full_none]
      intro h
      obtain ⟨d, s, h, hd⟩ := added_form h
      rw [e] at h
      exact absurd (letter_unique (e' := []) (decNat_digits src) hd (endOf_ok _ _) (.inl rfl) d_noDigit a_noDigit (by decide) (by decide) h) (by decide)
    obtain ⟨c, h, h1, h2⟩ := removed_match _ _ _ (decNat_digits src) (endOf_ok src ls.length) (decNat_digits after)
    rw [normalHunkHeader, hA, e, h]
    simp only [h1, h2, NCmd.type, NCmd.lineNumbers]
    rw [toInt_decNat _ (by exact n1), toInt_decNat _ (by exact n2)]
  | change src r dst a =>
    have e : NCmd.command (.change src r dst a) = decNat src ++ (endOf src r.length ++ 'c' :: (decNat dst ++ (endOf dst a.length ++ ['\n']))) := by
      simp [NCmd.command, shortRange_eq]
    have hA : reNormalAdded.full (NCmd.command (.change src r dst a)) = none := by
      rw [Re.full_none]
      intro h
      obtain ⟨d, s, h, hd⟩ := added_form h
      rw [e] at h
      exact absurd (letter_unique (e' := []) (decNat_digits src) hd (endOf_ok _ _) (.inl rfl) c_noDigit a_noDigit (by decide) (by decide) h) (by decide)
    have hR : reNormalRemoved.full (NCmd.command (.change src r dst a)) = none := by
      rw [Re.full_none]
      intro h
      obtain ⟨d, e', s, h, hd, he'⟩ := removed_form h
      rw [e] at h
      exact absurd (letter_unique (decNat_digits src) hd (endOf_ok _ _) he' c_noDigit d_noDigit (by decide) (by decide) h) (by decide)
    obtain ⟨c, h, h1, h2⟩ := changed_match _ _ _ _ (decNat_digits src) (endOf_ok src r.length) (decNat_digits dst) (endOf_ok dst a.length) (endOf_noNewline _ _)
    rw [normalHunkHeader, hA, hR, e, h]
    simp only [h1, h2, NCmd.type, NCmd.lineNumbers]
    rw [toInt_decNat _ (by exact n1), toInt_decNat _ (by exact n2)]

/-- A line that does not begin with a digit is no command. -/
theorem command_none {l : Str} (h : ∀ x, l.head? = some x → ¬ IsDigit x) : normalHunkHeader l = none := by
  have key : ∀ d s, l = d ++ s → Digits d → False := by
    intro d s e hd
    cases d with
    | nil => exact hd.1 rfl
    | cons x d => exact h x (by rw [e]; rfl) (hd.2 x (by simp))
  have hA : reNormalAdded.full l = none := by
    rw [Re.full_none]
    intro h
    obtain ⟨d, s, h, hd⟩ := added_form h
    exact key _ _ h hd
  have hR : reNormalRemoved.full l = none := by
    rw [Re.full_none]
    intro h
    obtain ⟨d, e', s, h, hd, he'⟩ := removed_form h
    exact key _ _ h hd
  have hC : reNormalChanged.full l = none := by
    rw [Re.full_none]
    intro h
    obtain ⟨d, e', s, h, hd, he'⟩ := changed_form h
    exact key _ _ h hd
  rw [normalHunkHeader, hA, hR, hC]

/-! ### Bodies -/

/-- A list of lines that ends the commands of a file: no `< ` line, no `> ` line, no command. -/
structure NAfter (rest : List Str) : Prop where
  noRemoved : StopsRun reNormalBodyRemoved rest
  noAdded : StopsRun reNormalBodyAdded rest
  noCommand : ∀ l, rest.head? = some l → normalHunkHeader l = none

/-- After a body comes a command or the end. -/
structure NStops (rest : List Str) : Prop where
  noRemoved : StopsRun reNormalBodyRemoved rest
  noAdded : StopsRun reNormalBodyAdded rest

theorem body_none {p : Char → Bool} {c : Char} {s : Str} (h : p c = false) : (reBody p).full (c :: s) = none := by
  cases hx : (reBody p).full (c :: s) with
  | none => rfl
  | some k =>
    obtain ⟨x, u, hp, _, e, _⟩ := reBody_full.1 hx
    simp only [List.cons_append, List.cons.injEq] at e
    rw [← e.1, h] at hp; cases hp

theorem decNat_cons (n : Nat) : ∃ x d, decNat n = x :: d ∧ IsDigit x := by
  cases h : decNat n with
  | nil => exact absurd h (decNat_ne_nil n)
  | cons x d => exact ⟨x, d, rfl, decNat_isDigit n x (by rw [h]; simp)⟩

theorem command_head (c : NCmd) : ∃ x s, c.command = x :: s ∧ IsDigit x := by
  cases c with
  | insert after dst ls =>
    obtain ⟨x, d, e, h⟩ := decNat_cons after
    exact ⟨x, _, by simp [NCmd.command, e]; rfl, h⟩
  | delete src ls after =>
    obtain ⟨x, d, e, h⟩ := decNat_cons src
    exact ⟨x, _, by simp [NCmd.command, shortRange, e]; rfl, h⟩
  | change src r dst a =>
    obtain ⟨x, d, e, h⟩ := decNat_cons src
    exact ⟨x, _, by simp [NCmd.command, shortRange, e]; rfl, h⟩

theorem digit_body_none {x : Char} {s : Str} (h : IsDigit x) : reNormalBodyRemoved.full (x :: s) = none ∧ reNormalBodyAdded.full (x :: s) = none := by
  constructor
  · apply body_none
    simp only [decide_eq_false_iff_not]
    rintro rfl
    exact absurd h (by unfold IsDigit; decide)
  · apply body_none
    simp only [decide_eq_false_iff_not]
    rintro rfl
    exact absurd h (by unfold IsDigit; decide)

theorem stops_commands (cs : List NCmd) (rest : List Str) (h : NStops rest) : NStops (cs.flatMap NCmd.render ++ rest) := by
  cases cs with
  | nil => exact ⟨h.noRemoved, h.noAdded⟩
  | cons c cs =>
    obtain ⟨x, s, e, hx⟩ := command_head c
    have key : ∀ l, ((c :: cs).flatMap NCmd.render ++ rest).head? = some l → l = x :: s := by
      intro l hl
      simp only [List.flatMap_cons, NCmd.render, List.cons_append, List.head?_cons, Option.some.injEq] at hl
      rw [← hl, e]
    exact ⟨fun l hl => by rw [key l hl]; exact (digit_body_none hx).1, fun l hl => by rw [key l hl]; exact (digit_body_none hx).2⟩

theorem divider_full : (reNormalDivider.full (str "---\n")).isSome = true := by
  rw [Re.full_isSome, reNormalDivider, lang_text]

theorem body_ok (c : NCmd) (ok : c.Ok) (rest : List Str) (hr : NStops rest) (a b : Int) :
    (normalHunkBody c.type a b (c.body ++ rest)).1.view =
      { type := c.type, srcLine := a, dstLine := b, tracking := a, src := c.old, dst := c.new, applied := false, unsaved := false, conflicts := false } ∧
    (normalHunkBody c.type a b (c.body ++ rest)).2 = rest := by
  have ho : ∀ t ∈ c.old, '\n' ∉ t := fun t ht => ok.lines t (by simp [ht])
  have hn : ∀ t ∈ c.new, '\n' ∉ t := fun t ht => ok.lines t (by simp [ht])
  cases c with
  | insert after dst ls =>
    have h := captureRun_marked (fun x => decide (x = '>')) '>' rfl ls hn rest hr.noAdded
    have h' : captureRun reNormalBodyAdded (ls.map (markedLine '>') ++ rest) = (ls, rest) := h
    have e : normalHunkBody (NCmd.type (.insert after dst ls)) a b (NCmd.body (.insert after dst ls) ++ rest) =
        (ls.foldl Diff.addDest (Diff.new a b .Insert), rest) := by
      simp [normalHunkBody, NCmd.type, NCmd.body, h']
    rw [e]
    exact ⟨built_view a b .Insert [] ls, rfl⟩
  | delete src ls after =>
    have h := captureRun_marked (fun x => decide (x = '<')) '<' rfl ls ho rest hr.noRemoved
    have h' : captureRun reNormalBodyRemoved (ls.map (markedLine '<') ++ rest) = (ls, rest) := h
    have e : normalHunkBody (NCmd.type (.delete src ls after)) a b (NCmd.body (.delete src ls after) ++ rest) =
        (ls.foldl Diff.addSource (Diff.new a b .Delete), rest) := by
      simp [normalHunkBody, NCmd.type, NCmd.body, h']
    rw [e]
    exact ⟨built_view a b .Delete ls [], rfl⟩
  | change src r dst s =>
    have hd : StopsRun (reBody (fun x => decide (x = '<'))) (str "---\n" :: (s.map (markedLine '>') ++ rest)) := by
      intro l hl
      simp only [List.head?_cons, Option.some.injEq] at hl
      rw [← hl]
      exact body_none (c := '-') rfl
    have h1 := captureRun_marked (fun x => decide (x = '<')) '<' rfl r ho (str "---\n" :: (s.map (markedLine '>') ++ rest)) hd
    have h1' : captureRun reNormalBodyRemoved (r.map (markedLine '<') ++ str "---\n" :: (s.map (markedLine '>') ++ rest)) =
      (r, str "---\n" :: (s.map (markedLine '>') ++ rest)) := h1
    have h2 := captureRun_marked (fun x => decide (x = '>')) '>' rfl s hn rest hr.noAdded
    have h2' : captureRun reNormalBodyAdded (s.map (markedLine '>') ++ rest) = (s, rest) := h2
    have e : normalHunkBody (NCmd.type (.change src r dst s)) a b (NCmd.body (.change src r dst s) ++ rest) =
        (s.foldl Diff.addDest (r.foldl Diff.addSource (Diff.new a b .Change)), rest) := by
      simp [normalHunkBody, NCmd.type, NCmd.body, h1', h2', divider_full]
    rw [e]
    exact ⟨built_view a b .Change r s, rfl⟩

/-! ### All commands of a file -/

/-- The differences of the commands. -/
def ncmdDiffs (cs : List NCmd) : List DView := cs.flatMap (fun c => c.view.diffs)

theorem NCmd.type_ne (c : NCmd) : c.type ≠ .Unchanged := by cases c <;> simp [NCmd.type]

theorem ncmds_run (cs : List NCmd) (ok : ∀ c ∈ cs, c.Ok) (rest : List Str) (hr : NStops rest) (n : Nat)
    (st : PState) (e : st.rest = cs.flatMap NCmd.render ++ rest) (p : Parsed (fun _ => True) st.heap st.cur) :
    ∃ st', hunkLoop parseNormalHunk (n + cs.length) st = hunkLoop parseNormalHunk n st' ∧ st'.rest = rest ∧ st'.models = st.models ∧
      st'.malformed = st.malformed ∧ st'.single = st.single ∧ st'.lines = st.lines ∧
      st.heap.Ext st'.heap ∧ Parsed (fun _ => True) st'.heap st'.cur ∧
      st'.cur.view st'.heap = { st.cur.view st.heap with
        hunks := (st.cur.view st.heap).hunks ++ cs.map NCmd.view,
        differences := (st.cur.view st.heap).differences ++ ncmdDiffs cs } := by
  induction cs generalizing n st with
  | nil => exact ⟨st, rfl, by simpa using e, rfl, rfl, rfl, rfl, Heap.Ext.refl _, p, by simp [ncmdDiffs]⟩
  | cons c cs ih =>
      have okc := ok c (by simp)
      have hstop := stops_commands cs rest hr
      obtain ⟨hb1, hb2⟩ := body_ok c okc (cs.flatMap NCmd.render ++ rest) hstop ((c.lineNumbers.1 : Nat) : Int) ((c.lineNumbers.2 : Nat) : Int)
      generalize hD : (normalHunkBody c.type ((c.lineNumbers.1 : Nat) : Int) ((c.lineNumbers.2 : Nat) : Int) (c.body ++ (cs.flatMap NCmd.render ++ rest))).1 = D at hb1
      have h1 : parseNormalHunk st = Res.ok (some { (st.addHunk ((c.lineNumbers.1 : Nat) : Int) ((c.lineNumbers.2 : Nat) : Int) [] [(D, true)]) with
          rest := cs.flatMap NCmd.render ++ rest }) := by
        unfold parseNormalHunk
        rw [e]
        simp only [List.flatMap_cons, NCmd.render, List.cons_append, List.append_assoc, command_ok c okc]
        rw [hb2, hD]
      have hf : Entries.Flagged [(D, true)] := by
        intro e he
        simp only [List.mem_singleton] at he
        subst he
        have := congrArg DView.type hb1
        have h : D.type = c.type := this
        simp only
        rw [h]
        simp [NCmd.type_ne]
      have hp := addHunk_parsed st ((c.lineNumbers.1 : Nat) : Int) ((c.lineNumbers.2 : Nat) : Int) [] [(D, true)] p hf trivial
      have hv := addHunk_view st ((c.lineNumbers.1 : Nat) : Int) ((c.lineNumbers.2 : Nat) : Int) [] [(D, true)] p hf
      have hx := addHunk_ext st ((c.lineNumbers.1 : Nat) : Int) ((c.lineNumbers.2 : Nat) : Int) [] [(D, true)]
      obtain ⟨st', g1, g2, g3, g4, g4a, g4b, g5, g6, g7⟩ := ih (fun c hc => ok c (by simp [hc])) n
        { (st.addHunk ((c.lineNumbers.1 : Nat) : Int) ((c.lineNumbers.2 : Nat) : Int) [] [(D, true)]) with rest := cs.flatMap NCmd.render ++ rest } rfl hp
      refine ⟨st', ?_, g2, g3, g4, g4a, g4b, hx.trans g5, g6, ?_⟩
      · have en : n + (c :: cs).length = (n + cs.length) + 1 := by simp; omega
        rw [en]
        simp only [hunkLoop, h1, Res.bind_ok]
        exact g1
      · have hvw : hunkView ((c.lineNumbers.1 : Nat) : Int) ((c.lineNumbers.2 : Nat) : Int) [] [(D, true)] = c.view := by
          simp only [hunkView, NCmd.view, List.map_cons, List.map_nil, hb1]
        rw [g7]
        simp only [hv, hvw, List.map_cons, List.map_nil, hb1]
        simp [ncmdDiffs, NCmd.view, NCmd.type_ne]

theorem normalLoop_stop (st : PState) (n : Nat) (hr : ∀ l, st.rest.head? = some l → normalHunkHeader l = none) :
    hunkLoop parseNormalHunk (n + 1) st = Res.ok st := by
  have : parseNormalHunk st = Res.ok none := by
    unfold parseNormalHunk
    cases e : st.rest with
    | nil => rfl
    | cons l rest => simp [hr l (by rw [e]; rfl)]
  simp [hunkLoop, this]

theorem ncmds_ok (cs : List NCmd) (ok : ∀ c ∈ cs, c.Ok) (rest : List Str) (hr : NAfter rest) (n : Nat) (hn : cs.length < n)
    (st : PState) (e : st.rest = cs.flatMap NCmd.render ++ rest) (p : Parsed (fun _ => True) st.heap st.cur) :
    ∃ st', hunkLoop parseNormalHunk n st = Res.ok st' ∧ st'.rest = rest ∧ st'.models = st.models ∧ st'.malformed = st.malformed ∧
      st'.single = st.single ∧ st'.lines = st.lines ∧
      st.heap.Ext st'.heap ∧ Parsed (fun _ => True) st'.heap st'.cur ∧
      st'.cur.view st'.heap = { st.cur.view st.heap with
        hunks := (st.cur.view st.heap).hunks ++ cs.map NCmd.view,
        differences := (st.cur.view st.heap).differences ++ ncmdDiffs cs } := by
  obtain ⟨k, rfl⟩ : ∃ k, n = (k + 1) + cs.length := ⟨n - cs.length - 1, by omega⟩
  obtain ⟨st', g1, g2, g3⟩ := ncmds_run cs ok rest ⟨hr.noRemoved, hr.noAdded⟩ (k + 1) st e p
  refine ⟨st', ?_, g2, g3⟩
  rw [g1]
  exact normalLoop_stop st' k (by rw [g2]; exact hr.noCommand)

end KompareDiff2
