import Verif.Proofs.Decimal
import Verif.Proofs.Lines
import Verif.Spec.Unified
/-
The header patterns of the unified format on well-formed header lines.
-/
namespace KompareDiff2
open Re

abbrev endK : Str → Caps → Option Caps := fun s' c => if s' = [] then some c else none

theorem noTab_ok {t : Str} (h : '\t' ∉ t) : ∀ x ∈ t, (fun x => decide (x ≠ '\t')) x = true := by
  intro x hx
  have : x ≠ '\t' := fun e => h (e ▸ hx)
  simp [this]

/-- `[^\t]+` up to a tab. -/
theorem m_noTab_tab {α : Type} (t s : Str) (c : Caps) (k : Str → Caps → Option α) (r : α) (hne : t ≠ []) (ht : '\t' ∉ t)
    (hk : k ('\t' :: s) c = some r) : (many1 noTab).m (t ++ '\t' :: s) c k = some r := by
  cases t with
  | nil => exact absurd rfl hne
  | cons x t =>
    have hx := noTab_ok ht x (by simp)
    rw [m_many1, noTab, List.cons_append, m_chr_cons, if_pos hx, m_many_chr]
    refine greedy_run (fun y hy => noTab_ok ht y (by simp [hy])) ?_ hk
    intro y hy
    simp only [List.head?_cons, Option.some.injEq] at hy
    subst hy; decide

/-- `[^\t]+` before the final newline: the newline is given back. -/
theorem m_noTab_newline {α : Type} (t : Str) (c : Caps) (k : Str → Caps → Option α) (r : α) (hne : t ≠ []) (ht : '\t' ∉ t)
    (h0 : k [] c = none) (hk : k ['\n'] c = some r) : (many1 noTab).m (t ++ ['\n']) c k = some r := by
  cases t with
  | nil => exact absurd rfl hne
  | cons x t =>
    have hx := noTab_ok ht x (by simp)
    rw [m_many1, noTab, List.cons_append, m_chr_cons, if_pos hx, m_many_chr]
    refine greedy_backoff (fun y hy => noTab_ok ht y (by simp [hy])) ?_
    simp [greedy, h0, hk]

/-- The optional part of a unified header. -/
def reStamp : Re := cat [lit '\t', .grp 2 (many1 noTab), opt (lit '\t'), .grp 3 (many dot)]

theorem reUnifiedHeaderTail_eq : reUnifiedHeaderTail = cat [.grp 1 (many1 noTab), opt reStamp, lit '\n'] := rfl

theorem lit_endK_nil (c : Caps) : (lit '\n').m [] c endK = none := rfl

theorem lit_endK_newline (c : Caps) : (lit '\n').m ['\n'] c endK = some c := rfl

theorem dotLit_newline (n : Nat) (t : Str) (c : Caps) (h : '\n' ∉ t) :
    (Re.grp n (many dot)).m (t ++ ['\n']) c (fun s' c' => (lit '\n').m s' c' endK) = some ((n, t) :: c) := m_dotTail n t c h

theorem stamp_plain (ts : Str) (c : Caps) (hne : ts ≠ []) (ht : '\t' ∉ ts) :
    reStamp.m ('\t' :: ts ++ ['\n']) c (fun s' c' => (lit '\n').m s' c' endK) = some ((3, []) :: (2, ts) :: c) := by
  simp only [reStamp, List.cons_append]
  rw [m_cat_cons, m_lit_cons, if_pos rfl, m_cat_cons, m_grp]
  refine m_noTab_newline ts c _ _ hne ht ?_ ?_
  · have hd : ∀ c', (Re.grp 3 (many dot)).m [] c' (fun s' c' => (lit '\n').m s' c' endK) = none := by
      intro c'; simp [dot, m_many_chr, greedy]
    simp only [m_cat_cons, m_cat_one, m_opt, m_lit_nil, hd, Option.or_self]
  · have hd := dotLit_newline 3 [] ((2, ts) :: c) (by simp)
    simp only [List.nil_append] at hd
    simp only [take_len, m_cat_cons, m_cat_one, m_opt, m_lit_cons, hd]
    simp

theorem stamp_extra (ts e : Str) (c : Caps) (hne : ts ≠ []) (ht : '\t' ∉ ts) (he : '\n' ∉ e) :
    reStamp.m ('\t' :: ts ++ '\t' :: e ++ ['\n']) c (fun s' c' => (lit '\n').m s' c' endK) = some ((3, e) :: (2, ts) :: c) := by
  simp only [reStamp, List.cons_append, List.append_assoc]
  rw [m_cat_cons, m_lit_cons, if_pos rfl, m_cat_cons, m_grp]
  refine m_noTab_tab ts (e ++ ['\n']) c _ _ hne ht ?_
  have hd := dotLit_newline 3 e ((2, ts) :: c) he
  simp only [take_len, m_cat_cons, m_cat_one, m_opt, m_lit_cons, hd]
  simp

theorem unifiedHeaderTail_match (h : Spec.Header) (ok : h.Ok) :
    ∃ c, reUnifiedHeaderTail.full h.render = some c ∧ c.get 1 = h.name ∧ c.get 2 = h.stamp.getD [] ∧ c.get 4 = [] := by
  obtain ⟨hne, htab, hnl⟩ := ok.name
  rw [reUnifiedHeaderTail_eq]
  simp only [Re.full, m_cat_cons, m_cat_one, m_grp]
  cases hs : h.stamp with
  | none =>
    have e : h.render = h.name ++ ['\n'] := by simp [Spec.Header.render, hs]
    rw [e]
    refine ⟨[(1, h.name)], ?_, rfl, rfl, rfl⟩
    refine m_noTab_newline _ _ _ _ hne htab ?_ ?_
    · simp [reStamp]
    · rw [take_len]
      simp [reStamp]
  | some ts =>
    obtain ⟨h1, h2, h3⟩ := ok.stamp ts hs
    cases hx : h.extra with
    | none =>
      have e : h.render = h.name ++ '\t' :: (ts ++ ['\n']) := by simp [Spec.Header.render, hs, hx]
      rw [e]
      refine ⟨[(3, []), (2, ts), (1, h.name)], ?_, rfl, rfl, rfl⟩
      refine m_noTab_tab _ _ _ _ _ hne htab ?_
      have := stamp_plain ts [(1, h.name)] h1 h2
      rw [take_len, m_opt]
      simp only [List.cons_append] at this
      rw [this]; rfl
    | some ex =>
      have e : h.render = h.name ++ '\t' :: (ts ++ '\t' :: ex ++ ['\n']) := by simp [Spec.Header.render, hs, hx]
      rw [e]
      refine ⟨[(3, ex), (2, ts), (1, h.name)], ?_, rfl, rfl, rfl⟩
      refine m_noTab_tab _ _ _ _ _ hne htab ?_
      have := stamp_extra ts ex [(1, h.name)] h1 h2 (ok.extra ex hx)
      rw [take_len, m_opt]
      simp only [List.cons_append] at this
      rw [this]; rfl

theorem full_seq_text (t : Str) (r : Re) (s : Str) : (Re.seq (text t) r).full (t ++ s) = r.full s := by
  simp [Re.full]

theorem unifiedHeader1_match (h : Spec.Header) (ok : h.Ok) :
    ∃ c, reUnifiedHeader1.full (str "--- " ++ h.render) = some c ∧ c.get 1 = h.name ∧ c.get 2 = h.stamp.getD [] ∧ c.get 4 = [] := by
  rw [reUnifiedHeader1, full_seq_text]
  exact unifiedHeaderTail_match h ok

theorem unifiedHeader2_match (h : Spec.Header) (ok : h.Ok) :
    ∃ c, reUnifiedHeader2.full (str "+++ " ++ h.render) = some c ∧ c.get 1 = h.name ∧ c.get 2 = h.stamp.getD [] ∧ c.get 4 = [] := by
  rw [reUnifiedHeader2, full_seq_text]
  exact unifiedHeaderTail_match h ok

theorem unifiedHeader1_none {l : Str} (h : (str "--- ").isPrefixOf l = false) : reUnifiedHeader1.full l = none :=
  full_text_seq_none h

theorem unifiedHunkHeader_none {l : Str} (h : (str "@@ -").isPrefixOf l = false) : reUnifiedHunkHeader.full l = none :=
  full_text_cat_none h

/-! ### Hunk headers -/

theorem m_count {α : Type} (n : Nat) (t : Option Str) (s : Str) (c : Caps) (k : Str → Caps → Option α) (r : α)
    (ht : ∀ u, t = some u → u ≠ [] ∧ ∀ x ∈ u, IsDigit x) (hs : s.head? = some ' ')
    (hk0 : ∀ s' c', s'.head? ≠ some ' ' → k s' c' = none)
    (hk : k s (match t with | none => (n, []) :: c | some u => (n, ',' :: u) :: (n + 1, u) :: c) = some r) :
    (reCount n).m ((match t with | none => [] | some u => ',' :: u) ++ s) c k = some r := by
  rw [reCount, m_grp, m_alt, m_eps, m_seq]
  cases t with
  | none =>
    simp only [List.nil_append] at hk ⊢
    have : s.take (s.length - s.length) = [] := by simp
    rw [this, hk]; rfl
  | some u =>
    obtain ⟨hne, hd⟩ := ht u rfl
    simp only at hk ⊢
    rw [hk0 _ _ (by simp)]
    simp only [Option.none_or, List.cons_append, m_lit_cons, if_true, m_grp]
    refine m_digits u s c _ r hd hne ?_ ?_
    · intro x hx
      rw [hs] at hx
      simp only [Option.some.injEq] at hx
      subst hx; decide
    · have e1 : (u ++ s).take ((u ++ s).length - s.length) = u := take_len u s
      have e2 : (',' :: (u ++ s)).take ((',' :: (u ++ s)).length - s.length) = ',' :: u := take_len (',' :: u) s
      rw [e1, e2]; exact hk

/-- The header of a hunk as written by any program: line numbers and counts as digit texts. -/
def hunkHeaderText (a : Str) (na : Option Str) (b : Str) (nb : Option Str) (g : Bool) (f : Option Str) : Str :=
  str "@@ -" ++ (a ++ ((match na with | none => [] | some u => ',' :: u) ++ (str " +" ++ (b ++
    ((match nb with | none => [] | some u => ',' :: u) ++ (str " @@" ++ ((match f with | none => [] | some f => if g then ' ' :: f else f) ++ ['\n'])))))))

theorem count_rest_none {rs : List Re} {r : Re} {t : Str} {x : Char} (e : t = ' ' :: [x]) (s : Str) (c : Caps)
    (h : s.head? ≠ some ' ') : (cat (text t :: r :: rs)).m s c endK = none := by
  rw [m_cat_cons, m_text]
  cases s with
  | nil => simp [e]
  | cons y s =>
    simp only [List.head?_cons, ne_eq, Option.some.injEq] at h
    have : (' ' == y) = false := by simpa using fun e => h e.symm
    simp [e, List.isPrefixOf, this]

theorem count_rest_none3 {rs : List Re} {r : Re} (s : Str) (c : Caps)
    (h : s.head? ≠ some ' ') : (cat (text (str " @@") :: r :: rs)).m s c endK = none := by
  rw [m_cat_cons, m_text]
  cases s with
  | nil => simp [str]
  | cons y s =>
    simp only [List.head?_cons, ne_eq, Option.some.injEq] at h
    have : (' ' == y) = false := by simpa using fun e => h e.symm
    simp [str, List.isPrefixOf, this]

theorem unifiedHunkHeader_match (a b : Str) (na nb : Option Str) (g : Bool) (f : Option Str)
    (ha : a ≠ [] ∧ ∀ x ∈ a, IsDigit x) (hb : b ≠ [] ∧ ∀ x ∈ b, IsDigit x)
    (hna : ∀ u, na = some u → u ≠ [] ∧ ∀ x ∈ u, IsDigit x) (hnb : ∀ u, nb = some u → u ≠ [] ∧ ∀ x ∈ u, IsDigit x)
    (hf : ∀ u, f = some u → '\n' ∉ u ∧ (g = false → u.head? ≠ some ' ')) :
    ∃ c, reUnifiedHunkHeader.full (hunkHeaderText a na b nb g f) = some c ∧ c.get 1 = a ∧ c.get 3 = na.getD [] ∧ c.get 4 = b ∧
      c.get 6 = nb.getD [] ∧ c.get 7 = f.getD [] := by
  refine ⟨(7, f.getD []) :: (match nb with
      | none => (5, []) :: (4, b) :: (match na with | none => [(2, []), (1, a)] | some u => [(2, ',' :: u), (3, u), (1, a)])
      | some v => (5, ',' :: v) :: (6, v) :: (4, b) ::
        (match na with | none => [(2, []), (1, a)] | some u => [(2, ',' :: u), (3, u), (1, a)])), ?_, ?_⟩
  · simp only [Re.full, reUnifiedHunkHeader, hunkHeaderText]
    rw [m_cat_cons, m_text_append, m_cat_cons, m_grp]
    refine m_digits a _ _ _ _ ha.2 ha.1 ?_ ?_
    · intro x hx
      cases na with
      | none => simp [str] at hx; subst hx; decide
      | some u => simp at hx; subst hx; decide
    rw [take_len, m_cat_cons]
    refine m_count 2 na _ _ _ _ hna (by simp [str]) ?_ ?_
    · intro s' c' h; exact count_rest_none (x := '+') rfl s' c' h
    rw [m_cat_cons, m_text_append, m_cat_cons, m_grp]
    refine m_digits b _ _ _ _ hb.2 hb.1 ?_ ?_
    · intro x hx
      cases nb with
      | none => simp [str] at hx; subst hx; decide
      | some u => simp at hx; subst hx; decide
    rw [take_len, m_cat_cons]
    refine m_count 5 nb _ _ _ _ hnb (by simp [str]) ?_ ?_
    · intro s' c' h; exact count_rest_none3 s' c' h
    rw [m_cat_cons, m_text_append, m_cat_cons, m_opt]
    cases f with
    | none =>
      have hd := fun c => dotLit_newline 7 [] c (by simp)
      simp only [List.nil_append] at hd
      simp only [List.nil_append, m_lit_cons, m_cat_cons, m_cat_one, hd]
      cases na <;> cases nb <;> simp
    | some f =>
      have hd := fun c => dotLit_newline 7 f c (hf f rfl).1
      cases g with
      | true =>
        simp only [if_true, List.cons_append, m_lit_cons, m_cat_cons, m_cat_one, hd]
        cases na <;> cases nb <;> simp
      | false =>
        have hs := (hf f rfl).2 rfl
        simp only [Bool.false_eq_true, if_false, m_cat_cons, m_cat_one, hd]
        cases f with
        | nil =>
          simp only [List.nil_append, m_lit_cons]
          cases na <;> cases nb <;> simp
        | cons x f =>
          have hx : x ≠ ' ' := fun e => hs (by rw [e]; rfl)
          simp only [List.cons_append, m_lit_cons, if_neg hx]
          cases na <;> cases nb <;> simp
  · cases na <;> cases nb <;> cases f <;> simp [Caps.get, List.lookup]

end KompareDiff2
