import Verif.Model.Parser
/-
Facts about the backtracking matcher.
-/
namespace KompareDiff2
open Re

variable {α : Type}

@[simp] theorem m_eps (s : Str) (c : Caps) (k : Str → Caps → Option α) : Re.eps.m s c k = k s c := rfl
@[simp] theorem m_seq (a b : Re) (s : Str) (c : Caps) (k : Str → Caps → Option α) :
    (Re.seq a b).m s c k = a.m s c (fun s' c' => b.m s' c' k) := rfl
theorem m_alt (a b : Re) (s : Str) (c : Caps) (k : Str → Caps → Option α) :
    (Re.alt a b).m s c k = (a.m s c k).or (b.m s c k) := by
  simp only [Re.m]
  cases a.m s c k <;> rfl
@[simp] theorem m_grp (n : Nat) (r : Re) (s : Str) (c : Caps) (k : Str → Caps → Option α) :
    (Re.grp n r).m s c k = r.m s c (fun s' c' => k s' ((n, s.take (s.length - s'.length)) :: c')) := rfl
@[simp] theorem m_chr_nil (p : Char → Bool) (c : Caps) (k : Str → Caps → Option α) : (Re.chr p).m [] c k = none := rfl
@[simp] theorem m_chr_cons (p : Char → Bool) (x : Char) (s : Str) (c : Caps) (k : Str → Caps → Option α) :
    (Re.chr p).m (x :: s) c k = if p x then k s c else none := rfl
@[simp] theorem m_lit_nil (y : Char) (c : Caps) (k : Str → Caps → Option α) : (lit y).m [] c k = none := rfl
@[simp] theorem m_lit_cons (y x : Char) (s : Str) (c : Caps) (k : Str → Caps → Option α) :
    (lit y).m (x :: s) c k = if x = y then k s c else none := by simp [lit]
@[simp] theorem m_opt (r : Re) (s : Str) (c : Caps) (k : Str → Caps → Option α) :
    (opt r).m s c k = (r.m s c k).or (k s c) := m_alt _ _ _ _ _
@[simp] theorem m_cat_nil (s : Str) (c : Caps) (k : Str → Caps → Option α) : (cat []).m s c k = k s c := rfl
@[simp] theorem m_cat_one (r : Re) (s : Str) (c : Caps) (k : Str → Caps → Option α) : (cat [r]).m s c k = r.m s c k := rfl
@[simp] theorem m_cat_cons (r r' : Re) (rs : List Re) (s : Str) (c : Caps) (k : Str → Caps → Option α) :
    (cat (r :: r' :: rs)).m s c k = r.m s c (fun s' c' => (cat (r' :: rs)).m s' c' k) := rfl
@[simp] theorem m_many1 (r : Re) (s : Str) (c : Caps) (k : Str → Caps → Option α) :
    (many1 r).m s c k = r.m s c (fun s' c' => (many r).m s' c' k) := rfl

theorem m_text (t s : Str) (c : Caps) (k : Str → Caps → Option α) :
    (text t).m s c k = if t.isPrefixOf s then k (s.drop t.length) c else none := by
  induction t generalizing s with
  | nil => simp [text]
  | cons x t ih =>
    cases s with
    | nil => simp [text]
    | cons y s =>
      by_cases h : y = x
      · subst h; simp [text, ih]
      · have h' : (x == y) = false := by simpa using fun e => h e.symm
        simp [text, h, List.isPrefixOf, h']

@[simp] theorem m_text_append (t s : Str) (c : Caps) (k : Str → Caps → Option α) : (text t).m (t ++ s) c k = k s c := by
  rw [m_text]
  have : t.isPrefixOf (t ++ s) = true := by simp
  simp [this]

/-- Greedy iteration over single characters: the longest run first, then shorter ones. -/
def greedy (p : Char → Bool) (k : Str → Option α) : Str → Option α
  | [] => k []
  | x :: s => if p x then (greedy p k s).or (k (x :: s)) else k (x :: s)

theorem starM_chr (p : Char → Bool) (n : Nat) (s : Str) (c : Caps) (k : Str → Caps → Option α) (h : s.length < n) :
    starM (fun s c k => (Re.chr p).m s c k) true n s c k = greedy p (fun s => k s c) s := by
  induction n generalizing s with
  | zero => omega
  | succ n ih =>
    cases s with
    | nil => simp [starM, greedy]
    | cons x s =>
      simp only [List.length_cons] at h
      simp only [starM, greedy, m_chr_cons, if_true, List.length_cons]
      by_cases hp : p x
      · simp only [hp, if_true]
        rw [if_pos (by omega), ih s (by omega)]
        cases greedy p (fun s => k s c) s <;> rfl
      · simp [hp]

theorem m_many_chr (p : Char → Bool) (s : Str) (c : Caps) (k : Str → Caps → Option α) :
    (many (.chr p)).m s c k = greedy p (fun s => k s c) s :=
  starM_chr p _ s c k (by omega)

/-- The longest run comes first. -/
theorem greedy_run {p : Char → Bool} {k : Str → Option α} {t s : Str} {r : α} (ht : ∀ x ∈ t, p x = true)
    (hs : ∀ x, s.head? = some x → p x = false) (hk : k s = some r) : greedy p k (t ++ s) = some r := by
  induction t with
  | nil =>
    cases s with
    | nil => simpa [greedy] using hk
    | cons x s =>
      have := hs x rfl
      simp [greedy, this, hk]
  | cons x t ih =>
    have hx := ht x (by simp)
    simp [greedy, hx, ih (fun y hy => ht y (by simp [hy]))]

/-- Where the continuation fails on the whole remaining run, the iteration backs off to the last position before it. -/
theorem greedy_backoff {p : Char → Bool} {k : Str → Option α} {t s : Str} {r : α} (ht : ∀ x ∈ t, p x = true)
    (hs : greedy p k s = some r) : greedy p k (t ++ s) = some r := by
  induction t with
  | nil => exact hs
  | cons x t ih =>
    have hx := ht x (by simp)
    simp [greedy, hx, ih (fun y hy => ht y (by simp [hy]))]

/-- The iteration succeeds only through some position. -/
theorem greedy_some {p : Char → Bool} {k : Str → Option α} {s : Str} {r : α} (h : greedy p k s = some r) :
    ∃ t u, s = t ++ u ∧ (∀ x ∈ t, p x = true) ∧ k u = some r := by
  induction s with
  | nil => exact ⟨[], [], rfl, by simp, h⟩
  | cons x s ih =>
    simp only [greedy] at h
    split at h
    · rename_i hp
      cases hg : greedy p k s with
      | none => rw [hg] at h; exact ⟨[], x :: s, rfl, by simp, by simpa using h⟩
      | some r' =>
        rw [hg] at h
        simp only [Option.some_or, Option.some.injEq] at h
        subst h
        obtain ⟨t, u, rfl, ht, hk⟩ := ih hg
        exact ⟨x :: t, u, rfl, by simpa [hp] using ht, hk⟩
    · exact ⟨[], x :: s, rfl, by simp, h⟩

theorem greedy_none {p : Char → Bool} {k : Str → Option α} {s : Str}
    (h : ∀ t u, s = t ++ u → (∀ x ∈ t, p x = true) → k u = none) : greedy p k s = none := by
  cases hg : greedy p k s with
  | none => rfl
  | some r =>
    obtain ⟨t, u, e, ht, hk⟩ := greedy_some hg
    rw [h t u e ht] at hk; cases hk

theorem take_len (t u : Str) : (t ++ u).take ((t ++ u).length - u.length) = t := by simp

theorem dot_ok {t : Str} (h : '\n' ∉ t) : ∀ x ∈ t, (fun x => decide (x ≠ '\n')) x = true := by
  intro x hx
  have : x ≠ '\n' := fun e => h (e ▸ hx)
  simp [this]

/-- `(.*)\n` at the end of a pattern accepts exactly a text without newline followed by a newline. -/
theorem m_dotTail (n : Nat) (t : Str) (c : Caps) (h : '\n' ∉ t) :
    (cat [.grp n (many dot), lit '\n']).m (t ++ ['\n']) c (fun s' c => if s' = [] then some c else none) =
      some ((n, t) :: c) := by
  simp only [m_cat_cons, m_cat_one, m_grp, dot, m_many_chr]
  apply greedy_run (dot_ok h)
  · intro x hx
    simp only [List.head?_cons, Option.some.injEq] at hx
    subst hx; decide
  · simp

theorem m_dotTail_some (n : Nat) (s : Str) (c c' : Caps)
    (h : (cat [.grp n (many dot), lit '\n']).m s c (fun s' c => if s' = [] then some c else none) = some c') :
    ∃ t, s = t ++ ['\n'] ∧ '\n' ∉ t ∧ c' = (n, t) :: c := by
  simp only [m_cat_cons, m_cat_one, m_grp, dot, m_many_chr] at h
  obtain ⟨t, u, rfl, ht, hk⟩ := greedy_some h
  cases u with
  | nil => simp at hk
  | cons x u =>
    simp only [m_lit_cons, take_len] at hk
    split at hk
    · rename_i hx
      split at hk
      · rename_i hu
        subst hx; subst hu
        refine ⟨t, rfl, ?_, by simpa using hk.symm⟩
        intro hm
        have := ht _ hm
        simp at this
      · cases hk
    · cases hk

/-- The body patterns `X (.*)\n`. -/
theorem reBody_full {p : Char → Bool} {l : Str} {c : Caps} :
    (reBody p).full l = some c ↔ ∃ x t, p x = true ∧ '\n' ∉ t ∧ l = x :: ' ' :: t ++ ['\n'] ∧ c = [(1, t)] := by
  constructor
  · intro h
    simp only [Re.full, reBody] at h
    rw [m_cat_cons] at h
    cases l with
    | nil => simp at h
    | cons x l =>
      rw [m_chr_cons] at h
      split at h
      · rename_i hp
        rw [m_cat_cons] at h
        cases l with
        | nil => simp at h
        | cons y l =>
          rw [m_lit_cons] at h
          split at h
          · rename_i hy
            obtain ⟨t, rfl, ht, rfl⟩ := m_dotTail_some _ _ _ _ h
            exact ⟨x, t, hp, ht, by simp [hy], rfl⟩
          · cases h
      · cases h
  · rintro ⟨x, t, hp, ht, rfl, rfl⟩
    simp only [Re.full, reBody, List.cons_append]
    rw [m_cat_cons, m_chr_cons, if_pos hp, m_cat_cons, m_lit_cons, if_pos rfl]
    exact m_dotTail 1 t [] ht

theorem full_text_seq_none {t : Str} {r : Re} {s : Str} (h : t.isPrefixOf s = false) : (Re.seq (text t) r).full s = none := by
  simp [Re.full, m_text, h]

theorem full_text_cat_none {t : Str} {r : Re} {rs : List Re} {s : Str} (h : t.isPrefixOf s = false) :
    (cat (text t :: r :: rs)).full s = none := by
  simp [Re.full, m_text, h]

theorem atStart_text (t s : Str) : (text t).atStart s = t.isPrefixOf s := by
  simp only [Re.atStart, m_text]
  cases t.isPrefixOf s <;> simp

end KompareDiff2
