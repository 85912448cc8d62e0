import Verif.Model.Regex
/-
The backtracking matcher accepts exactly the language of the regular expression.
-/
namespace KompareDiff2

/-- The language of a regular expression. -/
def Re.Lang : Re → Str → Prop
  | .eps, s => s = []
  | .chr p, s => ∃ x, s = [x] ∧ p x = true
  | .seq a b, s => ∃ s1 s2, s = s1 ++ s2 ∧ a.Lang s1 ∧ b.Lang s2
  | .alt a b, s => a.Lang s ∨ b.Lang s
  | .star _ r, s => ∃ ss : List Str, s = ss.flatten ∧ ∀ x ∈ ss, r.Lang x
  | .grp _ r, s => r.Lang s

/-- The continuation does not look at the captures. -/
def Blind {α : Type} (k : Str → Caps → Option α) : Prop := ∀ s c c', (k s c).isSome = (k s c').isSome

theorem starM_succ {α : Type} (step : Str → Caps → (Str → Caps → Option α) → Option α) (g : Bool) (n : Nat) (s : Str) (c : Caps)
    (k : Str → Caps → Option α) :
    starM step g (n + 1) s c k =
      if g then (step s c (fun s' c' => if s'.length < s.length then starM step g n s' c' k else none)).or (k s c)
      else (k s c).or (step s c (fun s' c' => if s'.length < s.length then starM step g n s' c' k else none)) := by
  rw [starM]
  cases g with
  | true =>
    simp only [if_true]
    generalize (step s c _) = a
    cases a <;> rfl
  | false =>
    simp only [Bool.false_eq_true, if_false]
    generalize (step s c _) = a
    generalize k s c = b
    cases b <;> rfl

theorem starM_isSome {α : Type} {r : Re} {k : Str → Caps → Option α} (hk : Blind k) (g : Bool)
    (hr : ∀ s c (k : Str → Caps → Option α), Blind k →
      ((r.m s c k).isSome = true ↔ ∃ s1 s2, s = s1 ++ s2 ∧ r.Lang s1 ∧ (k s2 []).isSome = true)) (n : Nat) :
    ∀ s c, s.length < n → ((starM (fun s c k => r.m s c k) g n s c k).isSome = true ↔
      ∃ ss rest, s = List.flatten ss ++ rest ∧ (∀ x ∈ ss, r.Lang x) ∧ (k rest []).isSome = true) := by
  induction n with
  | zero => intro s c h; omega
  | succ n ih =>
    intro s c h
    have hblind : Blind (fun s' c' => if s'.length < s.length then starM (fun s c k => r.m s c k) g n s' c' k else none) := by
      intro s' c1 c2
      simp only
      split
      · rename_i hl
        rw [Bool.eq_iff_iff, ih s' c1 (by omega), ih s' c2 (by omega)]
      · rfl
    have hagain : (r.m s c (fun s' c' => if s'.length < s.length then starM (fun s c k => r.m s c k) g n s' c' k else none)).isSome = true ↔
        ∃ s1 s2, s = s1 ++ s2 ∧ s1 ≠ [] ∧ r.Lang s1 ∧ ∃ ss rest, s2 = List.flatten ss ++ rest ∧ (∀ x ∈ ss, r.Lang x) ∧ (k rest []).isSome = true := by
      rw [hr _ _ _ hblind]
      constructor
      · rintro ⟨s1, s2, e, h1, h2⟩
        split at h2
        · rename_i hl
          rw [ih s2 [] (by omega)] at h2
          refine ⟨s1, s2, e, ?_, h1, h2⟩
          rintro rfl
          simp [e] at hl
        · simp at h2
      · rintro ⟨s1, s2, e, hne, h1, h2⟩
        have hl : s2.length < s.length := by
          rw [e, List.length_append]
          have := List.length_pos_iff.2 hne
          omega
        refine ⟨s1, s2, e, h1, ?_⟩
        rw [if_pos hl, ih s2 [] (by omega)]
        exact h2
    have hspec : (∃ ss rest, s = List.flatten ss ++ rest ∧ (∀ x ∈ ss, r.Lang x) ∧ (k rest []).isSome = true) ↔
        ((k s []).isSome = true ∨ ∃ s1 s2, s = s1 ++ s2 ∧ s1 ≠ [] ∧ r.Lang s1 ∧ ∃ ss rest, s2 = List.flatten ss ++ rest ∧ (∀ x ∈ ss, r.Lang x) ∧ (k rest []).isSome = true) := by
      constructor
      · rintro ⟨ss, rest, e, h1, h2⟩
        induction ss with
        | nil => left; simpa [e] using h2
        | cons x ss ihs =>
          by_cases hx : x = []
          · exact ihs (by simpa [hx] using e) (fun y hy => h1 y (by simp [hy]))
          · right
            exact ⟨x, List.flatten ss ++ rest, by simpa using e, hx, h1 x (by simp), ss, rest, rfl, fun y hy => h1 y (by simp [hy]), h2⟩
      · rintro (h | ⟨s1, s2, e, _, h1, ss, rest, e2, h2, h3⟩)
        · exact ⟨[], s, by simp, by simp, h⟩
        · refine ⟨s1 :: ss, rest, by simp [e, e2], ?_, h3⟩
          intro x hx
          rcases List.mem_cons.1 hx with rfl | hx
          · exact h1
          · exact h2 x hx
    rw [hspec, ← hagain]
    rw [starM_succ, hk s [] c]
    cases g with
    | true => simp only [if_true, Option.isSome_or, Bool.or_eq_true, or_comm]
    | false => simp only [Bool.false_eq_true, if_false, Option.isSome_or, Bool.or_eq_true]

theorem Re.m_isSome {α : Type} (r : Re) : ∀ s c (k : Str → Caps → Option α), Blind k →
      ((r.m s c k).isSome = true ↔ ∃ s1 s2, s = s1 ++ s2 ∧ r.Lang s1 ∧ (k s2 []).isSome = true) := by
  induction r with
  | eps =>
    intro s c k hk
    simp only [Re.m, Re.Lang]
    rw [hk s c []]
    constructor
    · intro h; exact ⟨[], s, rfl, rfl, h⟩
    · rintro ⟨s1, s2, e, rfl, h⟩; simpa [e] using h
  | chr p =>
    intro s c k hk
    cases s with
    | nil =>
      simp only [Re.m, Re.Lang, Option.isSome_none, Bool.false_eq_true, false_iff]
      rintro ⟨s1, s2, e, ⟨x, rfl, _⟩, _⟩
      simp at e
    | cons x s' =>
      simp only [Re.m, Re.Lang]
      constructor
      · intro h
        split at h
        · rename_i hp
          exact ⟨[x], s', rfl, ⟨x, rfl, hp⟩, by rw [hk s' [] c]; exact h⟩
        · simp at h
      · rintro ⟨s1, s2, e, ⟨y, rfl, hy⟩, h⟩
        simp only [List.cons_append, List.nil_append, List.cons.injEq] at e
        obtain ⟨rfl, rfl⟩ := e
        rw [if_pos hy, hk _ c []]; exact h
  | seq a b iha ihb =>
    intro s c k hk
    simp only [Re.m, Re.Lang]
    have hb : Blind (fun s' c' => b.m s' c' k) := by
      intro s' c1 c2
      simp only
      rw [Bool.eq_iff_iff, ihb s' c1 k hk, ihb s' c2 k hk]
    rw [iha s c _ hb]
    constructor
    · rintro ⟨s1, s2, e, h1, h2⟩
      rw [ihb s2 [] k hk] at h2
      obtain ⟨s3, s4, e2, h3, h4⟩ := h2
      exact ⟨s1 ++ s3, s4, by simp [e, e2], ⟨s1, s3, rfl, h1, h3⟩, h4⟩
    · rintro ⟨s1, s2, e, ⟨s3, s4, rfl, h3, h4⟩, h2⟩
      refine ⟨s3, s4 ++ s2, by simp [e], h3, ?_⟩
      rw [ihb _ [] k hk]
      exact ⟨s4, s2, rfl, h4, h2⟩
  | alt a b iha ihb =>
    intro s c k hk
    simp only [Re.Lang]
    have : ((Re.alt a b).m s c k) = (a.m s c k).or (b.m s c k) := by
      rw [Re.m]
      cases a.m s c k <;> rfl
    rw [this, Option.isSome_or, Bool.or_eq_true, iha s c k hk, ihb s c k hk]
    constructor
    · rintro (⟨s1, s2, e, h, h2⟩ | ⟨s1, s2, e, h, h2⟩)
      · exact ⟨s1, s2, e, .inl h, h2⟩
      · exact ⟨s1, s2, e, .inr h, h2⟩
    · rintro ⟨s1, s2, e, h | h, h2⟩
      · exact .inl ⟨s1, s2, e, h, h2⟩
      · exact .inr ⟨s1, s2, e, h, h2⟩
  | star g r ih =>
    intro s c k hk
    simp only [Re.m, Re.Lang]
    rw [starM_isSome hk g (fun s c k hk => ih s c k hk) (s.length + 1) s c (by omega)]
    constructor
    · rintro ⟨ss, rest, e, h1, h2⟩; exact ⟨_, rest, e, ⟨ss, rfl, h1⟩, h2⟩
    · rintro ⟨s1, s2, e, ⟨ss, rfl, h1⟩, h2⟩; exact ⟨ss, s2, e, h1, h2⟩
  | grp n r ih =>
    intro s c k hk
    simp only [Re.m, Re.Lang]
    rw [ih]
    · constructor
      · rintro ⟨s1, s2, e, h1, h2⟩; exact ⟨s1, s2, e, h1, by rw [hk s2 [] _]; exact h2⟩
      · rintro ⟨s1, s2, e, h1, h2⟩; exact ⟨s1, s2, e, h1, by rw [hk s2 _ []]; exact h2⟩
    · intro s' c1 c2; exact hk _ _ _

theorem Re.full_isSome (r : Re) (s : Str) : (r.full s).isSome = true ↔ r.Lang s := by
  unfold Re.full
  rw [Re.m_isSome]
  · constructor
    · rintro ⟨s1, s2, e, h, h2⟩
      split at h2
      · rename_i h3; subst h3; simpa [e] using h
      · simp at h2
    · intro h; exact ⟨s, [], by simp, h, by simp⟩
  · intro s c c'
    simp only
    split <;> rfl

theorem Re.full_none (r : Re) (s : Str) : r.full s = none ↔ ¬ r.Lang s := by
  rw [← Re.full_isSome]
  cases r.full s <;> simp

theorem Re.atStart_iff (r : Re) (s : Str) : r.atStart s = true ↔ ∃ s1 s2, s = s1 ++ s2 ∧ r.Lang s1 := by
  unfold Re.atStart
  rw [Re.m_isSome]
  · simp
  · intro s c c'; rfl

namespace Re
theorem lang_lit (c : Char) (s : Str) : (lit c).Lang s ↔ s = [c] := by
  simp only [lit, Lang, decide_eq_true_eq]
  constructor
  · rintro ⟨x, rfl, rfl⟩; rfl
  · rintro rfl; exact ⟨c, rfl, rfl⟩

theorem lang_text (t s : Str) : (text t).Lang s ↔ s = t := by
  induction t generalizing s with
  | nil => simp [text, Lang]
  | cons c t ih =>
    simp only [text, Lang, lang_lit, ih]
    constructor
    · rintro ⟨_, _, rfl, rfl, rfl⟩; rfl
    · rintro rfl; exact ⟨[c], t, rfl, rfl, rfl⟩

theorem flatten_of_singletons {p : Char → Bool} (ss : List Str) (h : ∀ x ∈ ss, ∃ y, x = [y] ∧ p y = true) :
    ∀ c ∈ ss.flatten, p c = true := by
  intro c hc
  obtain ⟨x, hx, hc⟩ := List.mem_flatten.1 hc
  obtain ⟨y, rfl, hy⟩ := h x hx
  simp only [List.mem_singleton] at hc
  rw [hc]; exact hy

theorem lang_many_chr (p : Char → Bool) (s : Str) : (many (.chr p)).Lang s ↔ ∀ c ∈ s, p c = true := by
  simp only [many, Lang]
  constructor
  · rintro ⟨ss, rfl, h⟩; exact flatten_of_singletons ss h
  · intro h
    refine ⟨s.map (fun c => [c]), ?_, ?_⟩
    · induction s with
      | nil => rfl
      | cons c s ih => simp only [List.map_cons, List.flatten_cons, List.singleton_append, List.cons.injEq, true_and]; exact ih (fun d hd => h d (by simp [hd]))
    · intro x hx
      obtain ⟨c, hc, rfl⟩ := List.mem_map.1 hx
      exact ⟨c, rfl, h c hc⟩

theorem lang_many1_chr (p : Char → Bool) (s : Str) : (many1 (.chr p)).Lang s ↔ s ≠ [] ∧ ∀ c ∈ s, p c = true := by
  have : (many1 (.chr p)).Lang s ↔ ∃ s1 s2, s = s1 ++ s2 ∧ (∃ x, s1 = [x] ∧ p x = true) ∧ (many (.chr p)).Lang s2 := Iff.rfl
  rw [this]
  constructor
  · rintro ⟨s1, s2, rfl, ⟨x, rfl, hx⟩, h⟩
    rw [lang_many_chr] at h
    refine ⟨by simp, ?_⟩
    intro c hc
    rcases List.mem_append.1 hc with hc | hc
    · simp only [List.mem_singleton] at hc; rw [hc]; exact hx
    · exact h c hc
  · rintro ⟨hne, h⟩
    cases s with
    | nil => exact absurd rfl hne
    | cons x s =>
      refine ⟨[x], s, rfl, ⟨x, rfl, h x (by simp)⟩, ?_⟩
      rw [lang_many_chr]
      exact fun c hc => h c (by simp [hc])

theorem lang_opt (r : Re) (s : Str) : (opt r).Lang s ↔ r.Lang s ∨ s = [] := Iff.rfl
theorem lang_seq (a b : Re) (s : Str) : (Re.seq a b).Lang s ↔ ∃ s1 s2, s = s1 ++ s2 ∧ a.Lang s1 ∧ b.Lang s2 := Iff.rfl
theorem lang_grp (n : Nat) (r : Re) (s : Str) : (Re.grp n r).Lang s ↔ r.Lang s := Iff.rfl
theorem lang_alt (a b : Re) (s : Str) : (Re.alt a b).Lang s ↔ a.Lang s ∨ b.Lang s := Iff.rfl
theorem lang_chr (p : Char → Bool) (s : Str) : (Re.chr p).Lang s ↔ ∃ x, s = [x] ∧ p x = true := Iff.rfl
theorem lang_cat_one (r : Re) (s : Str) : (cat [r]).Lang s ↔ r.Lang s := Iff.rfl
theorem lang_cat_cons (r r' : Re) (rs : List Re) (s : Str) :
    (cat (r :: r' :: rs)).Lang s ↔ ∃ s1 s2, s = s1 ++ s2 ∧ r.Lang s1 ∧ (cat (r' :: rs)).Lang s2 := Iff.rfl
end Re

end KompareDiff2
