import Verif.Model.Int32
import Verif.Spec.Int32
import Verif.Proofs.ReadingMatch
import Verif.Proofs.ContextHunk
import Verif.Proofs.NoHang
import Verif.Proofs.Structure
/-
The checked parsers of `Model/Int32.lean` agree with the parsers of `Model/Parser.lean` as long as the numbers fit.
-/
namespace KompareDiff2
open Spec Re

theorem Res.bind_congr {α β : Type} {x : Res α} {f g : α → Res β} (h : ∀ a, x = Res.ok a → f a = g a) : (x >>= f) = (x >>= g) := by
  cases x with
  | ok a => exact h a rfl
  | ub => rfl
  | hang => rfl

theorem int32_ok {x : Int} (h1 : -2147483648 ≤ x) (h2 : x ≤ maxInt) : int32 x = Res.ok x := by
  unfold int32; rw [if_pos]; exact ⟨h1, h2⟩

theorem int32_cases (x : Int) : int32 x = Res.ub ∨ int32 x = Res.ok x := by
  unfold int32; split
  · exact .inr rfl
  · exact .inl rfl

theorem bump32_ok {n : Nat} {x : Int} (h1 : -2147483648 ≤ x) (h2 : x + n ≤ maxInt) : bump32 n x = Res.ok (x + n) := by
  induction n generalizing x with
  | zero => simp [bump32]
  | succ n ih =>
    have e : int32 (x + 1) = Res.ok (x + 1) := int32_ok (by omega) (by omega)
    rw [bump32, e, Res.bind_ok, ih (by omega) (by omega)]
    refine congrArg Res.ok ?_
    omega

/-! ### Counters and line numbers of a unified hunk -/

theorem takeRun_count (p : Char) (da db : Int) (ls : List Str) (a b : Int) :
    (takeRun p da db ls a b).1.length + (takeRun p da db ls a b).2.1.length = ls.length ∧
    (takeRun p da db ls a b).2.2.1 = a - da * (takeRun p da db ls a b).1.length ∧
    (takeRun p da db ls a b).2.2.2 = b - db * (takeRun p da db ls a b).1.length := by
  induction ls generalizing a b with
  | nil => simp [takeRun]
  | cons l ls ih =>
    unfold takeRun
    split
    · obtain ⟨h1, h2, h3⟩ := ih (a - da) (b - db)
      refine ⟨by simp only [List.length_cons]; omega, ?_, ?_⟩
      · simp only [List.length_cons]; rw [h2, Int.natCast_succ, Int.mul_add]; omega
      · simp only [List.length_cons]; rw [h3, Int.natCast_succ, Int.mul_add]; omega
    · simp

theorem takeRun32_ok (p : Char) {da db : Int} (ha : da = 0 ∨ da = 1) (hb : db = 0 ∨ db = 1) {ls : List Str} {a b : Int}
    (a1 : -2147483648 ≤ a - ls.length) (a2 : a ≤ maxInt) (b1 : -2147483648 ≤ b - ls.length) (b2 : b ≤ maxInt) :
    takeRun32 p da db ls a b = Res.ok (takeRun p da db ls a b) := by
  induction ls generalizing a b with
  | nil => rfl
  | cons l ls ih =>
    simp only [List.length_cons] at a1 b1
    unfold takeRun32 takeRun
    split
    · rw [int32_ok (by rcases ha with rfl | rfl <;> omega) (by rcases ha with rfl | rfl <;> omega), Res.bind_ok,
        int32_ok (by rcases hb with rfl | rfl <;> omega) (by rcases hb with rfl | rfl <;> omega), Res.bind_ok,
        ih (by rcases ha with rfl | rfl <;> omega) (by rcases ha with rfl | rfl <;> omega)
          (by rcases hb with rfl | rfl <;> omega) (by rcases hb with rfl | rfl <;> omega), Res.bind_ok]
    · rfl

/-- The counters stay in range for the lines that are left. -/
structure CountOk (n : Nat) (c : Int) : Prop where
  low : -2147483648 ≤ c - n
  high : c ≤ maxInt

theorem takeRun_countOk {p : Char} {da db : Int} (ha : da = 0 ∨ da = 1) (hb : db = 0 ∨ db = 1) {ls : List Str} {a b : Int}
    (h1 : CountOk ls.length a) (h2 : CountOk ls.length b) :
    CountOk (takeRun p da db ls a b).2.1.length (takeRun p da db ls a b).2.2.1 ∧
    CountOk (takeRun p da db ls a b).2.1.length (takeRun p da db ls a b).2.2.2 := by
  obtain ⟨e1, e2, e3⟩ := takeRun_count p da db ls a b
  rw [e2, e3]
  have := h1.low; have := h1.high; have := h2.low; have := h2.high
  generalize (takeRun p da db ls a b).1.length = n at *
  generalize (takeRun p da db ls a b).2.1.length = m at *
  constructor
  · rcases ha with rfl | rfl <;> constructor <;> simp only [Int.zero_mul, Int.one_mul] <;> omega
  · rcases hb with rfl | rfl <;> constructor <;> simp only [Int.zero_mul, Int.one_mul] <;> omega

theorem unifiedStep32_ok {l : Str} {ls : List Str} {a b ca cb : Int} (h1 : CountOk (l :: ls).length ca) (h2 : CountOk (l :: ls).length cb) :
    unifiedStep32 l ls a b ca cb = unifiedStep l ls a b ca cb := by
  unfold unifiedStep32 unifiedStep
  split
  · unfold unifiedContext32
    rw [takeRun32_ok ' ' (.inr rfl) (.inr rfl) h1.low h1.high h2.low h2.high]; rfl
  · unfold unifiedChange32 unifiedChange
    rw [takeRun32_ok '-' (.inr rfl) (.inl rfl) h1.low h1.high h2.low h2.high, Res.bind_ok]
    obtain ⟨k1, k2⟩ := takeRun_countOk (p := '-') (da := 1) (db := 0) (.inr rfl) (.inl rfl) h1 h2
    rw [takeRun32_ok '+' (.inl rfl) (.inr rfl) k1.low k1.high k2.low k2.high, Res.bind_ok]

/-- The lines a step adds to the two sides come from the lines it consumes; the counters stay in range. -/
theorem unifiedStep_counts {l : Str} {ls : List Str} {a b ca cb : Int} {r} (h1 : CountOk (l :: ls).length ca) (h2 : CountOk (l :: ls).length cb)
    (h : unifiedStep l ls a b ca cb = Res.ok r) :
    r.1.1.slc + r.2.1.length ≤ (l :: ls).length ∧ r.1.1.dlc + r.2.1.length ≤ (l :: ls).length ∧
    CountOk r.2.1.length r.2.2.1 ∧ CountOk r.2.1.length r.2.2.2 := by
  unfold unifiedStep at h
  split at h
  · simp only [Res.ok.injEq] at h
    rw [← h]
    have k := takeRun_countOk (p := ' ') (da := 1) (db := 1) (.inr rfl) (.inr rfl) h1 h2
    have e := (takeRun_count ' ' 1 1 (l :: ls) ca cb).1
    have hv := both_view a b .Unchanged (takeRun ' ' 1 1 (l :: ls) ca cb).1
    have s1 := congrArg (fun v => v.src.length) hv
    have s2 := congrArg (fun v => v.dst.length) hv
    dsimp only at s1 s2
    rw [view_slc] at s1
    rw [view_dlc] at s2
    unfold unifiedContext
    have s1' : (List.foldl (fun d l => (d.addSource l).addDest l) (Diff.new a b) (takeRun ' ' 1 1 (l :: ls) ca cb).1).slc = _ := s1
    have s2' : (List.foldl (fun d l => (d.addSource l).addDest l) (Diff.new a b) (takeRun ' ' 1 1 (l :: ls) ca cb).1).dlc = _ := s2
    refine ⟨?_, ?_, k.1, k.2⟩
    · dsimp only; omega
    · dsimp only; omega
  · unfold unifiedChange at h
    simp only [Res.bind_eq_ok, Res.ok.injEq] at h
    obtain ⟨d', hd, h⟩ := h
    rw [← h]
    obtain ⟨k1, k2⟩ := takeRun_countOk (p := '-') (da := 1) (db := 0) (.inr rfl) (.inl rfl) h1 h2
    have k := takeRun_countOk (p := '+') (da := 0) (db := 1) (.inl rfl) (.inr rfl) k1 k2
    have e1 := (takeRun_count '-' 1 0 (l :: ls) ca cb).1
    generalize hr1 : takeRun '-' 1 0 (l :: ls) ca cb = r1 at *
    have e2 := (takeRun_count '+' 0 1 r1.2.1 r1.2.2.1 r1.2.2.2).1
    generalize hr2 : takeRun '+' 0 1 r1.2.1 r1.2.2.1 r1.2.2.2 = r2 at *
    have hv := (determineInline_view hd).trans (retype_view _ _)
    have hb : Diff.view (List.foldl Diff.addDest (List.foldl Diff.addSource (Diff.new a b) r1.1) r2.1) = _ := built_view a b .Unchanged r1.1 r2.1
    rw [hb] at hv
    have s1 := congrArg (fun v => v.src.length) hv
    have s2 := congrArg (fun v => v.dst.length) hv
    dsimp only at s1 s2
    rw [view_slc] at s1
    rw [view_dlc] at s2
    refine ⟨?_, ?_, k.1, k.2⟩
    · dsimp only; omega
    · dsimp only; omega

theorem unifiedBodyLoop32_ok {n : Nat} {ls : List Str} {a b ca cb : Int} (a1 : 0 ≤ a) (a2 : a + ls.length ≤ maxInt) (b1 : 0 ≤ b)
    (b2 : b + ls.length ≤ maxInt) (h1 : CountOk ls.length ca) (h2 : CountOk ls.length cb) :
    unifiedBodyLoop32 n ls a b ca cb = unifiedBodyLoop n ls a b ca cb := by
  induction n generalizing ls a b ca cb with
  | zero => rfl
  | succ n ih =>
    cases ls with
    | nil => rfl
    | cons l ls =>
      simp only [unifiedBodyLoop32, unifiedBodyLoop]
      refine Res.bind_congr (fun mt _ => ?_)
      split
      · rw [unifiedStep32_ok h1 h2]
        refine Res.bind_congr (fun r hr => ?_)
        obtain ⟨k1, k2, k3, k4⟩ := unifiedStep_counts h1 h2 hr
        rw [bump32_ok (by omega) (by omega), Res.bind_ok, bump32_ok (by omega) (by omega), Res.bind_ok,
          ih (by omega) (by omega) (by omega) (by omega) k3 k4]
      · rfl

/-! ### Numbers of a header -/

theorem toIntOk_range (s : Str) : 0 ≤ (toIntOk s).1 ∧ (toIntOk s).1 ≤ decimal s ∧ (toIntOk s).1 ≤ maxInt := by
  unfold toIntOk
  show 0 ≤ (if s = [] then ((0 : Int), false) else if decimal s ≤ 2147483647 then ((decimal s : Int), true) else (0, false)).1 ∧
    (if s = [] then ((0 : Int), false) else if decimal s ≤ 2147483647 then ((decimal s : Int), true) else (0, false)).1 ≤ decimal s ∧
    (if s = [] then ((0 : Int), false) else if decimal s ≤ 2147483647 then ((decimal s : Int), true) else (0, false)).1 ≤ maxInt
  unfold maxInt
  split
  · simp
  · split
    · refine ⟨by simp, by simp, ?_⟩; dsimp only; omega
    · simp

/-- The numbers of a line are small enough for `K` further increments. -/
def NumOk (K : Nat) (l : Str) : Prop := ∀ s, LineNumber l s → (decimal s : Int) + K ≤ maxInt

theorem NumOk.toInt {K : Nat} {l s : Str} (h : NumOk K l) (hs : LineNumber l s) : 0 ≤ toInt s ∧ toInt s + K ≤ maxInt := by
  have := toIntOk_range s
  have := h s hs
  unfold KompareDiff2.toInt
  omega

theorem unifiedHeader_small {l : Str} {c : Caps} {K : Nat} (h : reUnifiedHunkHeader.full l = some c) (hn : NumOk K l) :
    0 ≤ toInt (c.get 1) ∧ toInt (c.get 1) + K ≤ maxInt ∧ 0 ≤ toInt (c.get 4) ∧ toInt (c.get 4) + K ≤ maxInt := by
  have hl : reUnifiedHunkHeader.Lang l := Classical.not_not.1 (fun e => by rw [(Re.full_none _ _).2 e] at h; cases h)
  obtain ⟨n, m, a, b, na, nb, f, rfl, ha, hb, hf, hna, hnb⟩ := (hunkHeader_lang l).1 hl
  have h1 : ∀ (s : Str) (n : Nat), (s = [] ∧ n = 1 ∨ ∃ d, s = ',' :: d ∧ Digits d ∧ n = decimal d) → (s = [] ∨ ∃ d, s = ',' :: d ∧ Digits d) := by
    rintro s n (h | ⟨d, h1, h2, _⟩)
    · exact .inl h.1
    · exact .inr ⟨d, h1, h2⟩
  obtain ⟨c', hc, e1, _, e4, _⟩ := hunkHeader_values a b na nb f ha hb (h1 _ _ hna) (h1 _ _ hnb) hf
  have : c' = c := by
    refine Option.some.inj (hc.symm.trans (Eq.trans ?_ h))
    simp only [List.append_assoc]
  subst this
  rw [e1, e4]
  have k1 := hn.toInt (s := a) ⟨ha, .inl ⟨na ++ (str " +" ++ (b ++ (nb ++ (str " @@" ++ (f ++ ['\n']))))), by simp only [List.append_assoc]⟩⟩
  have k2 := hn.toInt (s := b) ⟨hb, .inr (.inl ⟨a ++ na, ⟨nb ++ (str " @@" ++ (f ++ ['\n'])), by simp only [List.append_assoc]⟩, by
    intro x hx
    rcases List.mem_append.1 hx with hx | hx
    · exact .inl (ha.2 x hx)
    · rcases h1 _ _ hna with rfl | ⟨d, rfl, hd⟩
      · cases hx
      · rcases List.mem_cons.1 hx with rfl | hx
        · exact .inr rfl
        · exact .inl (hd.2 x hx)⟩)⟩
  exact ⟨k1.1, k1.2, k2.1, k2.2⟩

theorem contextOld_small {l : Str} {c : Caps} {K : Nat} (h : reContextHunkHeader2.full l = some c) (hn : NumOk K l) :
    0 ≤ toInt (c.get 1) ∧ toInt (c.get 1) + K ≤ maxInt := by
  have hl : reContextHunkHeader2.Lang l := Classical.not_not.1 (fun e => by rw [(Re.full_none _ _).2 e] at h; cases h)
  obtain ⟨a, b, t, rfl, ha, hb, ht⟩ := (oldRange_lang l).1 hl
  have e : str "*** " ++ a ++ ',' :: b ++ str " ****" ++ t ++ ['\n'] = str "*** " ++ (a ++ (',' :: (b ++ (str " ****" ++ (t ++ ['\n']))))) := by simp
  have hc : reContextHunkHeader2.full (str "*** " ++ a ++ ',' :: b ++ str " ****" ++ t ++ ['\n']) = some [(2, b), (1, a)] := by
    rw [e]
    unfold reContextHunkHeader2 Re.full
    rw [m_cat_cons, m_text_append, m_cat_cons, m_grp]
    refine m_digits a _ _ _ _ ha.2 ha.1 ?_ ?_
    · intro x hx; simp only [List.head?_cons, Option.some.injEq] at hx; subst hx; decide
    rw [take_len, m_cat_cons, m_lit_cons, if_pos rfl, m_cat_cons, m_grp]
    refine m_digits b _ _ _ _ hb.2 hb.1 ?_ ?_
    · intro x hx; simp [str] at hx; subst hx; decide
    rw [take_len, m_cat_cons, m_text_append, m_cat_cons, dot, m_many_chr]
    simp only [m_cat_one]
    refine greedy_run (fun y hy => by
      have : y ≠ '\n' := fun e => ht (e ▸ hy)
      simpa using this) ?_ ?_
    · intro y hy; simp only [List.head?_cons, Option.some.injEq] at hy; subst hy; decide
    · simp [m_lit_cons, endK]
  rw [hc] at h
  cases h
  exact hn.toInt (s := a) ⟨ha, .inr (.inr (.inl ⟨b ++ (str " ****" ++ (t ++ ['\n'])), by simp⟩))⟩

theorem contextNew_small {l : Str} {c : Caps} {K : Nat} (h : reContextHunkHeader3.full l = some c) (hn : NumOk K l) :
    0 ≤ toInt (c.get 1) ∧ toInt (c.get 1) + K ≤ maxInt := by
  have hl : reContextHunkHeader3.Lang l := Classical.not_not.1 (fun e => by rw [(Re.full_none _ _).2 e] at h; cases h)
  obtain ⟨a, b, rfl, ha, hb⟩ := (newRange_lang l).1 hl
  obtain ⟨c', hc, e⟩ := newRange_match a b ha hb
  have : c' = c := by
    refine Option.some.inj (hc.symm.trans (Eq.trans ?_ h))
    simp only [List.append_assoc]
  subst this
  rw [e]
  exact hn.toInt (s := a) ⟨ha, .inr (.inr (.inr ⟨b ++ str " ----\n", by simp⟩))⟩

theorem unifiedHeaderValues32_ok {c : Caps} {K : Nat} (hK : 1 ≤ K) (h1 : 0 ≤ toInt (c.get 1)) (h2 : toInt (c.get 1) + K ≤ maxInt)
    (h3 : 0 ≤ toInt (c.get 4)) (h4 : toInt (c.get 4) + K ≤ maxInt) : unifiedHeaderValues32 c = Res.ok (unifiedHeaderValues c) := by
  have e : ∀ (g t : Str) (n : Int), 0 ≤ toInt t → toInt t + K ≤ maxInt →
      emptyRange32 g n (toInt t) = Res.ok (if g ≠ [] ∧ n = 0 then toInt t + 1 else toInt t) := by
    intro g t n h1 h2
    unfold emptyRange32
    split
    · exact int32_ok (by omega) (by omega)
    · rfl
  unfold unifiedHeaderValues32 unifiedHeaderValues
  simp only [e _ _ _ h1 h2, e _ _ _ h3 h4, Res.bind_ok]
  generalize (if c.get 3 = [] then ((1 : Int), true) else toIntOk (c.get 3)) = na
  generalize (if c.get 6 = [] then ((1 : Int), true) else toIntOk (c.get 6)) = nb
  by_cases h5 : na.2 = false
  · rw [if_pos h5, if_pos h5]
  · rw [if_neg h5, if_neg h5]
    by_cases h6 : nb.2 = false
    · rw [if_pos h6, if_pos h6]
    · rw [if_neg h6, if_neg h6]

theorem unifiedHeaderValues_range {c : Caps} {u : UHeader} (e : unifiedHeaderValues c = some u) :
    toInt (c.get 1) ≤ u.a ∧ u.a ≤ toInt (c.get 1) + 1 ∧ toInt (c.get 4) ≤ u.b ∧ u.b ≤ toInt (c.get 4) + 1 ∧
    0 ≤ u.countA ∧ u.countA ≤ maxInt ∧ 0 ≤ u.countB ∧ u.countB ≤ maxInt := by
  have hM : maxInt = 2147483647 := rfl
  have pair : ∀ t : Str, 0 ≤ (if t = [] then ((1 : Int), true) else toIntOk t).1 ∧
      (if t = [] then ((1 : Int), true) else toIntOk t).1 ≤ maxInt := by
    intro t
    have := toIntOk_range t
    split
    · dsimp only; omega
    · omega
  have r3 := pair (c.get 3)
  have r6 := pair (c.get 6)
  unfold unifiedHeaderValues at e
  simp only at e
  generalize (if c.get 3 = [] then ((1 : Int), true) else toIntOk (c.get 3)) = na at *
  generalize (if c.get 6 = [] then ((1 : Int), true) else toIntOk (c.get 6)) = nb at *
  by_cases h5 : na.2 = false
  · rw [if_pos h5] at e; cases e
  · rw [if_neg h5] at e
    by_cases h6 : nb.2 = false
    · rw [if_pos h6] at e; cases e
    · rw [if_neg h6] at e
      cases e
      dsimp only
      refine ⟨?_, ?_, ?_, ?_, by omega, by omega, by omega, by omega⟩ <;> split <;> omega

/-- The numbers of all lines left are small enough for an increment by every line of the diff. -/
def RestOk (K : Nat) (st : PState) : Prop := st.rest.length ≤ K ∧ ∀ l ∈ st.rest, NumOk K l

theorem RestOk.suffix {K : Nat} {st st' : PState} (h : RestOk K st) (e : st'.rest <:+ st.rest) : RestOk K st' :=
  ⟨Nat.le_trans e.length_le h.1, fun l hl => h.2 l (e.subset hl)⟩

theorem parseUnifiedHunk32_ok {K : Nat} {st : PState} (h : RestOk K st) : parseUnifiedHunk32 st = parseUnifiedHunk st := by
  unfold parseUnifiedHunk32 parseUnifiedHunk
  cases hr : st.rest with
  | nil => rfl
  | cons l ls =>
    simp only
    have hK : ls.length + 1 ≤ K := by have := h.1; rw [hr] at this; simpa using this
    cases hc : reUnifiedHunkHeader.full l with
    | none => rfl
    | some c =>
      simp only
      obtain ⟨k1, k2, k3, k4⟩ := unifiedHeader_small hc (h.2 l (by rw [hr]; exact List.mem_cons_self))
      rw [unifiedHeaderValues32_ok (by omega) k1 k2 k3 k4, Res.bind_ok]
      cases hu : unifiedHeaderValues c with
      | none => rfl
      | some u =>
        simp only
        obtain ⟨q1, q2, q3, q4, q5, q6, q7, q8⟩ := unifiedHeaderValues_range hu
        have hM : maxInt = 2147483647 := rfl
        rw [unifiedBodyLoop32_ok (by omega) (by omega) (by omega) (by omega) ⟨by omega, q6⟩ ⟨by omega, q8⟩]

/-! ### Context hunks -/

theorem captureRun_count (r : Re) (ls : List Str) : (captureRun r ls).1.length + (captureRun r ls).2.length = ls.length := by
  induction ls with
  | nil => rfl
  | cons l ls ih =>
    unfold captureRun
    split
    · simp only [List.length_cons]; omega
    · simp

theorem contextUnchanged_count (n : Nat) (os ns : List Str) :
    (contextUnchanged n os ns).1.length + (contextUnchanged n os ns).2.1.length + (contextUnchanged n os ns).2.2.length ≤ os.length + ns.length := by
  induction n generalizing os ns with
  | zero => simp [contextUnchanged]
  | succ n ih =>
    unfold contextUnchanged
    split
    · rename_i hc
      have := ih (os.drop 1) (ns.drop 1)
      simp only [List.length_drop] at this
      simp only [List.length_cons]
      rcases hc.2.2 with h | h <;> have := List.length_pos_iff.2 h <;> omega
    · simp

theorem contextStep_counts {os ns : List Str} {a b : Int} {r} (h : contextStep os ns a b = Res.ok (some r)) :
    r.1.1.slc + r.2.1.length + r.2.2.length ≤ os.length + ns.length ∧ r.1.1.dlc + r.2.1.length + r.2.2.length ≤ os.length + ns.length := by
  unfold contextStep at h
  split at h
  · simp only [Res.bind_eq_ok, Res.ok.injEq, Option.some.injEq] at h
    obtain ⟨d, hd, h⟩ := h
    rw [← h]
    have hv := determineInline_view hd
    have hb := built_view a b .Delete (captureRun reContextRemoved os).1 []
    rw [List.foldl_nil] at hb
    rw [hb] at hv
    have s1 := congrArg (fun v => v.src.length) hv
    have s2 := congrArg (fun v => v.dst.length) hv
    dsimp only at s1 s2 ⊢
    rw [view_slc] at s1
    rw [view_dlc] at s2
    have := captureRun_count reContextRemoved os
    simp only [List.length_nil] at s2
    omega
  · split at h
    · simp only [Res.bind_eq_ok, Res.ok.injEq, Option.some.injEq] at h
      obtain ⟨d, hd, h⟩ := h
      rw [← h]
      have hv := determineInline_view hd
      have hb := built_view a b .Insert [] (captureRun reContextAdded ns).1
      rw [List.foldl_nil] at hb
      rw [hb] at hv
      have s1 := congrArg (fun v => v.src.length) hv
      have s2 := congrArg (fun v => v.dst.length) hv
      dsimp only at s1 s2 ⊢
      rw [view_slc] at s1
      rw [view_dlc] at s2
      have := captureRun_count reContextAdded ns
      simp only [List.length_nil] at s1
      omega
    · split at h
      · simp only [Res.bind_eq_ok, Res.ok.injEq, Option.some.injEq] at h
        obtain ⟨d, hd, h⟩ := h
        rw [← h]
        have hv := determineInline_view hd
        have hb := both_view a b .Unchanged (contextUnchanged (os.length + ns.length) os ns).1
        rw [hb] at hv
        have s1 := congrArg (fun v => v.src.length) hv
        have s2 := congrArg (fun v => v.dst.length) hv
        dsimp only at s1 s2 ⊢
        rw [view_slc] at s1
        rw [view_dlc] at s2
        have := contextUnchanged_count (os.length + ns.length) os ns
        omega
      · split at h
        · simp only [Res.bind_eq_ok, Res.ok.injEq, Option.some.injEq] at h
          obtain ⟨d, hd, h⟩ := h
          rw [← h]
          have hv := determineInline_view hd
          have hb := built_view a b .Change (captureRun reContextChanged os).1 (captureRun reContextChanged ns).1
          rw [hb] at hv
          have s1 := congrArg (fun v => v.src.length) hv
          have s2 := congrArg (fun v => v.dst.length) hv
          dsimp only at s1 s2 ⊢
          rw [view_slc] at s1
          rw [view_dlc] at s2
          have := captureRun_count reContextChanged os
          have := captureRun_count reContextChanged ns
          omega
        · simp at h

theorem contextBodyLoop32_ok {n : Nat} {os ns : List Str} {a b : Int} (a1 : 0 ≤ a) (a2 : a + os.length + ns.length ≤ maxInt) (b1 : 0 ≤ b)
    (b2 : b + os.length + ns.length ≤ maxInt) : contextBodyLoop32 n os ns a b = contextBodyLoop n os ns a b := by
  induction n generalizing os ns a b with
  | zero => rfl
  | succ n ih =>
    simp only [contextBodyLoop32, contextBodyLoop]
    split
    · rfl
    · refine Res.bind_congr (fun s hs => ?_)
      cases s with
      | none => rfl
      | some r =>
        simp only
        obtain ⟨k1, k2⟩ := contextStep_counts hs
        rw [bump32_ok (by omega) (by omega), Res.bind_ok, bump32_ok (by omega) (by omega), Res.bind_ok,
          ih (by omega) (by omega) (by omega) (by omega)]

theorem contextHunkHeader_small {K : Nat} {ls ls' : List Str} {c1 c2 : Caps} (h : contextHunkHeader ls = (some (c1, c2), ls'))
    (hn : ∀ l ∈ ls, NumOk K l) : 0 ≤ toInt (c2.get 1) ∧ toInt (c2.get 1) + K ≤ maxInt := by
  unfold contextHunkHeader at h
  cases ls with
  | nil => cases h
  | cons l ls1 =>
    simp only at h
    cases h1 : reContextHunkHeader1.full l with
    | none => rw [h1] at h; cases h
    | some c =>
      rw [h1] at h
      simp only at h
      cases ls1 with
      | nil => cases h
      | cons l2 ls2 =>
        simp only at h
        cases h2 : reContextHunkHeader2.full l2 with
        | none => rw [h2] at h; cases h
        | some d =>
          rw [h2] at h
          cases h
          exact contextOld_small h2 (hn l2 (by simp))

theorem contextHunkHeader_suffix (ls : List Str) : (contextHunkHeader ls).2 <:+ ls := by
  unfold contextHunkHeader
  split
  · exact List.suffix_rfl
  · split
    · exact List.suffix_rfl
    · split
      · exact List.nil_suffix
      · split
        · exact List.suffix_cons _ _
        · exact (List.suffix_cons _ _).trans (List.suffix_cons _ _)

theorem contextLines_suffix (ls : List Str) : (contextLines ls).2 <:+ ls := by
  induction ls with
  | nil => exact List.suffix_rfl
  | cons l ls ih =>
    unfold contextLines
    split
    · exact ih.trans (List.suffix_cons _ _)
    · exact List.suffix_rfl

theorem parseContextHunk32_ok {K : Nat} {st : PState} (h : RestOk K st) : parseContextHunk32 st = parseContextHunk st := by
  unfold parseContextHunk32 parseContextHunk
  have hs := contextHunkHeader_suffix st.rest
  cases hh : contextHunkHeader st.rest with
  | mk o ls =>
    rw [hh] at hs
    cases o with
    | none => rfl
    | some cc =>
      obtain ⟨c1, c2⟩ := cc
      simp only
      obtain ⟨k1, k2⟩ := contextHunkHeader_small hh h.2
      have s1 := contextLines_suffix ls
      have n1 := contextLines_length ls
      cases hr : (contextLines ls).2 with
      | nil => rfl
      | cons l ls2 =>
        simp only
        cases h3 : reContextHunkHeader3.full l with
        | none => rfl
        | some c3 =>
          simp only
          have hm : l ∈ st.rest := hs.subset (s1.subset (by rw [hr]; exact List.mem_cons_self))
          obtain ⟨q1, q2⟩ := contextNew_small h3 (h.2 l hm)
          have n2 := contextLines_length ls2
          have n3 := hs.length_le
          have n4 := h.1
          rw [hr] at n1
          simp only [List.length_cons] at n1 n3
          rw [contextBodyLoop32_ok (by omega) (by omega) (by omega) (by omega)]

/-! ### The loops -/

theorem takeRun_suffix_len (p : Char) (da db : Int) (ls : List Str) (a b : Int) : (takeRun p da db ls a b).2.1 <:+ ls := by
  induction ls generalizing a b with
  | nil => exact List.suffix_rfl
  | cons l ls ih =>
    unfold takeRun
    split
    · exact (ih _ _).trans (List.suffix_cons _ _)
    · exact List.suffix_rfl

theorem unifiedStep_suffix_len {l : Str} {ls : List Str} {a b ca cb : Int} {r} (h : unifiedStep l ls a b ca cb = Res.ok r) : r.2.1 <:+ l :: ls := by
  unfold unifiedStep at h
  split at h
  · simp only [Res.ok.injEq] at h; rw [← h]; exact takeRun_suffix_len _ _ _ _ _ _
  · unfold unifiedChange at h
    simp only [Res.bind_eq_ok, Res.ok.injEq] at h
    obtain ⟨d', hd, h⟩ := h
    rw [← h]; exact (takeRun_suffix_len _ _ _ _ _ _).trans (takeRun_suffix_len _ _ _ _ _ _)

theorem unifiedBody_suffix_len {n : Nat} {ls : List Str} {a b ca cb : Int} {r} (h : unifiedBodyLoop n ls a b ca cb = Res.ok r) : r.2 <:+ ls := by
  induction n generalizing ls a b ca cb r with
  | zero => simp [unifiedBodyLoop] at h
  | succ n ih =>
    cases ls with
    | nil => simp only [unifiedBodyLoop, Res.ok.injEq] at h; rw [← h]; exact List.suffix_rfl
    | cons l ls =>
      simp only [unifiedBodyLoop] at h
      obtain ⟨mt, hm, h⟩ := Res.bind_eq_ok.1 h
      split at h
      · obtain ⟨s, hs, h⟩ := Res.bind_eq_ok.1 h
        obtain ⟨q, hq, h⟩ := Res.bind_eq_ok.1 h
        simp only [Res.ok.injEq] at h
        rw [← h]
        exact (ih hq).trans (unifiedStep_suffix_len hs)
      · simp only [Res.ok.injEq] at h; rw [← h]; exact List.suffix_rfl

theorem parseUnifiedHunk_suffix {st st' : PState} (h : parseUnifiedHunk st = Res.ok (some st')) : st'.rest <:+ st.rest := by
  unfold parseUnifiedHunk at h
  cases hr : st.rest with
  | nil => rw [hr] at h; simp at h
  | cons l ls =>
    rw [hr] at h
    simp only at h
    cases hc : reUnifiedHunkHeader.full l with
    | none => rw [hc] at h; simp at h
    | some c =>
      rw [hc] at h
      simp only at h
      cases hu : unifiedHeaderValues c with
      | none =>
        rw [hu] at h
        simp only [Res.ok.injEq, Option.some.injEq] at h
        rw [← h]; exact List.suffix_cons _ _
      | some u =>
        rw [hu] at h
        simp only at h
        obtain ⟨q, hq, h⟩ := Res.bind_eq_ok.1 h
        simp only [Res.ok.injEq, Option.some.injEq] at h
        rw [← h]; exact (unifiedBody_suffix_len hq).trans (List.suffix_cons _ _)

theorem parseContextHunk_suffix {st : PState} {r} (h : parseContextHunk st = Res.ok r) :
    (∀ s, r.1 = some s → s.rest <:+ st.rest) ∧ r.2.rest <:+ st.rest := by
  unfold parseContextHunk at h
  have hs := contextHunkHeader_suffix st.rest
  cases hh : contextHunkHeader st.rest with
  | mk o ls =>
    rw [hh] at h hs
    cases o with
    | none =>
      simp only [Res.ok.injEq] at h
      rw [← h]; exact ⟨fun s e => (by cases e), hs⟩
    | some cc =>
      obtain ⟨c1, c2⟩ := cc
      simp only at h
      have s1 := contextLines_suffix ls
      cases hr : (contextLines ls).2 with
      | nil => rw [hr] at h; simp at h
      | cons l ls2 =>
        rw [hr] at h s1
        simp only at h
        cases h3 : reContextHunkHeader3.full l with
        | none =>
          rw [h3] at h
          simp only [Res.ok.injEq] at h
          rw [← h]
          refine ⟨fun s e => ?_, List.suffix_rfl⟩
          cases e; exact s1.trans hs
        | some c3 =>
          rw [h3] at h
          simp only at h
          obtain ⟨q, hq, h⟩ := Res.bind_eq_ok.1 h
          simp only [Res.ok.injEq] at h
          rw [← h]
          refine ⟨fun s e => ?_, List.suffix_rfl⟩
          cases e
          exact (contextLines_suffix ls2).trans ((List.suffix_cons _ _).trans (s1.trans hs))

theorem twoLineHeader_suffix {h1 h2 : Re} {mk : Caps → Caps → DModel} {st : PState} {ls : List Str} {r}
    (h : twoLineHeader h1 h2 mk st ls = Res.ok r) : r.1.rest <:+ ls := by
  induction ls with
  | nil => simp only [twoLineHeader, Res.ok.injEq] at h; rw [← h]; exact List.suffix_rfl
  | cons l ls ih =>
    unfold twoLineHeader at h
    cases hc : h1.full l with
    | none => rw [hc] at h; exact (ih h).trans (List.suffix_cons _ _)
    | some c =>
      rw [hc] at h
      simp only at h
      cases ls with
      | nil => cases h
      | cons l2 ls2 =>
        simp only at h
        cases hd : h2.full l2 with
        | none => rw [hd] at h; simp only [Res.ok.injEq] at h; rw [← h]; exact List.suffix_cons _ _
        | some d =>
          rw [hd] at h
          simp only [Res.ok.injEq] at h
          rw [← h]; exact (List.suffix_cons _ _).trans (List.suffix_cons _ _)

theorem p4Header_suffix (st : PState) (ls : List Str) : (p4Header st ls).1.rest <:+ ls := by
  induction ls with
  | nil => exact List.suffix_rfl
  | cons l ls ih =>
    unfold p4Header
    split
    · exact List.suffix_cons _ _
    · exact ih.trans (List.suffix_cons _ _)

theorem unifiedDiffHeader_suffix {win : Bool} {g : Generator} {st : PState} {r} (h : parseUnifiedDiffHeader win g st = Res.ok r) :
    r.1.rest <:+ st.rest := by
  unfold parseUnifiedDiffHeader at h
  split at h
  · simp only [Res.ok.injEq] at h; rw [← h]; exact p4Header_suffix _ _
  · exact twoLineHeader_suffix h

theorem contextDiffHeader_suffix {win : Bool} {g : Generator} {st : PState} {r} (h : parseContextDiffHeader win g st = Res.ok r) :
    r.1.rest <:+ st.rest := by
  unfold parseContextDiffHeader at h
  split at h
  · simp only [Res.ok.injEq] at h; rw [← h]; exact p4Header_suffix _ _
  · exact twoLineHeader_suffix h

theorem hunkLoop_congr {I : PState → Prop} {f g : PState → Res (Option PState)} (he : ∀ st, I st → f st = g st)
    (hi : ∀ st st', I st → g st = Res.ok (some st') → I st') (n : Nat) (st : PState) (h : I st) : hunkLoop f n st = hunkLoop g n st := by
  induction n generalizing st with
  | zero => rfl
  | succ n ih =>
    simp only [hunkLoop]
    rw [he st h]
    refine Res.bind_congr (fun r hr => ?_)
    cases r with
    | none => rfl
    | some st' => exact ih st' (hi _ _ h hr)

theorem contextHunkLoop32_ok {K : Nat} (n : Nat) (st : PState) (h : RestOk K st) : contextHunkLoop32 n st = contextHunkLoop n st := by
  induction n generalizing st with
  | zero => rfl
  | succ n ih =>
    simp only [contextHunkLoop32, contextHunkLoop]
    rw [parseContextHunk32_ok h]
    refine Res.bind_congr (fun r hr => ?_)
    obtain ⟨o, s2⟩ := r
    cases o with
    | none => rfl
    | some s => exact ih s (h.suffix ((parseContextHunk_suffix hr).1 s rfl))

theorem fileLoop_congr {I : PState → Prop} {header : PState → Res (PState × Bool)} {f g : PState → Res PState} {check : Re}
    (hh : ∀ st r, I st → header st = Res.ok r → I r.1) (he : ∀ st, I st → f st = g st) (hg : ∀ st st', I st → g st = Res.ok st' → I st')
    (hc : ∀ st, I st → I (checkHeader check st.keepModel)) (n : Nat) (st : PState) (h : I st) :
    fileLoop header f check n st = fileLoop header g check n st := by
  induction n generalizing st with
  | zero => rfl
  | succ n ih =>
    simp only [fileLoop]
    refine Res.bind_congr (fun r hr => ?_)
    have h1 := hh st r h hr
    split
    · rfl
    · rw [he _ h1]
      refine Res.bind_congr (fun s hs => ?_)
      exact ih _ (hc _ (hg _ _ h1 hs))

theorem RestOk.check {K : Nat} {st : PState} (h : RestOk K st) (check : Re) : RestOk K (checkHeader check st.keepModel) := by
  refine h.suffix ?_
  rw [checkHeader_rest, keepModel_rest]; exact List.suffix_rfl

theorem unifiedFiles32_ok {K : Nat} {win : Bool} {g : Generator} {st : PState} (h : RestOk K st) :
    unifiedFiles32 win g st = unifiedFiles win g st := by
  unfold unifiedFiles32 unifiedFiles
  refine fileLoop_congr (I := RestOk K) (fun st r h hr => h.suffix (unifiedDiffHeader_suffix hr)) ?_ ?_ (fun st h => h.check _) _ st h
  · intro st h
    exact hunkLoop_congr (I := RestOk K) (fun st h => parseUnifiedHunk32_ok h) (fun st st' h e => h.suffix (parseUnifiedHunk_suffix e)) _ st h
  · intro st st' h e
    exact hunkLoop_inv (I := RestOk K) (fun s s' h e => h.suffix (parseUnifiedHunk_suffix e)) _ st st' h e

theorem contextFiles32_ok {K : Nat} {win : Bool} {g : Generator} {st : PState} (h : RestOk K st) :
    contextFiles32 win g st = contextFiles win g st := by
  unfold contextFiles32 contextFiles
  refine fileLoop_congr (I := RestOk K) (fun st r h hr => h.suffix (contextDiffHeader_suffix hr)) ?_ ?_ (fun st h => h.check _) _ st h
  · intro st h
    exact contextHunkLoop32_ok _ st h
  · intro st st' h e
    exact contextHunkLoop_inv (I := RestOk K) (fun s s' s2 h e => h.suffix ((parseContextHunk_suffix e).1 _ rfl))
      (fun s s2 h e => h.suffix (parseContextHunk_suffix e).2) _ st st' h e

theorem parseLines32_ok {win : Bool} {cmp : Str → Str → Int} {g : Generator} {heap : Heap} {lines : List Str} {K : Nat}
    (hK : lines.length ≤ K) (h : ∀ l ∈ lines, NumOk K l) : parseLines32 win cmp g heap lines = parseLines win cmp g heap lines := by
  unfold parseLines32 parseLines
  simp only [contextFiles32_ok (K := K) (st := { lines := lines, rest := lines, heap := heap, cur := {}, models := [], single := false, malformed := false }) ⟨hK, h⟩,
    unifiedFiles32_ok (K := K) (st := { lines := lines, rest := lines, heap := heap, cur := {}, models := [], single := false, malformed := false }) ⟨hK, h⟩]
  cases determineFormat g lines <;> rfl

/-! ### Cleaning -/

theorem truncate_prefix (l : Str) : truncateAtNewline l <+: l := by
  unfold truncateAtNewline
  split
  · exact List.takeWhile_prefix _
  · exact List.nil_prefix

theorem NumOk.prefix {K : Nat} {l l' : Str} (h : NumOk K l) (e : l' <+: l) : NumOk K l' := by
  rintro s ⟨hd, hs⟩
  refine h s ⟨hd, ?_⟩
  rcases hs with q | ⟨x, q, hx⟩ | q | q
  · exact .inl (q.trans e)
  · exact .inr (.inl ⟨x, q.trans e, hx⟩)
  · exact .inr (.inr (.inl (q.trans e)))
  · exact .inr (.inr (.inr (q.trans e)))

theorem cleanUpLoop_num {K : Nat} {before ls out : List Str} (hb : ∀ l ∈ before, NumOk K l) (hl : ∀ l ∈ ls, NumOk K l)
    (h : cleanUpLoop before ls = Res.ok out) : (∀ l ∈ out, NumOk K l) ∧ out.length ≤ before.length + ls.length := by
  induction ls generalizing before with
  | nil => simp only [cleanUpLoop, Res.ok.injEq] at h; rw [← h]; exact ⟨hb, by simp⟩
  | cons l ls ih =>
    unfold cleanUpLoop at h
    have hl' : ∀ l ∈ ls, NumOk K l := fun x hx => hl x (List.mem_cons_of_mem _ hx)
    split at h
    · cases hp : before.getLast? with
      | none => rw [hp] at h; cases h
      | some p =>
        rw [hp] at h
        have hpm : p ∈ before := List.mem_of_getLast? hp
        obtain ⟨k1, k2⟩ := ih (before := before.dropLast ++ [truncateAtNewline p]) (by
          intro x hx
          rcases List.mem_append.1 hx with hx | hx
          · exact hb x (List.dropLast_subset _ hx)
          · rw [List.mem_singleton.1 hx]; exact (hb p hpm).prefix (truncate_prefix p)) hl' h
        refine ⟨k1, ?_⟩
        have := List.length_pos_of_mem hpm
        simp only [List.length_append, List.length_dropLast, List.length_cons, List.length_nil] at k2 ⊢
        omega
    · obtain ⟨k1, k2⟩ := ih (before := before ++ [l]) (by
        intro x hx
        rcases List.mem_append.1 hx with hx | hx
        · exact hb x hx
        · rw [List.mem_singleton.1 hx]; exact hl l List.mem_cons_self) hl' h
      refine ⟨k1, ?_⟩
      simp only [List.length_append, List.length_cons, List.length_nil] at k2 ⊢
      omega

theorem parse32_ok {win : Bool} {cmp : Str → Str → Int} {heap : Heap} {lines : List Str} (h : FitsInt lines) :
    parse32 win cmp heap lines = parse win cmp heap lines := by
  unfold parse32 parse
  refine Res.bind_congr (fun out ho => ?_)
  obtain ⟨k1, k2⟩ := cleanUpLoop_num (K := lines.length) (by intro l hl; cases hl) (fun l hl => h l hl) ho
  exact parseLines32_ok (by simpa using k2) k1

/-! ### In general: the same result or undefined -/

/-- Undefined, or the same as `y`. -/
def Below {α : Type} (x y : Res α) : Prop := x = Res.ub ∨ x = y

theorem Below.rfl {α : Type} {x : Res α} : Below x x := .inr (Eq.refl x)

theorem Below.bind {α β : Type} {x y : Res α} {f g : α → Res β} (h : Below x y) (hf : ∀ a, Below (f a) (g a)) :
    Below (x >>= f) (y >>= g) := by
  rcases h with e | e
  · rw [e]; exact .inl (Eq.refl _)
  · rw [e]
    cases y with
    | ok a => exact hf a
    | ub => exact .inl (Eq.refl _)
    | hang => exact .inr (Eq.refl _)

theorem int32_below (x : Int) : Below (int32 x) (Res.ok x) := int32_cases x

theorem bump32_below (n : Nat) (x : Int) : Below (bump32 n x) (Res.ok (x + n)) := by
  induction n generalizing x with
  | zero => right; simp [bump32]
  | succ n ih =>
    unfold bump32
    have : Below (int32 (x + 1) >>= fun x => bump32 n x) (Res.ok (x + 1) >>= fun x => Res.ok (x + n)) :=
      (int32_below _).bind (fun a => ih a)
    rw [Res.bind_ok] at this
    have e : x + 1 + (n : Int) = x + ((n + 1 : Nat) : Int) := by omega
    rw [e] at this
    exact this

theorem takeRun32_below (p : Char) (da db : Int) (ls : List Str) (a b : Int) :
    Below (takeRun32 p da db ls a b) (Res.ok (takeRun p da db ls a b)) := by
  induction ls generalizing a b with
  | nil => exact Below.rfl
  | cons l ls ih =>
    unfold takeRun32 takeRun
    split
    · show Below _ (Res.ok (a - da) >>= fun a => Res.ok (b - db) >>= fun b => Res.ok (takeRun p da db ls a b) >>= fun r => Res.ok (l.drop 1 :: r.1, r.2))
      exact (int32_below _).bind (fun a => (int32_below _).bind (fun b => (ih a b).bind (fun r => Below.rfl)))
    · exact Below.rfl

theorem unifiedStep32_below (l : Str) (ls : List Str) (a b ca cb : Int) : Below (unifiedStep32 l ls a b ca cb) (unifiedStep l ls a b ca cb) := by
  unfold unifiedStep32 unifiedStep
  split
  · show Below _ (Res.ok (takeRun ' ' 1 1 (l :: ls) ca cb) >>= fun r => Res.ok (((r.1.foldl (fun d l => (d.addSource l).addDest l) (Diff.new a b)), false), r.2))
    exact (takeRun32_below _ _ _ _ _ _).bind (fun r => Below.rfl)
  · unfold unifiedChange32 unifiedChange
    rcases takeRun32_below '-' 1 0 (l :: ls) ca cb with e | e
    · rw [e]; exact .inl (Eq.refl _)
    · rw [e, Res.bind_ok]
      rcases takeRun32_below '+' 0 1 (takeRun '-' 1 0 (l :: ls) ca cb).2.1 (takeRun '-' 1 0 (l :: ls) ca cb).2.2.1
        (takeRun '-' 1 0 (l :: ls) ca cb).2.2.2 with e | e
      · rw [e]; exact .inl (Eq.refl _)
      · rw [e, Res.bind_ok]; exact Below.rfl

theorem unifiedBodyLoop32_below (n : Nat) (ls : List Str) (a b ca cb : Int) :
    Below (unifiedBodyLoop32 n ls a b ca cb) (unifiedBodyLoop n ls a b ca cb) := by
  induction n generalizing ls a b ca cb with
  | zero => exact Below.rfl
  | succ n ih =>
    cases ls with
    | nil => exact Below.rfl
    | cons l ls =>
      simp only [unifiedBodyLoop32, unifiedBodyLoop]
      refine Below.rfl.bind (fun mt => ?_)
      split
      · refine (unifiedStep32_below _ _ _ _ _ _).bind (fun r => ?_)
        rcases bump32_below r.1.1.slc a with e | e
        · rw [e]; exact .inl (Eq.refl _)
        · rw [e, Res.bind_ok]
          rcases bump32_below r.1.1.dlc b with e | e
          · rw [e]; exact .inl (Eq.refl _)
          · rw [e, Res.bind_ok]; exact (ih _ _ _ _ _).bind (fun _ => Below.rfl)
      · exact Below.rfl

theorem emptyRange32_below (g : Str) (n x : Int) : Below (emptyRange32 g n x) (Res.ok (if g ≠ [] ∧ n = 0 then x + 1 else x)) := by
  unfold emptyRange32
  split
  · exact int32_below _
  · exact Below.rfl

theorem unifiedHeaderValues32_below (c : Caps) : Below (unifiedHeaderValues32 c) (Res.ok (unifiedHeaderValues c)) := by
  unfold unifiedHeaderValues32 unifiedHeaderValues
  simp only
  generalize (if c.get 3 = [] then ((1 : Int), true) else toIntOk (c.get 3)) = na
  generalize (if c.get 6 = [] then ((1 : Int), true) else toIntOk (c.get 6)) = nb
  by_cases h5 : na.2 = false
  · rw [if_pos h5, if_pos h5]; exact Below.rfl
  · rw [if_neg h5, if_neg h5]
    rcases emptyRange32_below (c.get 3) na.1 (toInt (c.get 1)) with e | e
    · rw [e]; exact .inl (Eq.refl _)
    · rw [e, Res.bind_ok]
      by_cases h6 : nb.2 = false
      · rw [if_pos h6, if_pos h6]; exact Below.rfl
      · rw [if_neg h6, if_neg h6]
        rcases emptyRange32_below (c.get 6) nb.1 (toInt (c.get 4)) with e | e
        · rw [e]; exact .inl (Eq.refl _)
        · rw [e, Res.bind_ok]; exact Below.rfl

theorem parseUnifiedHunk32_below (st : PState) : Below (parseUnifiedHunk32 st) (parseUnifiedHunk st) := by
  unfold parseUnifiedHunk32 parseUnifiedHunk
  cases st.rest with
  | nil => exact Below.rfl
  | cons l ls =>
    simp only
    cases reUnifiedHunkHeader.full l with
    | none => exact Below.rfl
    | some c =>
      simp only
      have h := unifiedHeaderValues32_below c
      rcases h with h | h
      · rw [h]; exact .inl (Eq.refl _)
      · rw [h, Res.bind_ok]
        cases unifiedHeaderValues c with
        | none => exact Below.rfl
        | some u => exact (unifiedBodyLoop32_below _ _ _ _ _ _).bind (fun _ => Below.rfl)

theorem contextBodyLoop32_below (n : Nat) (os ns : List Str) (a b : Int) :
    Below (contextBodyLoop32 n os ns a b) (contextBodyLoop n os ns a b) := by
  induction n generalizing os ns a b with
  | zero => exact Below.rfl
  | succ n ih =>
    simp only [contextBodyLoop32, contextBodyLoop]
    split
    · exact Below.rfl
    · refine Below.rfl.bind (fun s => ?_)
      cases s with
      | none => exact Below.rfl
      | some r =>
        simp only
        rcases bump32_below r.1.1.slc a with e | e
        · rw [e]; exact .inl (Eq.refl _)
        · rw [e, Res.bind_ok]
          rcases bump32_below r.1.1.dlc b with e | e
          · rw [e]; exact .inl (Eq.refl _)
          · rw [e, Res.bind_ok]; exact (ih _ _ _ _).bind (fun _ => Below.rfl)

theorem parseContextHunk32_below (st : PState) : Below (parseContextHunk32 st) (parseContextHunk st) := by
  unfold parseContextHunk32 parseContextHunk
  cases contextHunkHeader st.rest with
  | mk o ls =>
    cases o with
    | none => exact Below.rfl
    | some cc =>
      obtain ⟨c1, c2⟩ := cc
      simp only
      cases (contextLines ls).2 with
      | nil => exact Below.rfl
      | cons l ls2 =>
        simp only
        cases reContextHunkHeader3.full l with
        | none => exact Below.rfl
        | some c3 => exact (contextBodyLoop32_below _ _ _ _ _).bind (fun _ => Below.rfl)

theorem hunkLoop_below {f g : PState → Res (Option PState)} (h : ∀ st, Below (f st) (g st)) (n : Nat) (st : PState) :
    Below (hunkLoop f n st) (hunkLoop g n st) := by
  induction n generalizing st with
  | zero => exact Below.rfl
  | succ n ih =>
    simp only [hunkLoop]
    refine (h st).bind (fun r => ?_)
    cases r with
    | none => exact Below.rfl
    | some st => exact ih st

theorem contextHunkLoop32_below (n : Nat) (st : PState) : Below (contextHunkLoop32 n st) (contextHunkLoop n st) := by
  induction n generalizing st with
  | zero => exact Below.rfl
  | succ n ih =>
    simp only [contextHunkLoop32, contextHunkLoop]
    refine (parseContextHunk32_below st).bind (fun r => ?_)
    obtain ⟨o, s2⟩ := r
    cases o with
    | none => exact Below.rfl
    | some st => exact ih st

theorem fileLoop_below {header : PState → Res (PState × Bool)} {f g : PState → Res PState} {check : Re} (h : ∀ st, Below (f st) (g st))
    (n : Nat) (st : PState) : Below (fileLoop header f check n st) (fileLoop header g check n st) := by
  induction n generalizing st with
  | zero => exact Below.rfl
  | succ n ih =>
    simp only [fileLoop]
    refine Below.rfl.bind (fun r => ?_)
    split
    · exact Below.rfl
    · exact (h _).bind (fun s => ih _)

theorem parse32_below (win : Bool) (cmp : Str → Str → Int) (heap : Heap) (lines : List Str) :
    Below (parse32 win cmp heap lines) (parse win cmp heap lines) := by
  unfold parse32 parse
  refine Below.rfl.bind (fun out => ?_)
  unfold parseLines32 parseLines
  simp only
  generalize determineFormat (determineGenerator lines) out = fmt
  cases fmt with
  | Context => exact (fileLoop_below (fun st => contextHunkLoop32_below _ st) _ _).bind (fun _ => Below.rfl)
  | Unified => exact (fileLoop_below (fun st => hunkLoop_below parseUnifiedHunk32_below _ st) _ _).bind (fun _ => Below.rfl)
  | _ => exact Below.rfl

/-! ### What a defined run tells -/

theorem int32_eq {x y : Int} (h : int32 x = Res.ok y) : y = x ∧ x ≤ maxInt := by
  unfold int32 at h
  split at h
  · rename_i k; cases h; exact ⟨rfl, k.2⟩
  · cases h

theorem bump32_eq {n : Nat} {x y : Int} (h : bump32 n x = Res.ok y) : y = x + n ∧ (x ≤ maxInt → y ≤ maxInt) := by
  induction n generalizing x with
  | zero => simp only [bump32, Res.ok.injEq] at h; rw [← h]; exact ⟨by simp, id⟩
  | succ n ih =>
    unfold bump32 at h
    obtain ⟨z, hz, h⟩ := Res.bind_eq_ok.1 h
    obtain ⟨rfl, k⟩ := int32_eq hz
    obtain ⟨e, q⟩ := ih h
    exact ⟨by omega, fun _ => q k⟩

theorem unifiedBodyLoop32_fits {n : Nat} {ls : List Str} {a b ca cb : Int} {r} (h : unifiedBodyLoop32 n ls a b ca cb = Res.ok r)
    (ha : a ≤ maxInt) (hb : b ≤ maxInt) :
    a + ((r.1.map (fun e => e.1.view.src.length)).sum : Nat) ≤ maxInt ∧ b + ((r.1.map (fun e => e.1.view.dst.length)).sum : Nat) ≤ maxInt := by
  induction n generalizing ls a b ca cb r with
  | zero => cases h
  | succ n ih =>
    cases ls with
    | nil => simp only [unifiedBodyLoop32, Res.ok.injEq] at h; rw [← h]; simp [ha, hb]
    | cons l ls =>
      simp only [unifiedBodyLoop32] at h
      obtain ⟨mt, hm, h⟩ := Res.bind_eq_ok.1 h
      split at h
      · obtain ⟨s, hs, h⟩ := Res.bind_eq_ok.1 h
        obtain ⟨a', ha', h⟩ := Res.bind_eq_ok.1 h
        obtain ⟨b', hb', h⟩ := Res.bind_eq_ok.1 h
        obtain ⟨q, hq, h⟩ := Res.bind_eq_ok.1 h
        simp only [Res.ok.injEq] at h
        rw [← h]
        obtain ⟨e1, k1⟩ := bump32_eq ha'
        obtain ⟨e2, k2⟩ := bump32_eq hb'
        obtain ⟨q1, q2⟩ := ih hq (k1 ha) (k2 hb)
        simp only [List.map_cons, List.sum_cons, view_slc, view_dlc] at q1 q2 ⊢
        omega
      · simp only [Res.ok.injEq] at h; rw [← h]; simp [ha, hb]

theorem contextBodyLoop32_fits {n : Nat} {os ns : List Str} {a b : Int} {r} (h : contextBodyLoop32 n os ns a b = Res.ok r)
    (ha : a ≤ maxInt) (hb : b ≤ maxInt) :
    a + ((r.1.map (fun e => e.1.view.src.length)).sum : Nat) ≤ maxInt ∧ b + ((r.1.map (fun e => e.1.view.dst.length)).sum : Nat) ≤ maxInt := by
  induction n generalizing os ns a b r with
  | zero => cases h
  | succ n ih =>
    simp only [contextBodyLoop32] at h
    split at h
    · simp only [Res.ok.injEq] at h; rw [← h]; simp [ha, hb]
    · obtain ⟨s, hs, h⟩ := Res.bind_eq_ok.1 h
      cases s with
      | none => simp only [Res.ok.injEq] at h; rw [← h]; simp [ha, hb]
      | some s =>
        simp only at h
        obtain ⟨a', ha', h⟩ := Res.bind_eq_ok.1 h
        obtain ⟨b', hb', h⟩ := Res.bind_eq_ok.1 h
        obtain ⟨q, hq, h⟩ := Res.bind_eq_ok.1 h
        simp only [Res.ok.injEq] at h
        rw [← h]
        obtain ⟨e1, k1⟩ := bump32_eq ha'
        obtain ⟨e2, k2⟩ := bump32_eq hb'
        obtain ⟨q1, q2⟩ := ih hq (k1 ha) (k2 hb)
        simp only [List.map_cons, List.sum_cons, view_slc, view_dlc] at q1 q2 ⊢
        omega

theorem unifiedHeaderValues32_fits {c : Caps} {u : UHeader} (h : unifiedHeaderValues32 c = Res.ok (some u)) : u.a ≤ maxInt ∧ u.b ≤ maxInt := by
  have side : ∀ (g t : Str) (n x : Int), emptyRange32 g n (toInt t) = Res.ok x → x ≤ maxInt := by
    intro g t n x e
    unfold emptyRange32 at e
    split at e
    · obtain ⟨rfl, k⟩ := int32_eq e; exact k
    · cases e; exact (toIntOk_range t).2.2
  unfold unifiedHeaderValues32 at h
  simp only at h
  generalize (if c.get 3 = [] then ((1 : Int), true) else toIntOk (c.get 3)) = na at *
  split at h
  · cases h
  · obtain ⟨a, ha, h⟩ := Res.bind_eq_ok.1 h
    generalize (if c.get 6 = [] then ((1 : Int), true) else toIntOk (c.get 6)) = nb at *
    split at h
    · cases h
    · obtain ⟨b, hb, h⟩ := Res.bind_eq_ok.1 h
      cases h
      exact ⟨side _ _ _ _ ha, side _ _ _ _ hb⟩

theorem parseUnifiedHunk32_building {h0 : Heap} {st st' : PState} (b : Building HView.EndsFit h0 st)
    (h : parseUnifiedHunk32 st = Res.ok (some st')) : Building HView.EndsFit h0 st' := by
  unfold parseUnifiedHunk32 at h
  cases hr : st.rest with
  | nil => rw [hr] at h; simp at h
  | cons l ls =>
    rw [hr] at h
    simp only at h
    cases hc : reUnifiedHunkHeader.full l with
    | none => rw [hc] at h; simp at h
    | some c =>
      rw [hc] at h
      simp only at h
      obtain ⟨u, hu, h⟩ := Res.bind_eq_ok.1 h
      cases u with
      | none =>
        simp only [Res.ok.injEq, Option.some.injEq] at h
        rw [← h]; exact b.congr rfl rfl rfl
      | some u =>
        simp only at h
        obtain ⟨q, hq, h⟩ := Res.bind_eq_ok.1 h
        simp only [Res.ok.injEq, Option.some.injEq] at h
        rw [← h]
        obtain ⟨f1, f2⟩ := unifiedHeaderValues32_fits hu
        have hq' : unifiedBodyLoop (ls.length + 1) ls u.a u.b u.countA u.countB = Res.ok q := by
          rcases unifiedBodyLoop32_below (ls.length + 1) ls u.a u.b u.countA u.countB with e | e
          · rw [e] at hq; cases hq
          · rw [← e]; exact hq
        have k1 := (unifiedBody_sound hq').1
        obtain ⟨g1, g2⟩ := unifiedBodyLoop32_fits hq f1 f2
        refine b.addHunk _ _ _ q.1 k1 ⟨?_, ?_⟩ rfl rfl rfl
        · simp only [hunkView, List.map_map]; exact g1
        · simp only [hunkView, List.map_map]; exact g2

theorem parseContextHunk32_building {h0 : Heap} {st : PState} {r} (b : Building HView.EndsFit h0 st)
    (h : parseContextHunk32 st = Res.ok r) :
    (∀ st', r.1 = some st' → Building HView.EndsFit h0 st') ∧ Building HView.EndsFit h0 r.2 := by
  unfold parseContextHunk32 at h
  cases hh : contextHunkHeader st.rest with
  | mk o ls =>
    rw [hh] at h
    cases o with
    | none =>
      simp only [Res.ok.injEq] at h
      rw [← h]; exact ⟨by simp, b.congr rfl rfl rfl⟩
    | some cc =>
      obtain ⟨c1, c2⟩ := cc
      simp only at h
      cases hr : (contextLines ls).2 with
      | nil => rw [hr] at h; simp at h
      | cons l ls2 =>
        rw [hr] at h
        simp only at h
        cases h3 : reContextHunkHeader3.full l with
        | none =>
          rw [h3] at h
          simp only [Res.ok.injEq] at h
          rw [← h]
          refine ⟨fun st' e => ?_, b⟩
          cases e; exact b.congr rfl rfl rfl
        | some c3 =>
          rw [h3] at h
          simp only at h
          obtain ⟨q, hq, h⟩ := Res.bind_eq_ok.1 h
          simp only [Res.ok.injEq] at h
          rw [← h]
          refine ⟨fun st' e => ?_, b⟩
          cases e
          have hq' := hq
          rcases contextBodyLoop32_below ((contextLines ls).1.length + (contextLines ls2).1.length + 1) (contextLines ls).1 (contextLines ls2).1
              (toInt (c2.get 1)) (toInt (c3.get 1)) with e | e
          · rw [e] at hq; cases hq
          · rw [e] at hq'
            have k1 := (contextBody_sound hq').1
            obtain ⟨g1, g2⟩ := contextBodyLoop32_fits hq (toIntOk_range _).2.2 (toIntOk_range _).2.2
            refine b.addHunk _ _ _ q.1 k1 ⟨?_, ?_⟩ rfl rfl rfl
            · simp only [hunkView, List.map_map]; exact g1
            · simp only [hunkView, List.map_map]; exact g2

theorem contextHunkLoop32_building {h0 : Heap} (n : Nat) {st st' : PState} (b : Building HView.EndsFit h0 st)
    (h : contextHunkLoop32 n st = Res.ok st') : Building HView.EndsFit h0 st' := by
  induction n generalizing st with
  | zero => cases h
  | succ n ih =>
    simp only [contextHunkLoop32] at h
    obtain ⟨⟨o, s2⟩, hr, h⟩ := Res.bind_eq_ok.1 h
    have k := parseContextHunk32_building b hr
    cases o with
    | none => simp only [Res.ok.injEq] at h; rw [← h]; exact k.2
    | some s => exact ih (k.1 s rfl) h

theorem parseLines32_fits {win : Bool} {cmp : Str → Str → Int} {g : Generator} {heap : Heap} {lines : List Str} {r : ParseResult}
    (h : parseLines32 win cmp g heap lines = Res.ok r) (hf : determineFormat g lines ≠ .Normal) (ms : List DModel) (hm : r.models = some ms) :
    ParsedModels HView.EndsFit heap r.heap ms := by
  unfold parseLines32 at h
  have h0 : ∀ P, FoundAll P heap { lines := lines, rest := lines, heap := heap, cur := {}, models := [], single := false, malformed := false } :=
    fun P => ⟨Heap.Ext.refl _, by simp, by simp⟩
  simp only at h
  cases e : determineFormat g lines with
  | Normal => exact absurd e hf
  | Context =>
    rw [e] at h
    obtain ⟨st, hs, h⟩ := Res.bind_eq_ok.1 h
    simp only [Res.ok.injEq] at h
    rw [← h]
    refine FoundAll.result ?_ cmp ms (h ▸ hm)
    refine fileLoop_rule (I := FoundAll HView.EndsFit heap) (J := Building HView.EndsFit heap) (K := FoundAll HView.EndsFit heap) ?_ ?_ ?_ _ _ _ (h0 _) hs
    · intro s s' i e
      have := contextHeader_step e
      exact i.start this.heap this.models (this.blank rfl)
    · intro s s' i e
      have := contextHeader_step e
      exact i.congr this.heap this.models
    · intro s s' i e
      have := contextHunkLoop32_building _ i e
      have hc := checkHeader_same (contextHeader1 g) s'.keepModel
      exact this.keep hc.1 hc.2.1
  | Unified =>
    rw [e] at h
    obtain ⟨st, hs, h⟩ := Res.bind_eq_ok.1 h
    simp only [Res.ok.injEq] at h
    rw [← h]
    refine FoundAll.result ?_ cmp ms (h ▸ hm)
    refine fileLoop_rule (I := FoundAll HView.EndsFit heap) (J := Building HView.EndsFit heap) (K := FoundAll HView.EndsFit heap) ?_ ?_ ?_ _ _ _ (h0 _) hs
    · intro s s' i e
      have := unifiedHeader_step e
      exact i.start this.heap this.models (this.blank rfl)
    · intro s s' i e
      have := unifiedHeader_step e
      exact i.congr this.heap this.models
    · intro s s' i e
      have := hunkLoop_inv (I := Building HView.EndsFit heap) (fun _ _ b h => parseUnifiedHunk32_building b h) _ _ _ i e
      have hc := checkHeader_same (unifiedHeader1 g) s'.keepModel
      exact this.keep hc.1 hc.2.1
  | _ =>
    rw [e] at h
    simp only [Res.ok.injEq] at h
    rw [← h] at hm
    simp at hm

end KompareDiff2
