import Verif.Spec.Lines
/-
Facts about `split`, `cleanUpCrap` and `determineGenerator`.
-/
namespace KompareDiff2
open Spec

theorem splitAux_flatten (acc s : Str) : (splitAux acc s).flatten = acc ++ s := by
  induction s generalizing acc with
  | nil => by_cases h : acc = [] <;> simp [splitAux, h]
  | cons c s ih =>
    by_cases h : c = '\n'
    · simp [splitAux, h, ih]
    · simp [splitAux, h, ih]

theorem splitAux_lines (acc s : Str) (h : '\n' ∉ acc) : LineList (splitAux acc s) := by
  induction s generalizing acc with
  | nil =>
    by_cases ha : acc = []
    · simp [splitAux, ha]; exact .nil
    · simp [splitAux, ha]; exact .last _ ha h
  | cons c s ih =>
    by_cases hc : c = '\n'
    · subst hc
      simp only [splitAux, if_true]
      exact .cons _ _ h (ih [] (by simp))
    · simp only [splitAux, if_neg hc]
      exact ih _ (by simp [h, Ne.symm hc])

theorem splitAux_append (acc t s : Str) (h : '\n' ∉ t) :
    splitAux acc (t ++ '\n' :: s) = (acc ++ t ++ ['\n']) :: splitAux [] s := by
  induction t generalizing acc with
  | nil => simp [splitAux]
  | cons c t ih =>
    simp only [List.mem_cons, not_or] at h
    have hc : c ≠ '\n' := fun e => h.1 e.symm
    simp only [List.cons_append, splitAux, if_neg hc]
    rw [ih _ h.2]
    simp

theorem splitAux_noNewline (acc t : Str) (h : '\n' ∉ t) (hne : acc ++ t ≠ []) : splitAux acc t = [acc ++ t] := by
  induction t generalizing acc with
  | nil =>
    simp only [List.append_nil] at hne
    simp [splitAux, hne]
  | cons c t ih =>
    simp only [List.mem_cons, not_or] at h
    have hc : c ≠ '\n' := fun e => h.1 e.symm
    simp only [splitAux, if_neg hc]
    rw [ih _ h.2 (by simp)]
    simp

/-- `split` undoes the concatenation of a list of lines. -/
theorem split_flatten {ls : List Str} (h : LineList ls) : split ls.flatten = ls := by
  induction h with
  | nil => rfl
  | last l hne hnl => simpa [split] using splitAux_noNewline [] l hnl (by simpa using hne)
  | cons t ls ht _ ih =>
    have := splitAux_append [] t ls.flatten ht
    simp only [split] at ih ⊢
    simp [ih, this]

theorem Spec.LineList.ne_nil {ls : List Str} (h : LineList ls) : ∀ l ∈ ls, l ≠ [] := by
  induction h with
  | nil => simp
  | last l hne _ => simpa using hne
  | cons t ls _ _ ih =>
    intro l hl
    rcases List.mem_cons.1 hl with rfl | hl
    · simp
    · exact ih l hl

theorem Spec.LineList.at {ls : List Str} (h : LineList ls) (pre : List Str) (l : Str) (post : List Str)
    (e : ls = pre ++ l :: post) : (∃ t, '\n' ∉ t ∧ l = t ++ ['\n']) ∨ (post = [] ∧ l ≠ [] ∧ '\n' ∉ l) := by
  induction h generalizing pre with
  | nil => simp at e
  | last l' hne hnl =>
    cases pre with
    | nil => simp only [List.nil_append, List.cons.injEq] at e; obtain ⟨rfl, rfl⟩ := e; exact Or.inr ⟨rfl, hne, hnl⟩
    | cons => simp at e
  | cons t ls ht _ ih =>
    cases pre with
    | nil => simp only [List.nil_append, List.cons.injEq] at e; obtain ⟨rfl, rfl⟩ := e; exact Or.inl ⟨t, ht, rfl⟩
    | cons p pre => simp only [List.cons_append, List.cons.injEq] at e; exact ih pre e.2

theorem Spec.LineList.append {as : List Str} {bs : List Str} (ha : ∀ l ∈ as, ∃ t, '\n' ∉ t ∧ l = t ++ ['\n']) (hb : LineList bs) :
    LineList (as ++ bs) := by
  induction as with
  | nil => exact hb
  | cons a as ih =>
    obtain ⟨t, ht, rfl⟩ := ha a (by simp)
    exact .cons t _ ht (ih (fun l hl => ha l (by simp [hl])))

/-! ### cleanUpCrap -/

theorem cleanUpLoop_plain (before : List Str) (l : Str) (ls : List Str) (h : (str "\\ No newline").isPrefixOf l = false) :
    cleanUpLoop before (l :: ls) = cleanUpLoop (before ++ [l]) ls := by
  simp [cleanUpLoop, h]

theorem truncate_line (t : Str) (h : '\n' ∉ t) : truncateAtNewline (t ++ ['\n']) = t := by
  have h1 : (t ++ ['\n']).contains '\n' = true := by simp
  have h2 : (t ++ ['\n']).takeWhile (fun c => decide (c ≠ '\n')) = t := by
    rw [List.takeWhile_append_of_pos]
    · simp
    · intro a ha
      have : a ≠ '\n' := fun e => h (e ▸ ha)
      simp [this]
  simp only [truncateAtNewline, h1, if_true, h2]

theorem cleanUpLoop_marked (before : List Str) (t mk : Str) (ls : List Str)
    (hp : (str "\\ No newline").isPrefixOf (t ++ ['\n']) = false) (ht : '\n' ∉ t) (hm : (str "\\ No newline").isPrefixOf mk = true) :
    cleanUpLoop before ((t ++ ['\n']) :: mk :: ls) = cleanUpLoop (before ++ [t]) ls := by
  rw [cleanUpLoop_plain _ _ _ hp]
  simp [cleanUpLoop, hm, truncate_line t ht]

/-- The loop never needs more than the line before: the part passed before stays in front. -/
theorem cleanUpLoop_ok_append (pre before : List Str) (ls : List Str) (r : List Str) (h : cleanUpLoop before ls = Res.ok r)
     : cleanUpLoop (pre ++ before) ls = Res.ok (pre ++ r) := by
  induction ls generalizing before with
  | nil => simp only [cleanUpLoop, Res.ok.injEq] at h ⊢; rw [h]
  | cons l ls ih =>
    cases hp : (str "\\ No newline").isPrefixOf l with
    | false =>
      rw [cleanUpLoop_plain _ _ _ hp] at h
      rw [cleanUpLoop_plain _ _ _ hp, List.append_assoc]
      exact ih _ h
    | true =>
      simp only [cleanUpLoop, hp, if_true] at h ⊢
      cases hb : before.getLast? with
      | none => simp [hb] at h
      | some p =>
        have hne : before ≠ [] := by intro e; simp [e] at hb
        have h1 : (pre ++ before).getLast? = some p := by simp [List.getLast?_append, hb]
        rw [hb] at h
        rw [h1]
        simp only at h ⊢
        rw [List.dropLast_append_of_ne_nil hne, List.append_assoc]
        exact ih _ h

end KompareDiff2
