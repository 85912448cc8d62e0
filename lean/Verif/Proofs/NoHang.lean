import Verif.Proofs.UnifiedDiff
/-
The parser terminates: no loop runs out of fuel.
-/
namespace KompareDiff2
open Spec Re

/-- The computation ends (normally or in undefined behaviour). -/
def Res.Ends {α} (x : Res α) : Prop := x ≠ Res.hang

theorem Res.Ends.ok {α} (a : α) : (Res.ok a).Ends := by simp [Res.Ends]
theorem Res.Ends.ub {α} : (Res.ub : Res α).Ends := by simp [Res.Ends]
theorem Res.Ends.bind {α β} {x : Res α} {f : α → Res β} (h : x.Ends) (hf : ∀ a, x = Res.ok a → (f a).Ends) : (x >>= f).Ends := by
  cases x with
  | ok a => exact hf a rfl
  | ub => exact Res.Ends.ub
  | hang => exact absurd rfl h

theorem forN_ends {σ} {f : Nat → σ → Res σ} (hf : ∀ i s, (f i s).Ends) (n lo : Nat) (s : σ) : (forN f n lo s).Ends := by
  induction n generalizing lo s with
  | zero => exact Res.Ends.ok _
  | succ n ih => exact Res.Ends.bind (hf lo s) (fun a _ => ih _ _)

theorem LTable.get_ends (t : LTable) (x y : Nat) : (t.get x y).Ends := by
  unfold LTable.get; split
  · exact Res.Ends.ok _
  · exact Res.Ends.ub
theorem LTable.set_ends (t : LTable) (x y v : Nat) : (t.set x y v).Ends := by
  unfold LTable.set; split
  · exact Res.Ends.ok _
  · exact Res.Ends.ub

theorem LTable.createTable_ends (t : LTable) (p : SeqPair) (hp : ∀ i j, (p.equal i j).Ends) : (t.createTable p).Ends := by
  unfold LTable.createTable
  split
  · exact Res.Ends.ok _
  · refine Res.Ends.bind (forN_ends (fun i t => LTable.set_ends _ _ _ _) _ _ _) (fun _ _ => ?_)
    refine Res.Ends.bind (forN_ends (fun i t => LTable.set_ends _ _ _ _) _ _ _) (fun _ _ => ?_)
    refine Res.Ends.bind (forN_ends (fun j t => forN_ends (fun i t => ?_) _ _ _) _ _ _) (fun _ _ => ?_)
    · unfold LTable.cell
      refine Res.Ends.bind (hp _ _) (fun _ _ => ?_)
      refine Res.Ends.bind (LTable.get_ends _ _ _) (fun _ _ => ?_)
      refine Res.Ends.bind (LTable.get_ends _ _ _) (fun _ _ => ?_)
      refine Res.Ends.bind (LTable.get_ends _ _ _) (fun _ _ => ?_)
      exact LTable.set_ends _ _ _ _
    · exact Res.Ends.bind (LTable.get_ends _ _ _) (fun _ _ => Res.Ends.ok _)

theorem walkStep_ends (t : LTable) (ar : Bool) (s : Walk) : (walkStep t ar s).Ends := by
  unfold walkStep
  refine Res.Ends.bind (LTable.get_ends _ _ _) (fun _ _ => ?_)
  refine Res.Ends.bind (LTable.get_ends _ _ _) (fun _ _ => ?_)
  refine Res.Ends.bind (LTable.get_ends _ _ _) (fun _ _ => ?_)
  refine Res.Ends.bind (LTable.get_ends _ _ _) (fun _ _ => ?_)
  split <;> exact Res.Ends.ok _

theorem walkStep_decreases {t : LTable} {ar : Bool} {s s' : Walk} (hx : s.x > 0) (hy : s.y > 0) (h : walkStep t ar s = Res.ok s') :
    s'.x + s'.y < s.x + s.y := by
  unfold walkStep at h
  simp only [Res.bind_eq_ok] at h
  obtain ⟨_, _, _, _, _, _, _, _, h⟩ := h
  split at h <;> simp only [Res.ok.injEq] at h <;> subst h <;> simp only <;> omega

theorem walkLoop_ends (t : LTable) (ar : Bool) (n : Nat) (s : Walk) (h : s.x + s.y < n) : (walkLoop t ar n s).Ends := by
  induction n generalizing s with
  | zero => omega
  | succ n ih =>
    simp only [walkLoop]
    split
    · rename_i hxy
      refine Res.Ends.bind (walkStep_ends _ _ _) (fun s' hs' => ?_)
      have := walkStep_decreases hxy.1 hxy.2 hs'
      exact ih s' (by omega)
    · exact Res.Ends.ok _

theorem LTable.markers_ends (t : LTable) (p : SeqPair) : (t.createListsOfMarkers p).Ends := by
  unfold LTable.createListsOfMarkers
  refine Res.Ends.bind (LTable.get_ends _ _ _) (fun _ _ => ?_)
  split
  · exact Res.Ends.ok _
  · exact Res.Ends.bind (walkLoop_ends _ _ _ _ (by simp only; omega)) (fun _ _ => Res.Ends.ok _)

theorem inlineLoop_ends (t : LTable) (ss ds : List DStr) : (inlineLoop t ss ds).Ends := by
  induction ss generalizing t ds with
  | nil => unfold inlineLoop; exact Res.Ends.ok _
  | cons s ss ih =>
    cases ds with
    | nil => unfold inlineLoop; exact Res.Ends.ok _
    | cons d ds =>
      unfold inlineLoop
      refine Res.Ends.bind (LTable.createTable_ends _ _ ?_) (fun r _ => ?_)
      · intro i j
        simp only [differenceStringPair]
        split
        · exact Res.Ends.ok _
        · exact Res.Ends.ub
      · simp only
        split
        · exact Res.Ends.bind (LTable.markers_ends _ _) (fun _ _ => Res.Ends.bind (ih _ _) (fun _ _ => Res.Ends.ok _))
        · exact Res.Ends.bind (Res.Ends.ok _) (fun _ _ => Res.Ends.bind (ih _ _) (fun _ _ => Res.Ends.ok _))

theorem determineInline_ends (d : Diff) : d.determineInline.Ends := by
  unfold Diff.determineInline
  split
  · exact Res.Ends.ok _
  · split
    · exact Res.Ends.ok _
    · exact Res.Ends.bind (inlineLoop_ends _ _ _) (fun _ _ => Res.Ends.ok _)

theorem cleanUp_ends (before ls : List Str) : (cleanUpLoop before ls).Ends := by
  induction ls generalizing before with
  | nil => exact Res.Ends.ok _
  | cons l ls ih =>
    simp only [cleanUpLoop]
    split
    · split
      · exact Res.Ends.ub
      · exact ih _
    · exact ih _

/-! ### Unified -/

theorem takeRun_length (p : Char) (da db : Int) (ls : List Str) (a b : Int) : (takeRun p da db ls a b).2.1.length ≤ ls.length := by
  induction ls generalizing a b with
  | nil => simp [takeRun]
  | cons l ls ih =>
    unfold takeRun
    split
    · have := ih (a - da) (b - db)
      simp only [List.length_cons]; omega
    · simp

theorem takeRun_consumes (p : Char) (da db : Int) (l : Str) (ls : List Str) (a b : Int) (hp : l.head? = some p) (hc : a ≠ 0 ∨ b ≠ 0) :
    (takeRun p da db (l :: ls) a b).2.1.length < (l :: ls).length := by
  unfold takeRun
  rw [if_pos ⟨hp, hc⟩]
  have := takeRun_length p da db ls (a - da) (b - db)
  simp only [List.length_cons]; omega

theorem takeRun_other (p : Char) (da db : Int) (l : Str) (ls : List Str) (a b : Int) (hp : l.head? ≠ some p) :
    takeRun p da db (l :: ls) a b = ([], l :: ls, a, b) := by
  unfold takeRun
  rw [if_neg (fun h => hp h.1)]

theorem unifiedStep_ends (l : Str) (ls : List Str) (a b ca cb : Int) : (unifiedStep l ls a b ca cb).Ends := by
  unfold unifiedStep
  split
  · exact Res.Ends.ok _
  · unfold unifiedChange
    exact Res.Ends.bind (determineInline_ends _) (fun _ _ => Res.Ends.ok _)

theorem unifiedStep_consumes {l : Str} {ls : List Str} {a b ca cb : Int} {r} (hm : matchesUnifiedHunkLine l = Res.ok true)
    (hc : ca ≠ 0 ∨ cb ≠ 0) (h : unifiedStep l ls a b ca cb = Res.ok r) : r.2.1.length < (l :: ls).length := by
  unfold unifiedStep at h
  split at h
  · rename_i hl
    simp only [Res.ok.injEq] at h
    subst h
    simp only [unifiedContext]
    exact takeRun_consumes _ _ _ _ _ _ _ hl hc
  · rename_i hl
    unfold unifiedChange at h
    simp only [Res.bind_eq_ok] at h
    obtain ⟨d, _, h⟩ := h
    simp only [Res.ok.injEq] at h
    subst h
    simp only
    by_cases h1 : l.head? = some '-'
    · have := takeRun_consumes '-' 1 0 l ls ca cb h1 hc
      have := takeRun_length '+' 0 1 (takeRun '-' 1 0 (l :: ls) ca cb).2.1 (takeRun '-' 1 0 (l :: ls) ca cb).2.2.1
        (takeRun '-' 1 0 (l :: ls) ca cb).2.2.2
      omega
    · have h2 : l.head? = some '+' := by
        cases l with
        | nil => simp [matchesUnifiedHunkLine] at hm
        | cons c l =>
          simp only [matchesUnifiedHunkLine, Res.ok.injEq, Bool.or_eq_true, decide_eq_true_eq] at hm
          simp only [List.head?_cons, Option.some.injEq] at hl h1 ⊢
          rcases hm with (h | h) | h
          · exact absurd h hl
          · exact h
          · exact absurd h h1
      rw [takeRun_other _ _ _ _ _ _ _ h1]
      exact takeRun_consumes _ _ _ _ _ _ _ h2 hc

theorem unifiedBody_ends (n : Nat) (ls : List Str) (a b ca cb : Int) (h : ls.length < n) : (unifiedBodyLoop n ls a b ca cb).Ends := by
  induction n generalizing ls a b ca cb with
  | zero => omega
  | succ n ih =>
    cases ls with
    | nil => exact Res.Ends.ok _
    | cons l ls =>
      simp only [unifiedBodyLoop]
      refine Res.Ends.bind ?_ (fun mt hm => ?_)
      · unfold matchesUnifiedHunkLine; split
        · exact Res.Ends.ub
        · exact Res.Ends.ok _
      · split
        · rename_i hc
          rw [hc.1] at hm
          refine Res.Ends.bind (unifiedStep_ends _ _ _ _ _ _) (fun r hr => ?_)
          have := unifiedStep_consumes hm hc.2 hr
          exact Res.Ends.bind (ih _ _ _ _ _ (by omega)) (fun _ _ => Res.Ends.ok _)
        · exact Res.Ends.ok _

theorem unifiedBody_length {n : Nat} {ls : List Str} {a b ca cb : Int} {r} (h : unifiedBodyLoop n ls a b ca cb = Res.ok r) :
    r.2.length ≤ ls.length := by
  induction n generalizing ls a b ca cb r with
  | zero => simp [unifiedBodyLoop] at h
  | succ n ih =>
    cases ls with
    | nil => simp only [unifiedBodyLoop, Res.ok.injEq] at h; subst h; simp
    | cons l ls =>
      simp only [unifiedBodyLoop] at h
      obtain ⟨mt, hm, h⟩ := Res.bind_eq_ok.1 h
      split at h
      · rename_i hc
        rw [hc.1] at hm
        obtain ⟨s, hs, h⟩ := Res.bind_eq_ok.1 h
        obtain ⟨q, hq, h⟩ := Res.bind_eq_ok.1 h
        simp only [Res.ok.injEq] at h
        subst h
        have := unifiedStep_consumes hm hc.2 hs
        have := ih hq
        simp only; omega
      · simp only [Res.ok.injEq] at h; subst h; simp

theorem parseUnifiedHunk_ends (st : PState) : (parseUnifiedHunk st).Ends := by
  unfold parseUnifiedHunk
  split
  · exact Res.Ends.ok _
  · split
    · exact Res.Ends.ok _
    · split
      · exact Res.Ends.ok _
      · exact Res.Ends.bind (unifiedBody_ends _ _ _ _ _ _ (by omega)) (fun _ _ => Res.Ends.ok _)

theorem parseUnifiedHunk_consumes {st st' : PState} (h : parseUnifiedHunk st = Res.ok (some st')) : st'.rest.length < st.rest.length := by
  unfold parseUnifiedHunk at h
  split at h
  · simp at h
  · rename_i l ls e
    split at h
    · simp at h
    · split at h
      · simp only [Res.ok.injEq, Option.some.injEq] at h
        subst h; rw [e]; simp
      · obtain ⟨r, hr, h⟩ := Res.bind_eq_ok.1 h
        simp only [Res.ok.injEq, Option.some.injEq] at h
        subst h
        have := unifiedBody_length hr
        rw [e]; simp only [List.length_cons]; omega

/-! ### Normal -/

theorem captureRun_length (r : Re) (ls : List Str) : (captureRun r ls).2.length ≤ ls.length := by
  induction ls with
  | nil => simp [captureRun]
  | cons l ls ih =>
    unfold captureRun
    split
    · simp only [List.length_cons]; omega
    · simp

theorem captureRun_consumes {r : Re} {ls : List Str} (h : startsRe r ls = true) : (captureRun r ls).2.length < ls.length := by
  cases ls with
  | nil => simp [startsRe] at h
  | cons l ls =>
    simp only [startsRe] at h
    unfold captureRun
    cases hf : r.full l with
    | none => simp [hf] at h
    | some c =>
      have := captureRun_length r ls
      simp only [List.length_cons]; omega

theorem normalHunkBody_length (ty : DiffType) (a b : Int) (ls : List Str) : (normalHunkBody ty a b ls).2.length ≤ ls.length := by
  have h1 : ∀ (c : Prop) [Decidable c] (r : Re) (ls : List Str), (if c then captureRun r ls else ([], ls)).2.length ≤ ls.length := by
    intro c _ r ls
    split
    · exact captureRun_length r ls
    · exact Nat.le_refl _
  unfold normalHunkBody
  simp only
  split
  · exact h1 _ _ _
  · rename_i ls2 hd
    have h2 := h1 (ty = .Insert ∨ ty = .Change) reNormalBodyAdded ls2
    have h3 := h1 (ty = .Change ∨ ty = .Delete) reNormalBodyRemoved ls
    refine Nat.le_trans h2 (Nat.le_trans ?_ h3)
    split at hd
    · split at hd
      · rename_i e
        split at hd
        · simp only [Option.some.injEq] at hd; subst hd; rw [e]; simp
        · simp at hd
      · simp at hd
    · simp only [Option.some.injEq] at hd; subst hd; exact Nat.le_refl _

theorem parseNormalHunk_ends (st : PState) : (parseNormalHunk st).Ends := by
  unfold parseNormalHunk
  split
  · exact Res.Ends.ok _
  · split <;> exact Res.Ends.ok _

theorem parseNormalHunk_consumes {st st' : PState} (h : parseNormalHunk st = Res.ok (some st')) : st'.rest.length < st.rest.length := by
  unfold parseNormalHunk at h
  split at h
  · simp at h
  · rename_i l ls e
    split at h
    · simp at h
    · rename_i ty a b _
      simp only [Res.ok.injEq, Option.some.injEq] at h
      subst h
      have := normalHunkBody_length ty a b ls
      rw [e]; simp only [List.length_cons]; omega

/-! ### Context -/

theorem contextLines_length (ls : List Str) : (contextLines ls).1.length + (contextLines ls).2.length = ls.length := by
  induction ls with
  | nil => rfl
  | cons l ls ih =>
    unfold contextLines
    split
    · simp only [List.length_cons]; omega
    · simp

theorem contextUnchanged_length (n : Nat) (os ns : List Str) :
    (contextUnchanged n os ns).2.1.length ≤ os.length ∧ (contextUnchanged n os ns).2.2.length ≤ ns.length := by
  induction n generalizing os ns with
  | zero => simp [contextUnchanged]
  | succ n ih =>
    unfold contextUnchanged
    split
    · have := ih (os.drop 1) (ns.drop 1)
      simp only [List.length_drop] at this
      simp only
      omega
    · simp

theorem contextUnchanged_consumes {n : Nat} {os ns : List Str} (h1 : endOrContext os = true) (h2 : endOrContext ns = true)
    (h : os ≠ [] ∨ ns ≠ []) (hn : 0 < n) :
    (contextUnchanged n os ns).2.1.length + (contextUnchanged n os ns).2.2.length < os.length + ns.length := by
  cases n with
  | zero => omega
  | succ n =>
    unfold contextUnchanged
    rw [if_pos ⟨h1, h2, h⟩]
    have := contextUnchanged_length n (os.drop 1) (ns.drop 1)
    simp only [List.length_drop] at this
    simp only
    rcases h with h | h
    · have := List.length_pos_iff.2 h; omega
    · have := List.length_pos_iff.2 h; omega

theorem contextStep_ends (os ns : List Str) (a b : Int) : (contextStep os ns a b).Ends := by
  unfold contextStep
  split
  · exact Res.Ends.bind (determineInline_ends _) (fun _ _ => Res.Ends.ok _)
  · split
    · exact Res.Ends.bind (determineInline_ends _) (fun _ _ => Res.Ends.ok _)
    · split
      · exact Res.Ends.bind (determineInline_ends _) (fun _ _ => Res.Ends.ok _)
      · split
        · exact Res.Ends.bind (determineInline_ends _) (fun _ _ => Res.Ends.ok _)
        · exact Res.Ends.ok _

theorem contextStep_consumes {os ns : List Str} {a b : Int} {r} (hne : ¬ (os = [] ∧ ns = [])) (h : contextStep os ns a b = Res.ok (some r)) :
    r.2.1.length + r.2.2.length < os.length + ns.length := by
  unfold contextStep at h
  split at h
  · rename_i hs
    obtain ⟨d, _, h⟩ := Res.bind_eq_ok.1 h
    simp only [Res.ok.injEq, Option.some.injEq] at h
    subst h
    have := captureRun_consumes hs
    simp only; omega
  · split at h
    · rename_i hs
      obtain ⟨d, _, h⟩ := Res.bind_eq_ok.1 h
      simp only [Res.ok.injEq, Option.some.injEq] at h
      subst h
      have := captureRun_consumes hs
      simp only; omega
    · split at h
      · rename_i hs
        obtain ⟨d, _, h⟩ := Res.bind_eq_ok.1 h
        simp only [Res.ok.injEq, Option.some.injEq] at h
        subst h
        have hne' : os ≠ [] ∨ ns ≠ [] := by
          by_cases h1 : os = []
          · right; intro h2; exact hne ⟨h1, h2⟩
          · left; exact h1
        refine contextUnchanged_consumes hs.1 hs.2 hne' ?_
        rcases hne' with h | h
        · have := List.length_pos_iff.2 h; omega
        · have := List.length_pos_iff.2 h; omega
      · split at h
        · rename_i hs
          obtain ⟨d, _, h⟩ := Res.bind_eq_ok.1 h
          simp only [Res.ok.injEq, Option.some.injEq] at h
          subst h
          have h1 := captureRun_length reContextChanged os
          have h2 := captureRun_length reContextChanged ns
          simp only
          rcases hs with hs | hs
          · have := captureRun_consumes hs; omega
          · have := captureRun_consumes hs; omega
        · simp at h

theorem contextBody_ends (n : Nat) (os ns : List Str) (a b : Int) (h : os.length + ns.length < n) : (contextBodyLoop n os ns a b).Ends := by
  induction n generalizing os ns a b with
  | zero => omega
  | succ n ih =>
    simp only [contextBodyLoop]
    split
    · exact Res.Ends.ok _
    · rename_i hne
      refine Res.Ends.bind (contextStep_ends _ _ _ _) (fun r hr => ?_)
      cases r with
      | none => exact Res.Ends.ok _
      | some r =>
        have := contextStep_consumes hne hr
        exact Res.Ends.bind (ih _ _ _ _ (by omega)) (fun _ _ => Res.Ends.ok _)

theorem contextHunkHeader_length (ls : List Str) : (contextHunkHeader ls).2.length ≤ ls.length := by
  unfold contextHunkHeader
  split
  · simp
  · split
    · simp
    · split
      · simp
      · split <;> simp only [List.length_cons] <;> omega

theorem contextHunkHeader_consumes {ls ls' : List Str} {c} (h : contextHunkHeader ls = (some c, ls')) : ls'.length < ls.length := by
  unfold contextHunkHeader at h
  split at h
  · simp at h
  · split at h
    · simp at h
    · split at h
      · simp at h
      · split at h
        · simp at h
        · simp only [Prod.mk.injEq] at h
          rw [← h.2]; simp only [List.length_cons]; omega

theorem parseContextHunk_ends (st : PState) : (parseContextHunk st).Ends := by
  unfold parseContextHunk
  split
  · exact Res.Ends.ok _
  · simp only
    split
    · exact Res.Ends.ub
    · split
      · exact Res.Ends.ok _
      · exact Res.Ends.bind (contextBody_ends _ _ _ _ _ (by omega)) (fun _ _ => Res.Ends.ok _)

theorem parseContextHunk_consumes {st st' st2 : PState} (h : parseContextHunk st = Res.ok (some st', st2)) :
    st'.rest.length < st.rest.length := by
  unfold parseContextHunk at h
  split at h
  · simp at h
  · rename_i c1 c2 ls e
    have h1 := contextHunkHeader_consumes e
    have h2 := contextLines_length ls
    simp only at h
    split at h
    · simp at h
    · rename_i l ls2 e2
      split at h
      · simp only [Res.ok.injEq, Prod.mk.injEq, Option.some.injEq] at h
        rw [← h.1]; simp only; omega
      · obtain ⟨r, hr, h⟩ := Res.bind_eq_ok.1 h
        simp only [Res.ok.injEq, Prod.mk.injEq, Option.some.injEq] at h
        rw [← h.1]
        have h3 := contextLines_length ls2
        rw [e2] at h2
        simp only [List.length_cons] at h2
        simp only; omega

theorem parseContextHunk_none {st st2 : PState} (h : parseContextHunk st = Res.ok (none, st2)) :
    st2.rest.length ≤ st.rest.length := by
  unfold parseContextHunk at h
  split at h
  · rename_i ls e
    simp only [Res.ok.injEq, Prod.mk.injEq, true_and] at h
    subst h
    have := contextHunkHeader_length st.rest
    rw [e] at this
    exact this
  · simp only at h
    split at h
    · simp at h
    · split at h
      · simp at h
      · obtain ⟨r, hr, h⟩ := Res.bind_eq_ok.1 h
        simp at h

/-! ### Loops -/

theorem hunkLoop_ends {hunk : PState → Res (Option PState)} (he : ∀ st, (hunk st).Ends)
    (hc : ∀ st st', hunk st = Res.ok (some st') → st'.rest.length < st.rest.length) (n : Nat) (st : PState) (h : st.rest.length < n) :
    (hunkLoop hunk n st).Ends := by
  induction n generalizing st with
  | zero => omega
  | succ n ih =>
    simp only [hunkLoop]
    refine Res.Ends.bind (he st) (fun r hr => ?_)
    cases r with
    | none => exact Res.Ends.ok _
    | some st' =>
      have := hc st st' hr
      exact ih st' (by omega)

theorem hunkLoop_length {hunk : PState → Res (Option PState)}
    (hc : ∀ st st', hunk st = Res.ok (some st') → st'.rest.length < st.rest.length) {n : Nat} {st st' : PState}
    (h : hunkLoop hunk n st = Res.ok st') : st'.rest.length ≤ st.rest.length :=
  hunkLoop_inv (I := fun s => s.rest.length ≤ st.rest.length) (fun s s' h1 h2 => Nat.le_trans (Nat.le_of_lt (hc s s' h2)) h1)
    n st st' (Nat.le_refl _) h

theorem contextHunkLoop_ends (n : Nat) (st : PState) (h : st.rest.length < n) : (contextHunkLoop n st).Ends := by
  induction n generalizing st with
  | zero => omega
  | succ n ih =>
    simp only [contextHunkLoop]
    refine Res.Ends.bind (parseContextHunk_ends st) (fun r hr => ?_)
    obtain ⟨r, st2⟩ := r
    cases r with
    | none => exact Res.Ends.ok _
    | some st' =>
      have := parseContextHunk_consumes hr
      exact ih st' (by omega)

theorem contextHunkLoop_length {n : Nat} {st st' : PState} (h : contextHunkLoop n st = Res.ok st') : st'.rest.length ≤ st.rest.length :=
  contextHunkLoop_inv (I := fun s => s.rest.length ≤ st.rest.length)
    (fun s s' s2 h1 h2 => Nat.le_trans (Nat.le_of_lt (parseContextHunk_consumes h2)) h1)
    (fun s s2 h1 h2 => Nat.le_trans (parseContextHunk_none h2) h1)
    n st st' (Nat.le_refl _) h

theorem keepModel_rest (st : PState) : st.keepModel.rest = st.rest := by unfold PState.keepModel; split <;> rfl
theorem checkHeader_rest (r : Re) (st : PState) : (checkHeader r st).rest = st.rest := by
  unfold checkHeader; split
  · rfl
  · split <;> rfl

theorem fileLoop_ends {header : PState → Res (PState × Bool)} {hunks : PState → Res PState} {check : Re}
    (he : ∀ st, (header st).Ends) (hc : ∀ st st', header st = Res.ok (st', true) → st'.rest.length < st.rest.length)
    (hh : ∀ st, (hunks st).Ends) (hl : ∀ st st', hunks st = Res.ok st' → st'.rest.length ≤ st.rest.length)
    (n : Nat) (st : PState) (h : st.rest.length < n) : (fileLoop header hunks check n st).Ends := by
  induction n generalizing st with
  | zero => omega
  | succ n ih =>
    simp only [fileLoop]
    refine Res.Ends.bind (he st) (fun r hr => ?_)
    obtain ⟨s1, b⟩ := r
    cases b with
    | false => exact Res.Ends.ok _
    | true =>
      have h1 := hc st s1 hr
      simp only [Bool.true_eq_false, if_false]
      refine Res.Ends.bind (hh s1) (fun s2 h2 => ?_)
      have h3 := hl s1 s2 h2
      apply ih
      rw [checkHeader_rest, keepModel_rest]; omega

theorem twoLineHeader_ends (h1 h2 : Re) (mk) (st : PState) (ls : List Str) : (twoLineHeader h1 h2 mk st ls).Ends := by
  induction ls with
  | nil => exact Res.Ends.ok _
  | cons l ls ih =>
    unfold twoLineHeader
    split
    · exact ih
    · split
      · exact Res.Ends.ub
      · split <;> exact Res.Ends.ok _

theorem twoLineHeader_consumes {h1 h2 : Re} {mk} {st st' : PState} {ls : List Str} (h : twoLineHeader h1 h2 mk st ls = Res.ok (st', true)) :
    st'.rest.length < ls.length := by
  induction ls with
  | nil => simp [twoLineHeader] at h
  | cons l ls ih =>
    unfold twoLineHeader at h
    split at h
    · have := ih h
      simp only [List.length_cons]; omega
    · split at h
      · simp at h
      · split at h
        · simp only [Res.ok.injEq, Prod.mk.injEq, and_true] at h
          subst h; simp only [List.length_cons]; omega
        · simp at h

theorem p4Header_consumes {st st' : PState} {ls : List Str} (h : p4Header st ls = (st', true)) : st'.rest.length < ls.length := by
  induction ls with
  | nil => simp [p4Header] at h
  | cons l ls ih =>
    unfold p4Header at h
    split at h
    · simp only [Prod.mk.injEq, and_true] at h
      subst h; simp
    · have := ih h
      simp only [List.length_cons]; omega

theorem normalHeaderLoop_consumes {h : Re} {mk} {m : DModel} {ls ls' : List Str} (e : normalHeaderLoop h mk ls = some (m, ls')) :
    ls'.length < ls.length := by
  induction ls with
  | nil => simp [normalHeaderLoop] at e
  | cons l ls ih =>
    unfold normalHeaderLoop at e
    split at e
    · simp only [Option.some.injEq, Prod.mk.injEq] at e
      rw [← e.2]; simp
    · have := ih e
      simp only [List.length_cons]; omega

theorem parseNormalDiffHeader_consumes {win : Bool} {g : Generator} {st st' : PState}
    (h : parseNormalDiffHeader win g st = (st', true)) : st'.rest.length < st.rest.length := by
  unfold parseNormalDiffHeader at h
  split at h
  · exact p4Header_consumes h
  · simp only at h
    split at h
    · rename_i e
      simp only [Prod.mk.injEq, and_true] at h
      subst h
      exact normalHeaderLoop_consumes e
    · simp at h

theorem unifiedFiles_ends (win : Bool) (g : Generator) (st : PState) : (unifiedFiles win g st).Ends := by
  unfold unifiedFiles
  refine fileLoop_ends ?_ ?_ ?_ ?_ _ _ (by omega)
  · intro st
    unfold parseUnifiedDiffHeader
    split
    · exact Res.Ends.ok _
    · exact twoLineHeader_ends _ _ _ _ _
  · intro st st' h
    unfold parseUnifiedDiffHeader at h
    split at h
    · simp only [Res.ok.injEq] at h; exact p4Header_consumes h
    · exact twoLineHeader_consumes h
  · intro st; exact hunkLoop_ends parseUnifiedHunk_ends (fun _ _ => parseUnifiedHunk_consumes) _ _ (by omega)
  · intro st st' h; exact hunkLoop_length (fun _ _ => parseUnifiedHunk_consumes) h

theorem contextFiles_ends (win : Bool) (g : Generator) (st : PState) : (contextFiles win g st).Ends := by
  unfold contextFiles
  refine fileLoop_ends ?_ ?_ ?_ ?_ _ _ (by omega)
  · intro st
    unfold parseContextDiffHeader
    split
    · exact Res.Ends.ok _
    · exact twoLineHeader_ends _ _ _ _ _
  · intro st st' h
    unfold parseContextDiffHeader at h
    split at h
    · simp only [Res.ok.injEq] at h; exact p4Header_consumes h
    · exact twoLineHeader_consumes h
  · intro st; exact contextHunkLoop_ends _ _ (by omega)
  · intro st st' h; exact contextHunkLoop_length h

theorem normalHunks_ends (st : PState) : (normalHunks st).Ends :=
  hunkLoop_ends parseNormalHunk_ends (fun _ _ => parseNormalHunk_consumes) _ _ (by omega)

theorem normalFiles_ends (win : Bool) (g : Generator) (st : PState) : (normalFiles win g st).Ends := by
  unfold normalFiles
  refine Res.Ends.bind ?_ (fun s _ => ?_)
  · refine fileLoop_ends ?_ ?_ ?_ ?_ _ _ (by omega)
    · intro st; exact Res.Ends.ok _
    · intro st st' h
      simp only [Res.ok.injEq] at h
      exact parseNormalDiffHeader_consumes h
    · exact normalHunks_ends
    · intro st st' h; exact hunkLoop_length (fun _ _ => parseNormalHunk_consumes) h
  · split
    · exact Res.Ends.bind (normalHunks_ends _) (fun _ _ => Res.Ends.ok _)
    · exact Res.Ends.ok _

theorem parse_ends (win : Bool) (cmp : Str → Str → Int) (heap : Heap) (ls : List Str) : (parse win cmp heap ls).Ends := by
  unfold parse
  refine Res.Ends.bind (cleanUp_ends _ _) (fun ls _ => ?_)
  unfold parseLines
  simp only
  split
  · exact Res.Ends.bind (contextFiles_ends _ _ _) (fun _ _ => Res.Ends.ok _)
  · exact Res.Ends.bind (normalFiles_ends _ _ _) (fun _ _ => Res.Ends.ok _)
  · exact Res.Ends.bind (unifiedFiles_ends _ _ _) (fun _ _ => Res.Ends.ok _)
  · exact Res.Ends.ok _

end KompareDiff2
