import Verif.Proofs.ShownHunks
/-
What lines show is determined by them, and everything shown stands in them.
-/
namespace KompareDiff2
open Spec Re

/-! ### Everything stands in the text -/

theorem filesStand_gap {o : FileForm} {T : HView → List Str → Prop} {ms : List MView} {ls : List Str} (gap : List Str) (h : FilesStand o T ms ls) :
    FilesStand o T ms (gap ++ ls) := by
  cases h with
  | nil => exact .nil _
  | cons gap' hdr ls rest f hs ms h1 h2 h3 =>
    rw [← List.append_assoc]
    exact .cons (gap ++ gap') hdr ls rest f hs ms h1 h2 h3

theorem filesStand_suffix {o : FileForm} {T : HView → List Str → Prop} {ms : List MView} {ls ls' : List Str} (h : FilesStand o T ms ls)
    (hs : ls <:+ ls') : FilesStand o T ms ls' := by
  obtain ⟨gap, rfl⟩ := hs
  exact filesStand_gap gap h

theorem hunksStand_gap {T : HView → List Str → Prop} {hs : List HView} {ls rest : List Str} (gap : List Str) (h : HunksStand T hs ls rest) :
    hs ≠ [] → HunksStand T hs (gap ++ ls) rest := by
  intro hne
  cases h with
  | nil => exact absurd rfl hne
  | cons gap' t ls rest h hs h1 h2 =>
    rw [← List.append_assoc]
    exact .cons (gap ++ gap') t ls rest h hs h1 h2

theorem hunksStand_suffix {T : HView → List Str → Prop} {hs : List HView} {ls rest : List Str} (h : HunksStand T hs ls rest) : rest <:+ ls := by
  induction h with
  | nil => exact List.suffix_refl _
  | cons gap t ls rest h hs _ _ ih => exact ih.trans ⟨gap ++ t, by simp⟩

theorem filesStand_shows {o : FileForm} {T : HView → List Str → Prop} {H : List Str → List HView → List Str → Prop}
    (hH : ∀ ls hs rest, H ls hs rest → rest <:+ ls ∧ (hs ≠ [] → ∃ r, HunksStand T hs ls r ∧ rest <:+ r)) {ls : List Str} {ms : List MView}
    (h : ShowsFiles o H ls ms) : FilesStand o T ms ls := by
  induction h with
  | finished => exact .nil _
  | abandoned => exact .nil _
  | file pre hdr ls rest f hs ms h1 h2 h3 h4 ih =>
    obtain ⟨k1, k2⟩ := hH _ _ _ h3
    unfold FileNames.shown
    split
    · exact filesStand_suffix ih (k1.trans ⟨pre ++ hdr, by simp⟩)
    · rename_i hc
      have hne : hs ≠ [] := by rintro rfl; exact hc rfl
      obtain ⟨r, g1, g2⟩ := k2 hne
      exact .cons pre hdr ls r f hs ms h2 g1 (filesStand_suffix ih g2)

theorem unifiedShown_stands {ls : List Str} {hs : List HView} {rest : List Str} (h : UnifiedShown ls hs rest) :
    rest <:+ ls ∧ (hs ≠ [] → ∃ r, HunksStand UnifiedText hs ls r ∧ rest <:+ r) := by
  induction h with
  | stop ls h => exact ⟨List.suffix_refl _, fun h => absurd rfl h⟩
  | skipped l ls n m hs rest h1 h2 h3 ih =>
    refine ⟨ih.1.trans (List.suffix_cons _ _), fun hne => ?_⟩
    obtain ⟨r, g1, g2⟩ := ih.2 hne
    exact ⟨r, hunksStand_gap [l] g1 hne, g2⟩
  | hunk l ls after n m h hs rest h1 h2 h3 h4 h5 h6 h7 h8 ih =>
    refine ⟨ih.1.trans ⟨l :: ls, by simp⟩, fun _ => ?_⟩
    have ht : UnifiedText h (l :: ls) := ⟨l, n, m, by rw [h5], h1⟩
    by_cases hne : hs = []
    · subst hne
      exact ⟨after, .cons [] (l :: ls) after after h [] ht (.nil _), ih.1⟩
    · obtain ⟨r, g1, g2⟩ := ih.2 hne
      exact ⟨r, .cons [] (l :: ls) after r h hs ht g1, g2⟩

/-! ### What is shown is determined -/

/-- Headers can be recognised. -/
structure Spec.FileForm.Proper (o : FileForm) : Prop where
  opens : ∀ hdr f, o.header hdr f → ∃ l t, hdr = l :: t ∧ o.first l
  short : ∀ hdr f, o.header hdr f → hdr.length ≤ 2
  unique : ∀ hdr hdr' f f' ls ls', o.header hdr f → o.header hdr' f' → hdr ++ ls = hdr' ++ ls' → hdr = hdr' ∧ f = f'

theorem first_unique {F : Str → Prop} {pre pre' : List Str} {l l' : Str} {ls ls' : List Str} (h : ∀ x ∈ pre, ¬ F x) (h' : ∀ x ∈ pre', ¬ F x)
    (hl : F l) (hl' : F l') (e : pre ++ l :: ls = pre' ++ l' :: ls') : pre = pre' ∧ l = l' ∧ ls = ls' := by
  induction pre generalizing pre' with
  | nil =>
    cases pre' with
    | nil => simpa using e
    | cons x p => simp only [List.nil_append, List.cons_append, List.cons.injEq] at e; exact absurd (e.1 ▸ hl) (h' x (by simp))
  | cons x p ih =>
    cases pre' with
    | nil => simp only [List.nil_append, List.cons_append, List.cons.injEq] at e; exact absurd (e.1 ▸ hl') (h x (by simp))
    | cons y q =>
      simp only [List.cons_append, List.cons.injEq] at e
      obtain ⟨e1, e2, e3⟩ := ih (fun z hz => h z (by simp [hz])) (fun z hz => h' z (by simp [hz])) e.2
      exact ⟨by rw [e.1, e1], e2, e3⟩

theorem header_cases {o : FileForm} (hp : o.Proper) {hdr : List Str} {f : FileNames} (h : o.header hdr f) :
    ∃ l, o.first l ∧ (hdr = [l] ∨ ∃ l2, hdr = [l, l2]) := by
  obtain ⟨l, t, rfl, hl⟩ := hp.opens _ _ h
  have := hp.short _ _ h
  refine ⟨l, hl, ?_⟩
  cases t with
  | nil => exact .inl rfl
  | cons x t =>
    cases t with
    | nil => exact .inr ⟨x, rfl⟩
    | cons y t => simp at this

theorem showsFiles_det {o : FileForm} (hp : o.Proper) {H : List Str → List HView → List Str → Prop}
    (hH : ∀ ls hs hs' r r', H ls hs r → H ls hs' r' → hs = hs' ∧ r = r') {ls : List Str} {ms ms' : List MView}
    (h : ShowsFiles o H ls ms) (h' : ShowsFiles o H ls ms') : ms = ms' := by
  induction h generalizing ms' with
  | finished ls h1 =>
    cases h' with
    | finished => rfl
    | abandoned => rfl
    | file pre hdr ls rest f hs ms h2 h3 h4 h5 =>
      obtain ⟨l, t, rfl, hl⟩ := hp.opens _ _ h3
      exact absurd hl (h1 l (by simp))
  | abandoned pre l l2 ls h1 h2 h3 h4 =>
    generalize hx : pre ++ l :: l2 :: ls = xs at h'
    cases h' with
    | finished => rfl
    | abandoned => rfl
    | file pre' hdr ls' rest f hs ms g1 g2 g3 g4 =>
      obtain ⟨l', hl', rfl | ⟨l2', rfl⟩⟩ := header_cases hp g2
      · obtain ⟨_, rfl, _⟩ := first_unique h1 g1 h2 hl' hx
        exact absurd g2 (h3 f)
      · obtain ⟨_, rfl, e⟩ := first_unique h1 g1 h2 hl' hx
        have e' := (List.cons.inj (show l2 :: ls = l2' :: ls' from e)).1
        rw [← e'] at g2
        exact absurd g2 (h4 f)
  | file pre hdr ls rest f hs ms h1 h2 h3 h4 ih =>
    generalize hx : pre ++ (hdr ++ ls) = xs at h'
    cases h' with
    | finished _ g1 =>
      obtain ⟨l, t, rfl, hl⟩ := hp.opens _ _ h2
      exact absurd hl (g1 l (by rw [← hx]; simp))
    | abandoned pre' l' l2' ls' g1 g2 g3 g4 =>
      obtain ⟨l, hl, rfl | ⟨l2, rfl⟩⟩ := header_cases hp h2
      · obtain ⟨_, rfl, _⟩ := first_unique h1 g1 hl g2 hx
        exact absurd h2 (g3 f)
      · obtain ⟨_, rfl, e⟩ := first_unique h1 g1 hl g2 hx
        have e' := (List.cons.inj (show l2 :: ls = l2' :: ls' from e)).1
        rw [e'] at h2
        exact absurd h2 (g4 f)
    | file pre' hdr' ls' rest' f' hs' ms' g1 g2 g3 g4 =>
      obtain ⟨l, t, rfl, hl⟩ := hp.opens _ _ h2
      obtain ⟨l', t', rfl, hl'⟩ := hp.opens _ _ g2
      obtain ⟨e1, e2, e3⟩ := first_unique h1 g1 hl hl' hx
      obtain ⟨e4, e5⟩ := hp.unique _ _ f f' ls ls' h2 g2 (by rw [e2]; exact congrArg (l' :: ·) e3)
      have e6 : ls = ls' := by
        simp only [List.cons.injEq] at e4
        rw [e4.2] at e3
        exact List.append_cancel_left e3
      subst e6
      obtain ⟨e7, e8⟩ := hH _ _ _ _ _ h3 g3
      rw [e5, e7]
      subst e8
      rw [ih g4]

/-! ### Unified hunks are determined -/

theorem hunkHead_values {l : Str} {x y : Int} {n m : Nat} {f : Str} (h : UnifiedHead l x y n m f) (hn : n ≤ intMax) (hm : m ≤ intMax) :
    ∃ c, reUnifiedHunkHeader.full l = some c ∧ unifiedHeaderValues c = some { a := x, b := y, countA := n, countB := m, function := f } := by
  obtain ⟨a, b, na, nb, t, hl, ha, hb, ht, h1, h2, rfl, rfl, rfl⟩ := h
  have hh : HunkHeaderLine l n m := ⟨a, b, na, nb, t, hl, ha, hb, ht, h1, h2⟩
  have k1 : ∀ (s : Str) (n : Nat), WrittenCount s n → (s = [] ∨ ∃ d, s = ',' :: d ∧ Digits d) := by
    rintro s n (h | ⟨d, h1, h2, _⟩)
    · exact .inl h.1
    · exact .inr ⟨d, h1, h2⟩
  have k2 : ∀ (s : Str) (n : Nat) (x : Int), WrittenCount s n →
      (if s.drop 1 ≠ [] ∧ (n : Int) = 0 then x + 1 else x) = if n = 0 then x + 1 else x := by
    rintro s n x (⟨rfl, rfl⟩ | ⟨d, rfl, hd, rfl⟩)
    · simp
    · simp only [List.drop_succ_cons, List.drop_zero, ne_eq, hd.1, not_false_eq_true, true_and, Int.natCast_eq_zero]
  obtain ⟨c, hc, v1, v3, v4, v6, v7⟩ := hunkHeader_values a b na nb t ha hb (k1 _ _ h1) (k1 _ _ h2) ht
  refine ⟨c, by rw [hl]; simpa using hc, ?_⟩
  unfold unifiedHeaderValues
  simp only [v1, v3, v4, v6, v7, count_value h1, count_value h2, hn, hm, if_true, Bool.true_eq_false, if_false, k2 _ _ _ h1, k2 _ _ _ h2,
    toInt_number ha, toInt_number hb]
  rfl

theorem unifiedHead_line {l : Str} {x y : Int} {n m : Nat} {f : Str} (h : UnifiedHead l x y n m f) : HunkHeaderLine l n m := by
  obtain ⟨a, b, na, nb, t, hl, ha, hb, ht, h1, h2, _⟩ := h
  exact ⟨a, b, na, nb, t, hl, ha, hb, ht, h1, h2⟩

/-- Two ways to read a run of lines with the same first character. -/
theorem run_unique {p : Char} {xs ys : List Str} {r r' : List Str} (h : ∀ l, r.head? = some l → l.head? ≠ some p)
    (h' : ∀ l, r'.head? = some l → l.head? ≠ some p) (e : xs.map (p :: ·) ++ r = ys.map (p :: ·) ++ r') : xs = ys ∧ r = r' := by
  induction xs generalizing ys with
  | nil =>
    cases ys with
    | nil => exact ⟨rfl, by simpa using e⟩
    | cons y ys =>
      simp only [List.map_nil, List.nil_append, List.map_cons, List.cons_append] at e
      exact absurd rfl (h (p :: y) (by rw [e]; rfl))
  | cons x xs ih =>
    cases ys with
    | nil =>
      simp only [List.map_nil, List.nil_append, List.map_cons, List.cons_append] at e
      exact absurd rfl (h' (p :: x) (by rw [← e]; rfl))
    | cons y ys =>
      simp only [List.map_cons, List.cons_append, List.cons.injEq, true_and] at e
      obtain ⟨e1, e2⟩ := ih e.2
      exact ⟨by rw [e.1, e1], e2⟩

theorem separate_head {v : DView} {vs : List DView} (hs : AllSeparate (v :: vs)) (ha : ∀ w ∈ vs, w.SidesAgree) :
    (v.type = .Unchanged → ∀ l, (vs.flatMap DView.unifiedLines).head? = some l → l.head? ≠ some ' ') ∧
    (v.type ≠ .Unchanged → ∀ l, (vs.flatMap DView.unifiedLines).head? = some l → l.head? ≠ some '+') ∧
    (v.type ≠ .Unchanged → v.dst = [] → ∀ l, (vs.flatMap DView.unifiedLines).head? = some l → l.head? ≠ some '-') := by
  cases vs with
  | nil => simp
  | cons w vs =>
    obtain ⟨t, more, e, k1, k2, k3⟩ := unifiedLines_head (ha w (by simp)) (vs.flatMap DView.unifiedLines)
    simp only [List.flatMap_cons, e, List.head?_cons, Option.some.injEq]
    have hsep := hs.1
    unfold DView.Separate at hsep
    refine ⟨?_, ?_, ?_⟩
    · rintro hv l rfl
      rw [if_pos hv] at hsep
      by_cases hw : w.src = []
      · rw [k3 hsep hw]; decide
      · rw [k2 hsep hw]; decide
    · rintro hv l rfl
      rw [if_neg hv] at hsep
      rcases hsep with hw | ⟨_, hw⟩
      · rw [k1 hw]; decide
      · by_cases hu : w.type = .Unchanged
        · rw [k1 hu]; decide
        · rw [k2 hu hw]; decide
    · rintro hv hd l rfl
      rw [if_neg hv] at hsep
      rcases hsep with hw | ⟨hw, _⟩
      · rw [k1 hw]; decide
      · exact absurd hd hw

theorem views_unique {a b : Int} {vs ws : List DView} (hc : Contiguous a b vs) (hc' : Contiguous a b ws)
    (ho : ∀ v ∈ vs, v.Fresh ∧ v.SidesAgree) (ho' : ∀ v ∈ ws, v.Fresh ∧ v.SidesAgree) (hs : AllSeparate vs) (hs' : AllSeparate ws)
    (e : vs.flatMap DView.unifiedLines = ws.flatMap DView.unifiedLines) : vs = ws := by
  induction vs generalizing a b ws with
  | nil =>
    cases ws with
    | nil => rfl
    | cons w ws =>
      obtain ⟨t, more, e', _⟩ := unifiedLines_head (ho' w (by simp)).2 (ws.flatMap DView.unifiedLines)
      simp only [List.flatMap_nil, List.flatMap_cons, e'] at e
      simp at e
  | cons v vs ih =>
    cases ws with
    | nil =>
      obtain ⟨t, more, e', _⟩ := unifiedLines_head (ho v (by simp)).2 (vs.flatMap DView.unifiedLines)
      simp only [List.flatMap_nil, List.flatMap_cons, e'] at e
      simp at e
    | cons w ws =>
      obtain ⟨p1, p2, p3⟩ := separate_head hs (fun x hx => (ho x (by simp [hx])).2)
      obtain ⟨q1, q2, q3⟩ := separate_head hs' (fun x hx => (ho' x (by simp [hx])).2)
      have tail : ∀ us : List DView, ∀ u, AllSeparate (u :: us) → AllSeparate us := by
        intro us u h
        cases us with
        | nil => trivial
        | cons x us => exact h.2
      obtain ⟨t, m, e1, a1, a2, a3⟩ := unifiedLines_head (ho v (by simp)).2 (vs.flatMap DView.unifiedLines)
      obtain ⟨t', m', e2, b1, b2, b3⟩ := unifiedLines_head (ho' w (by simp)).2 (ws.flatMap DView.unifiedLines)
      simp only [List.flatMap_cons] at e
      have et : t = t' := by rw [e1, e2] at e; exact (List.cons.inj e).1
      subst et
      have hty : v.type = .Unchanged ↔ w.type = .Unchanged := by
        constructor
        · intro hv
          apply Decidable.byContradiction
          intro hw
          by_cases hx : w.src = []
          · have := (a1 hv).symm.trans (b3 hw hx); simp at this
          · have := (a1 hv).symm.trans (b2 hw hx); simp at this
        · intro hw
          apply Decidable.byContradiction
          intro hv
          by_cases hx : v.src = []
          · have := (b1 hw).symm.trans (a3 hv hx); simp at this
          · have := (b1 hw).symm.trans (a2 hv hx); simp at this
      have main : v.src = w.src ∧ v.dst = w.dst ∧ v.type = w.type ∧ vs.flatMap DView.unifiedLines = ws.flatMap DView.unifiedLines := by
        have av := (ho v (by simp)).2
        have aw := (ho' w (by simp)).2
        by_cases hv : v.type = .Unchanged
        · have hw := hty.1 hv
          unfold DView.unifiedLines at e
          rw [if_pos hv, if_pos hw] at e
          obtain ⟨r1, r2⟩ := run_unique (p1 hv) (q1 hw) e
          unfold DView.SidesAgree at av aw
          rw [hv] at av; rw [hw] at aw
          exact ⟨r1, by rw [← av.1, ← aw.1, r1], by rw [hv, hw], r2⟩
        · have hw : w.type ≠ .Unchanged := fun h => hv (hty.2 h)
          unfold DView.unifiedLines at e
          rw [if_neg hv, if_neg hw, List.append_assoc, List.append_assoc] at e
          have nx : ∀ (u : DView) (r : List Str), (u.dst = [] → ∀ l, r.head? = some l → l.head? ≠ some '-') →
              ∀ l, (u.dst.map ('+' :: ·) ++ r).head? = some l → l.head? ≠ some '-' := by
            intro u r h l hl
            cases hd : u.dst with
            | nil => rw [hd] at hl; exact h hd l (by simpa using hl)
            | cons x xs => rw [hd] at hl; simp at hl; subst hl; simp
          obtain ⟨r1, r2⟩ := run_unique (nx v _ (p3 hv)) (nx w _ (q3 hw)) e
          obtain ⟨r3, r4⟩ := run_unique (p2 hv) (q2 hw) r2
          refine ⟨r1, r3, ?_, r4⟩
          unfold DView.SidesAgree at av aw
          rw [← r1, ← r3] at aw
          cases hvt : v.type <;> cases hwt : w.type <;> simp_all
      obtain ⟨m1, m2, m3, m4⟩ := main
      obtain ⟨f1, f2, f3, f4⟩ := (ho v (by simp)).1
      obtain ⟨g1, g2, g3, g4⟩ := (ho' w (by simp)).1
      have hvw : v = w := by
        cases v; cases w
        simp only at m1 m2 m3 f1 f2 f3 f4 g1 g2 g3 g4
        have := hc.1; have := hc.2.1; have := hc'.1; have := hc'.2.1
        simp_all
      subst hvw
      rw [ih hc.2.2 hc'.2.2 (fun x hx => ho x (by simp [hx])) (fun x hx => ho' x (by simp [hx])) (tail _ _ hs) (tail _ _ hs') m4]

theorem unifiedShown_det {ls : List Str} {hs hs' : List HView} {r r' : List Str} (h : UnifiedShown ls hs r) (h' : UnifiedShown ls hs' r') :
    hs = hs' ∧ r = r' := by
  induction h generalizing hs' r' with
  | stop ls h1 =>
    cases h' with
    | stop => exact ⟨rfl, rfl⟩
    | skipped l ls n m hs rest g1 => exact absurd ⟨n, m, g1⟩ (h1 l rfl)
    | hunk l ls after n m h hs rest g1 => exact absurd ⟨n, m, unifiedHead_line g1⟩ (h1 l rfl)
  | skipped l ls n m hs rest h1 h2 h3 ih =>
    generalize hx : l :: ls = xs at h'
    cases h' with
    | stop _ g1 => exact absurd ⟨n, m, h1⟩ (g1 l (by rw [← hx]; rfl))
    | skipped l' ls' n' m' hs' rest' g1 g2 g3 =>
      simp only [List.cons.injEq] at hx
      obtain ⟨rfl, rfl⟩ := hx
      exact ih g3
    | hunk l' ls' after n' m' h hs' rest' g1 g2 g3 =>
      simp only [List.cons.injEq] at hx
      obtain ⟨rfl, _⟩ := hx
      have := hunkHeaderLine_det (unifiedHead_line g1) h1 g2 g3
      omega
  | hunk l ls after n m h hs rest h1 h2 h3 h4 h5 h6 h7 h8 ih =>
    generalize hx : l :: (ls ++ after) = xs at h'
    cases h' with
    | stop _ g1 => exact absurd ⟨n, m, unifiedHead_line h1⟩ (g1 l (by rw [← hx]; rfl))
    | skipped l' ls' n' m' hs' rest' g1 g2 g3 =>
      simp only [List.cons.injEq] at hx
      obtain ⟨rfl, _⟩ := hx
      have := hunkHeaderLine_det (unifiedHead_line h1) g1 h2 h3
      omega
    | hunk l' ls' after' n' m' h' hs' rest' g1 g2 g3 g4 g5 g6 g7 g8 =>
      simp only [List.cons.injEq] at hx
      obtain ⟨rfl, hx⟩ := hx
      obtain ⟨c, c1, c2⟩ := hunkHead_values h1 h2 h3
      obtain ⟨c', c1', c2'⟩ := hunkHead_values g1 g2 g3
      rw [c1] at c1'
      simp only [Option.some.injEq] at c1'
      subst c1'
      rw [c2] at c2'
      simp only [Option.some.injEq, UHeader.mk.injEq] at c2'
      obtain ⟨e1, e2, e3, e4, e5⟩ := c2'
      have en : n = n' := by omega
      have em : m = m' := by omega
      subst en em
      rw [← hx] at g4
      have ea := unifiedBody_det h4 g4
      subst ea
      have el : ls = ls' := List.append_cancel_right hx
      subst el
      have hv : h.diffs = h'.diffs := by
        refine views_unique h7.2.1 (by rw [e1, e2]; exact g7.2.1) h7.2.2 g7.2.2 h6 g6 (by rw [← h5, ← g5])
      have hh : h = h' := by
        have t1 := h7.1; have t2 := g7.1
        cases h; cases h'
        simp only at e1 e2 e5 hv t1 t2
        simp [e1, e2, e5, hv, t1, t2]
      subst hh
      obtain ⟨i1, i2⟩ := ih g8
      exact ⟨by rw [i1], i2⟩

end KompareDiff2

namespace KompareDiff2
open Spec Re

/-! ### Headers are determined -/

theorem stamped_det1 {l n n' t t' : Str} (h : StampedLine "--- " l n t) (h' : StampedLine "--- " l n' t') : n = n' ∧ t = t' := by
  have key : ∀ n t, StampedLine "--- " l n t → ∃ c, reUnifiedHeader1.full l = some c ∧ c.get 1 = n ∧ c.get 2 = t := by
    rintro n t ⟨tail, rfl, h1, h2, h3⟩
    obtain ⟨c, e, e1, e2, _⟩ := stampedTail_match n t tail h1 h2 h3
    refine ⟨c, ?_, e1, e2⟩
    rw [reUnifiedHeader1, List.append_assoc, List.append_assoc, full_seq_text, ← List.append_assoc, e]
  obtain ⟨c, e, rfl, rfl⟩ := key _ _ h
  obtain ⟨c', e', rfl, rfl⟩ := key _ _ h'
  rw [e] at e'
  simp only [Option.some.injEq] at e'
  rw [e']; exact ⟨rfl, rfl⟩

theorem stamped_det2 {l n n' t t' : Str} (h : StampedLine "+++ " l n t) (h' : StampedLine "+++ " l n' t') : n = n' ∧ t = t' := by
  have key : ∀ n t, StampedLine "+++ " l n t → ∃ c, reUnifiedHeader2.full l = some c ∧ c.get 1 = n ∧ c.get 2 = t := by
    rintro n t ⟨tail, rfl, h1, h2, h3⟩
    obtain ⟨c, e, e1, e2, _⟩ := stampedTail_match n t tail h1 h2 h3
    refine ⟨c, ?_, e1, e2⟩
    rw [reUnifiedHeader2, List.append_assoc, List.append_assoc, full_seq_text, ← List.append_assoc, e]
  obtain ⟨c, e, rfl, rfl⟩ := key _ _ h
  obtain ⟨c', e', rfl, rfl⟩ := key _ _ h'
  rw [e] at e'
  simp only [Option.some.injEq] at e'
  rw [e']; exact ⟨rfl, rfl⟩

theorem perforceLine_det {l s s' t t' : Str} (h : PerforceLine l s t) (h' : PerforceLine l s' t') : s = s' ∧ t = t' := by
  obtain ⟨e, _, _, hm⟩ := h
  obtain ⟨e', _, _, hm'⟩ := h'
  have hl : s.length = s'.length := Nat.le_antisymm (hm _ _ e') (hm' _ _ e)
  rw [e] at e'
  simp only [List.append_assoc] at e'
  obtain ⟨e1, e2⟩ := List.append_inj (List.append_cancel_left e') hl
  exact ⟨e1, (List.append_inj' (List.append_cancel_left e2) rfl).1⟩

theorem hash_line {s t : Str} {s1 s2 : Str} (h : '#' ∉ s) (h' : '#' ∉ t) (e : s ++ '#' :: s1 = t ++ '#' :: s2) : s = t ∧ s1 = s2 := by
  induction s generalizing t with
  | nil =>
    cases t with
    | nil => simpa using e
    | cons x t => simp only [List.nil_append, List.cons_append, List.cons.injEq] at e; exact absurd (by rw [← e.1]; simp) h'
  | cons x s ih =>
    cases t with
    | nil => simp only [List.nil_append, List.cons_append, List.cons.injEq] at e; exact absurd (by rw [e.1]; simp) h
    | cons y t =>
      simp only [List.cons_append, List.cons.injEq] at e
      simp only [List.mem_cons, not_or] at h h'
      obtain ⟨e1, e2⟩ := ih h.2 h'.2 e.2
      exact ⟨by rw [e.1, e1], e2⟩

theorem perforceName_det {b : Bool} {s n n' : Str} (h : PerforceName b s n) (h' : PerforceName b s n') : n = n' := by
  rcases h with ⟨d, h1, h2, h3, h4⟩ | ⟨h1, h2⟩ <;> rcases h' with ⟨d', g1, g2, g3, g4⟩ | ⟨g1, g2⟩
  · exact (hash_line h3 g3 (h1.symm.trans g1)).1
  · exact absurd ⟨n, d, h1, h2, h3, h4⟩ g2
  · exact absurd ⟨n', d', g1, g2, g3, g4⟩ h2
  · rw [h1, g1]

theorem perforceForm_proper : perforceForm.Proper where
  opens := by
    rintro hdr f ⟨l, s, t, rfl, ⟨h1, h2, h3, _⟩, _⟩
    exact ⟨l, [], rfl, s, t, h1, h2, h3⟩
  short := by
    rintro hdr f ⟨l, s, t, rfl, _⟩
    simp
  unique := by
    rintro hdr hdr' f f' ls ls' ⟨l, s, t, rfl, h1, h2, h3, h4, h5⟩ ⟨l', s', t', rfl, g1, g2, g3, g4, g5⟩ e
    simp only [List.cons_append, List.nil_append, List.cons.injEq] at e
    obtain ⟨rfl, _⟩ := e
    obtain ⟨rfl, rfl⟩ := perforceLine_det h1 g1
    refine ⟨rfl, ?_⟩
    have e1 := perforceName_det h2 g2
    have e2 := perforceName_det h3 g3
    cases f; cases f'
    simp only at *
    simp [e1, e2, h4, h5, g4, g5]

theorem unifiedForm_proper (unesc : Str → Str) (g : Generator) : (unifiedForm unesc g).Proper := by
  have key : Spec.FileForm.Proper { first := UnifiedHeaderLine "--- ", header := fun hdr f => ∃ l1 l2 s t, hdr = [l1, l2] ∧ StampedLine "--- " l1 s f.sourceTimestamp ∧ StampedLine "+++ " l2 t f.destinationTimestamp ∧ f.source = unesc s ∧ f.destination = unesc t } := by
    refine ⟨?_, ?_, ?_⟩
    · rintro hdr f ⟨l1, l2, s, t, rfl, h1, _⟩
      exact ⟨l1, [l2], rfl, (stamped_iff _ _).2 ⟨_, _, h1⟩⟩
    · rintro hdr f ⟨l1, l2, s, t, rfl, _⟩
      simp
    · rintro hdr hdr' f f' ls ls' ⟨l1, l2, s, t, rfl, h1, h2, h3, h4⟩ ⟨l1', l2', s', t', rfl, g1, g2, g3, g4⟩ e
      simp only [List.cons_append, List.nil_append, List.cons.injEq] at e
      obtain ⟨rfl, rfl, _⟩ := e
      obtain ⟨rfl, e1⟩ := stamped_det1 h1 g1
      obtain ⟨rfl, e2⟩ := stamped_det2 h2 g2
      refine ⟨rfl, ?_⟩
      cases f; cases f'
      simp only at *
      simp [e1, e2, h3, h4, g3, g4]
  cases g with
  | Perforce => exact perforceForm_proper
  | Diff => exact key
  | CVSDiff => exact key

end KompareDiff2
