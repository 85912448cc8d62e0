import Verif.Spec.ShownContext
import Verif.Proofs.ShownHunks
import Verif.Proofs.ContextFile
/-
What the parser shows of arbitrary lines: headers of the context format.
-/
namespace KompareDiff2
open Spec Re

/-! ### Headers -/

theorem dated_iff (pre : String) (l : Str) : ContextHeaderLine pre l ↔ ∃ name ts, DatedLine pre l name ts := by
  constructor
  · rintro ⟨name, tail, rfl, h1, h2, rfl | ⟨ts, rfl, h3, h4⟩⟩
    · exact ⟨name, [], [], rfl, h1, h2, .inl ⟨rfl, rfl⟩⟩
    · exact ⟨name, ts, _, rfl, h1, h2, .inr ⟨rfl, h3, h4⟩⟩
  · rintro ⟨name, ts, tail, rfl, h1, h2, ⟨rfl, _⟩ | ⟨rfl, h3, h4⟩⟩
    · exact ⟨name, [], rfl, h1, h2, .inl rfl⟩
    · exact ⟨name, _, rfl, h1, h2, .inr ⟨ts, rfl, h3, h4⟩⟩

theorem dated_full {pre : String} {l : Str} {c : Caps} (h : (reContextDiffHeader pre).full l = some c) :
    DatedLine pre l (c.get 1) (c.get 3) ∧ c.get 5 = [] := by
  have hl : (reContextDiffHeader pre).Lang l := by rw [← Re.full_isSome, h]; rfl
  obtain ⟨name, ts, tail, rfl, h1, h2, h3⟩ := (dated_iff _ _).1 ((contextHeader_lang pre l).1 hl)
  have key : ∃ c', (reContextDiffHeader pre).full (str pre ++ name ++ tail ++ ['\n']) = some c' ∧ c'.get 1 = name ∧ c'.get 3 = ts ∧ c'.get 5 = [] := by
    rw [List.append_assoc, List.append_assoc]
    unfold reContextDiffHeader Re.full
    rw [m_cat_cons, m_text_append, m_cat_cons, m_grp]
    rcases h3 with ⟨rfl, rfl⟩ | ⟨rfl, k1, k2⟩
    · refine ⟨[(1, name)], ?_, rfl, rfl, rfl⟩
      rw [List.nil_append]
      refine m_noTab_newline _ _ _ _ h1 h2 ?_ ?_
      · simp
      · rw [take_len]; simp
    · refine ⟨[(2, '\t' :: ts), (3, ts), (1, name)], ?_, rfl, rfl, rfl⟩
      rw [List.cons_append]
      refine m_noTab_tab _ _ _ _ _ h1 h2 ?_
      rw [take_len, m_cat_cons, m_opt, m_grp, m_seq, m_lit_cons, if_pos rfl, m_grp]
      rw [m_noTab_newline ts _ _ _ k1 k2]
      · rfl
      · simp
      · have e1 : (ts ++ ['\n']).take ((ts ++ ['\n']).length - ['\n'].length) = ts := take_len ts ['\n']
        have e2 : ('\t' :: (ts ++ ['\n'])).take (('\t' :: (ts ++ ['\n'])).length - ['\n'].length) = '\t' :: ts := take_len ('\t' :: ts) ['\n']
        rw [e1, e2]; rfl
  obtain ⟨c', e, e1, e2, e3⟩ := key
  rw [e] at h
  simp only [Option.some.injEq] at h
  subst h
  rw [e1, e2]
  exact ⟨⟨tail, rfl, h1, h2, h3⟩, e3⟩

theorem cvs1_full {l : Str} {c : Caps} (h : reContextDiffHeader1Cvs.full l = some c) : CvsLine1 l (c.get 1) (c.get 3) ∧ c.get 5 = [] := by
  have hl : reContextDiffHeader1Cvs.Lang l := by rw [← Re.full_isSome, h]; rfl
  obtain ⟨name, ts, r, rfl, h1, h2, h3, h4, h5⟩ := (cvsHeader1_lang l).1 hl
  have key : reContextDiffHeader1Cvs.full (str "*** " ++ name ++ '\t' :: ts ++ '\t' :: r ++ ['\n']) = some [(3, r), (2, ts), (1, name)] := by
    rw [show str "*** " ++ name ++ '\t' :: ts ++ '\t' :: r ++ ['\n'] = str "*** " ++ (name ++ '\t' :: (ts ++ '\t' :: (r ++ ['\n']))) by simp]
    unfold reContextDiffHeader1Cvs Re.full
    rw [m_cat_cons, m_text_append, m_cat_cons, m_grp]
    refine m_noTab_tab _ _ _ _ _ h1 h2 ?_
    rw [take_len, m_cat_cons, m_lit_cons, if_pos rfl, m_cat_cons, m_grp]
    refine m_noTab_tab _ _ _ _ _ h3 h4 ?_
    rw [take_len, m_cat_cons, m_lit_cons, if_pos rfl, m_cat_cons]
    exact dotLit_newline 3 r _ h5
  rw [key] at h
  simp only [Option.some.injEq] at h
  subst h
  exact ⟨⟨ts, rfl, h1, h2, h3, h4, h5⟩, rfl⟩

theorem cvs2_full {l : Str} {c : Caps} (h : reContextDiffHeader2Cvs.full l = some c) : CvsLine2 l (c.get 1) (c.get 3) ∧ c.get 5 = [] := by
  have hl : reContextDiffHeader2Cvs.Lang l := by rw [← Re.full_isSome, h]; rfl
  obtain ⟨name, ts, rev, rfl, h1, h2, h3, h4, h5⟩ := (cvsHeader2_lang l).1 hl
  have key : ∃ c', reContextDiffHeader2Cvs.full (str "--- " ++ name ++ '\t' :: ts ++ rev ++ ['\n']) = some c' ∧ c'.get 1 = name ∧ c'.get 3 = rev ∧ c'.get 5 = [] := by
    rw [show str "--- " ++ name ++ '\t' :: ts ++ rev ++ ['\n'] = str "--- " ++ (name ++ '\t' :: (ts ++ (rev ++ ['\n']))) by simp]
    unfold reContextDiffHeader2Cvs Re.full
    rw [m_cat_cons, m_text_append, m_cat_cons, m_grp]
    rcases h5 with rfl | ⟨r, rfl, hd⟩
    · refine ⟨[(3, []), (2, ts), (1, name)], ?_, rfl, rfl, rfl⟩
      rw [List.nil_append]
      refine m_noTab_tab _ _ _ _ _ h1 h2 ?_
      rw [take_len, m_cat_cons, m_lit_cons, if_pos rfl, m_cat_cons, m_grp]
      refine m_noTab_newline _ _ _ _ h3 h4 ?_ ?_
      · simp [m_alt]
      · rw [take_len]; simp [m_alt]
    · refine ⟨[(3, '\t' :: r), (4, r), (2, ts), (1, name)], ?_, rfl, rfl, rfl⟩
      rw [List.cons_append]
      refine m_noTab_tab _ _ _ _ _ h1 h2 ?_
      rw [take_len, m_cat_cons, m_lit_cons, if_pos rfl, m_cat_cons, m_grp]
      refine m_noTab_tab _ _ _ _ _ h3 h4 ?_
      rw [take_len, m_cat_cons, m_grp, m_alt, m_eps, m_cat_one, m_lit_cons, if_neg (by decide), m_seq, m_lit_cons, if_pos rfl, m_grp]
      simp only [Option.none_or]
      rw [dot, m_many_chr]
      refine greedy_run (dot_ok hd) ?_ ?_
      · intro y hy; simp only [List.head?_cons, Option.some.injEq] at hy; subst hy; decide
      · have e1 : (r ++ ['\n']).take ((r ++ ['\n']).length - ['\n'].length) = r := take_len r ['\n']
        have e2 : ('\t' :: (r ++ ['\n'])).take (('\t' :: (r ++ ['\n'])).length - ['\n'].length) = '\t' :: r := take_len ('\t' :: r) ['\n']
        rw [e1, e2]; rfl
  obtain ⟨c', e, e1, e2, e3⟩ := key
  rw [e] at h
  simp only [Option.some.injEq] at h
  subst h
  rw [e1, e2]
  exact ⟨⟨ts, rfl, h1, h2, h3, h4, h5⟩, e3⟩

theorem context_header_shows {win : Bool} {g : Generator} {st st' : PState} (h : parseContextDiffHeader win g st = Res.ok (st', true)) :
    HeaderShows (contextForm (unescapePath win) g) st st' true := by
  unfold parseContextDiffHeader at h
  cases g with
  | Perforce =>
    simp only [Res.ok.injEq] at h
    exact p4_header_shows h
  | Diff =>
    obtain ⟨k1, k2⟩ := twoLine_shown (o := contextForm (unescapePath win) .Diff) (fun _ _ => newModel_blank _ _ _ _ _ _)
      (fun l => contextHeader_lang "*** " l) (by
        intro l1 l2 c1 c2 h1 h2
        obtain ⟨s1, s2⟩ := dated_full h1
        obtain ⟨t1, t2⟩ := dated_full h2
        refine ⟨{ source := unescapePath win (c1.get 1), destination := unescapePath win (c2.get 1), sourceTimestamp := c1.get 3, destinationTimestamp := c2.get 3 }, ?_, ?_⟩
        · exact ⟨l1, l2, _, _, rfl, s1, t1, rfl, rfl⟩
        · intro h
          rw [s2, t2]
          rfl) _ h
    exact ⟨k1, fun _ => k2⟩
  | CVSDiff =>
    obtain ⟨k1, k2⟩ := twoLine_shown (o := contextForm (unescapePath win) .CVSDiff) (fun _ _ => newModel_blank _ _ _ _ _ _)
      (fun l => cvsHeader1_lang l) (by
        intro l1 l2 c1 c2 h1 h2
        obtain ⟨s1, s2⟩ := cvs1_full h1
        obtain ⟨t1, t2⟩ := cvs2_full h2
        refine ⟨{ source := unescapePath win (c1.get 1), destination := unescapePath win (c2.get 1), sourceTimestamp := c1.get 3, destinationTimestamp := c2.get 3 }, ?_, ?_⟩
        · exact ⟨l1, l2, _, _, rfl, s1, t1, rfl, rfl⟩
        · intro h
          rw [s2, t2]
          rfl) _ h
    exact ⟨k1, fun _ => k2⟩

theorem context_header_hidden {win : Bool} {g : Generator} {H : List Str → List HView → List Str → Prop} {st st' : PState}
    (h : parseContextDiffHeader win g st = Res.ok (st', false)) : ShowsFiles (contextForm (unescapePath win) g) H st.rest [] := by
  unfold parseContextDiffHeader at h
  cases g with
  | Perforce =>
    simp only [Res.ok.injEq] at h
    exact .finished _ (p4_hidden (st := st) _ (by rw [h]))
  | Diff =>
    refine twoLine_hidden (fun l => contextHeader_lang "*** " l) ?_ ?_ _ h
    · rintro l f ⟨_, _, _, _, e, _⟩
      simp at e
    · rintro l1 l2 f ⟨_, _, _, t, e, _, ht, _⟩
      simp only [List.cons.injEq, and_true] at e
      rw [e.2]
      exact (contextHeader_lang _ _).2 ((dated_iff _ _).2 ⟨_, _, ht⟩)
  | CVSDiff =>
    refine twoLine_hidden (fun l => cvsHeader1_lang l) ?_ ?_ _ h
    · rintro l f ⟨_, _, _, _, e, _⟩
      simp at e
    · rintro l1 l2 f ⟨_, _, _, t, e, _, ⟨ts, ht⟩, _⟩
      simp only [List.cons.injEq, and_true] at e
      rw [e.2]
      exact (cvsHeader2_lang _).2 ⟨_, ts, _, ht⟩

/-! ### The heads of a hunk -/

theorem star_full {l : Str} {c : Caps} (h : reContextHunkHeader1.full l = some c) : StarHead l (c.get 1) := by
  have hl : reContextHunkHeader1.Lang l := by rw [← Re.full_isSome, h]; rfl
  obtain ⟨t, rfl, ht⟩ := (starLine_lang l).1 hl
  have key : ∃ c', reContextHunkHeader1.full (List.replicate 15 '*' ++ t ++ ['\n']) = some c' ∧ c'.get 1 = afterSpace t := by
    unfold reContextHunkHeader1 Re.full afterSpace
    rw [List.append_assoc, m_cat_cons, m_text_append, m_cat_cons, m_opt]
    cases t with
    | nil =>
      have hd := dotLit_newline 1 [] [] (by simp)
      simp only [List.nil_append] at hd
      refine ⟨[(1, [])], ?_, rfl⟩
      simp only [List.nil_append, m_lit_cons, m_cat_cons, m_cat_one, hd]
      simp
    | cons x t =>
      simp only [List.mem_cons, not_or] at ht
      by_cases hx : x = ' '
      · have hd := dotLit_newline 1 t [] ht.2
        refine ⟨[(1, t)], ?_, by simp [hx]; rfl⟩
        simp only [List.cons_append, m_lit_cons, hx, if_true, m_cat_cons, m_cat_one, hd, Option.some_or]
      · have hd := dotLit_newline 1 (x :: t) [] (by simp [ht.1, ht.2])
        simp only [List.cons_append] at hd
        refine ⟨[(1, x :: t)], ?_, by simp [hx]; rfl⟩
        simp only [List.cons_append, m_lit_cons, hx, if_false, m_cat_cons, m_cat_one, hd, Option.none_or]
  obtain ⟨c', e, e1⟩ := key
  rw [e] at h
  simp only [Option.some.injEq] at h
  subst h
  exact ⟨t, rfl, ht, e1⟩

theorem oldHead_full {l : Str} {c : Caps} (h : reContextHunkHeader2.full l = some c) : OldHead l (toInt (c.get 1)) := by
  have hl : reContextHunkHeader2.Lang l := by rw [← Re.full_isSome, h]; rfl
  obtain ⟨a, b, t, rfl, ha, hb, ht⟩ := (oldRange_lang l).1 hl
  have hc : reContextHunkHeader2.full (str "*** " ++ a ++ ',' :: b ++ str " ****" ++ t ++ ['\n']) = some [(2, b), (1, a)] := by
    rw [show str "*** " ++ a ++ ',' :: b ++ str " ****" ++ t ++ ['\n'] = str "*** " ++ (a ++ (',' :: (b ++ (str " ****" ++ (t ++ ['\n']))))) by simp]
    unfold reContextHunkHeader2 Re.full
    rw [m_cat_cons, m_text_append, m_cat_cons, m_grp]
    refine m_digits a _ _ _ _ ha.2 ha.1 ?_ ?_
    · intro x hx; simp only [List.head?_cons, Option.some.injEq] at hx; subst hx; decide
    rw [take_len, m_cat_cons, m_lit_cons, if_pos rfl, m_cat_cons, m_grp]
    refine m_digits b _ _ _ _ hb.2 hb.1 ?_ ?_
    · intro x hx; simp [str] at hx; subst hx; decide
    rw [take_len, m_cat_cons, m_text_append, m_cat_cons, dot, m_many_chr]
    simp only [m_cat_one]
    refine greedy_run (fun y hy => by
      have : y ≠ '\n' := fun e => ht (e ▸ hy)
      simpa using this) ?_ ?_
    · intro y hy; simp only [List.head?_cons, Option.some.injEq] at hy; subst hy; decide
    · simp [m_lit_cons, endK]
  rw [hc] at h
  cases h
  exact ⟨a, b, t, rfl, ha, hb, ht, toInt_number ha⟩

theorem newHead_full {l : Str} {c : Caps} (h : reContextHunkHeader3.full l = some c) : NewHead l (toInt (c.get 1)) := by
  have hl : reContextHunkHeader3.Lang l := by rw [← Re.full_isSome, h]; rfl
  obtain ⟨a, b, rfl, ha, hb⟩ := (newRange_lang l).1 hl
  obtain ⟨c', e, e1⟩ := newRange_match a b ha hb
  rw [show str "--- " ++ a ++ ',' :: b ++ str " ----\n" = str "--- " ++ (a ++ ',' :: b) ++ str " ----\n" by simp] at h
  rw [e] at h
  simp only [Option.some.injEq] at h
  subst h
  rw [e1]
  exact ⟨a, b, by simp, ha, hb, toInt_number ha⟩

/-! ### Runs of marked lines -/

theorem marked_full {p : Char → Bool} {m : Char} (hp : ∀ x, p x = true ↔ x = m) {l : Str} {c : Caps} (h : (reBody p).full l = some c) :
    l = markedLine m (c.get 1) ∧ '\n' ∉ c.get 1 := by
  obtain ⟨x, t, hx, ht, rfl, rfl⟩ := reBody_full.1 h
  have := (hp x).1 hx
  subst this
  exact ⟨rfl, ht⟩

theorem unmarked_full {p : Char → Bool} {m : Char} (hp : ∀ x, p x = true ↔ x = m) {l : Str} (h : (reBody p).full l = none) (ls : List Str) :
    ∀ t more, '\n' ∉ t → l :: ls ≠ markedLine m t :: more := by
  intro t more ht e
  simp only [List.cons.injEq] at e
  rw [e.1, full_marked p m t ((hp m).2 rfl) ht] at h
  cases h

theorem captureRun_run {p : Char → Bool} {m : Char} (hp : ∀ x, p x = true ↔ x = m) (ls : List Str) :
    MarkedRun m ls (captureRun (reBody p) ls).1 (captureRun (reBody p) ls).2 := by
  induction ls with
  | nil => exact ⟨rfl, by simp [captureRun], by simp [captureRun]⟩
  | cons l ls ih =>
    unfold captureRun
    cases hf : (reBody p).full l with
    | none => exact ⟨rfl, by simp, unmarked_full hp hf ls⟩
    | some c =>
      obtain ⟨e1, e2⟩ := marked_full hp hf
      obtain ⟨i1, i2, i3⟩ := ih
      refine ⟨?_, ?_, i3⟩
      · simp only [List.map_cons, List.cons_append]
        rw [← i1, ← e1]
      · intro t ht
        rcases List.mem_cons.1 ht with rfl | ht
        · exact e2
        · exact i2 t ht

theorem notStarts_run {p : Char → Bool} {m : Char} (hp : ∀ x, p x = true ↔ x = m) {ls : List Str} (h : ¬ startsRe (reBody p) ls = true) :
    MarkedRun m ls [] ls := by
  refine ⟨rfl, by simp, ?_⟩
  cases ls with
  | nil => simp
  | cons l ls =>
    refine unmarked_full hp ?_ ls
    cases hf : (reBody p).full l with
    | none => rfl
    | some c => exact absurd (by simp [startsRe, hf]) h

theorem isMark (m : Char) (x : Char) : (fun x => decide (x = m)) x = true ↔ x = m := by simp

theorem contextText_shown {l : Str} (h : (reContextContext.full l).isSome = true) : l = markedLine ' ' (contextText l) ∧ '\n' ∉ contextText l := by
  obtain ⟨c, hc⟩ := Option.isSome_iff_exists.1 h
  unfold contextText
  rw [hc]
  exact marked_full (isMark ' ') hc

theorem not_endOrContext {ls : List Str} (h : ¬ endOrContext ls = true) : ls ≠ [] ∧ ∀ t more, '\n' ∉ t → ls ≠ markedLine ' ' t :: more := by
  cases ls with
  | nil => simp [endOrContext] at h
  | cons l ls =>
    refine ⟨by simp, unmarked_full (isMark ' ') ?_ ls⟩
    cases hf : reContextContext.full l with
    | none => exact hf
    | some c => exact absurd (by simp [endOrContext, hf]) h

theorem contextUnchanged_run (n : Nat) (os ns : List Str) (hn : os.length + ns.length ≤ n) :
    PlainRun os ns (contextUnchanged n os ns).1 (contextUnchanged n os ns).2.1 (contextUnchanged n os ns).2.2 := by
  induction n generalizing os ns with
  | zero =>
    have h1 : os = [] := List.length_eq_zero_iff.1 (by omega)
    have h2 : ns = [] := List.length_eq_zero_iff.1 (by omega)
    subst h1 h2
    exact ⟨[], [], rfl, rfl, by simp, rfl, by simp, by simp, .inl ⟨rfl, rfl⟩⟩
  | succ n ih =>
    unfold contextUnchanged
    split
    · rename_i hc
      obtain ⟨c1, c2, c3⟩ := hc
      simp only
      cases os with
      | nil =>
        cases ns with
        | nil => simp at c3
        | cons y ns =>
          obtain ⟨e1, e2⟩ := contextText_shown (l := y) c2
          obtain ⟨oc, nc, i1, i2, i3, i4, i5, i6, i7⟩ := ih [] ns (by simp at hn ⊢; omega)
          simp only [List.drop_succ_cons, List.drop_zero, List.drop_nil]
          have ho : oc = [] := by
            cases oc with
            | nil => rfl
            | cons a oc => simp at i1
          subst ho
          refine ⟨[], contextText y :: nc, i1, ?_, ?_, ?_, ?_, by simp, i7⟩
          · simp only [List.map_cons, List.cons_append]; rw [← i2, ← e1]
          · intro t ht
            simp only [List.nil_append, List.mem_cons] at ht i3
            rcases ht with rfl | ht
            · exact e2
            · exact i3 t ht
          · rw [i4]; simp
          · intro _
            simpa using i1
      | cons x os =>
        cases ns with
        | nil =>
          obtain ⟨e1, e2⟩ := contextText_shown (l := x) c1
          obtain ⟨oc, nc, i1, i2, i3, i4, i5, i6, i7⟩ := ih os [] (by simp at hn ⊢; omega)
          simp only [List.drop_succ_cons, List.drop_zero, List.drop_nil]
          have ho : nc = [] := by
            cases nc with
            | nil => rfl
            | cons a oc => simp at i2
          subst ho
          refine ⟨contextText x :: oc, [], ?_, i2, ?_, ?_, by simp, ?_, i7⟩
          · simp only [List.map_cons, List.cons_append]; rw [← i1, ← e1]
          · intro t ht
            simp only [List.append_nil, List.mem_cons] at ht i3
            rcases ht with rfl | ht
            · exact e2
            · exact i3 t ht
          · rw [i4]; simp
          · intro _
            simpa using i2
        | cons y ns =>
          obtain ⟨e1, e2⟩ := contextText_shown (l := x) c1
          obtain ⟨f1, f2⟩ := contextText_shown (l := y) c2
          obtain ⟨oc, nc, i1, i2, i3, i4, i5, i6, i7⟩ := ih os ns (by simp at hn ⊢; omega)
          simp only [List.drop_succ_cons, List.drop_zero]
          refine ⟨contextText x :: oc, contextText y :: nc, ?_, ?_, ?_, ?_, ?_, ?_, i7⟩
          · simp only [List.map_cons, List.cons_append]; rw [← i1, ← e1]
          · simp only [List.map_cons, List.cons_append]; rw [← i2, ← f1]
          · intro t ht
            simp only [List.cons_append, List.mem_cons, List.mem_append] at ht i3
            rcases ht with rfl | ht | rfl | ht
            · exact e2
            · exact i3 t (.inl ht)
            · exact f2
            · exact i3 t (.inr ht)
          · rw [i4]; simp
          · intro h; exact i5 (by simp at h; omega)
          · intro h; exact i6 (by simp at h; omega)
    · rename_i hc
      refine ⟨[], [], rfl, rfl, by simp, rfl, by simp, by simp, ?_⟩
      by_cases h0 : os = [] ∧ ns = []
      · exact .inl h0
      · have h0 : os ≠ [] ∨ ns ≠ [] := by
          by_cases h : os = []
          · exact .inr (fun e => h0 ⟨h, e⟩)
          · exact .inl h
        by_cases h1 : endOrContext os = true
        · exact .inr (.inr (not_endOrContext (fun h2 => hc ⟨h1, h2, h0⟩)))
        · exact .inr (.inl (not_endOrContext h1))

/-! ### The body -/

theorem contextStep_paired {os ns : List Str} {a b : Int} {r} {vs : List DView} (hne : os ≠ [] ∨ ns ≠ []) (h : contextStep os ns a b = Res.ok (some r))
    (hp : Paired r.2.1 r.2.2 vs) : Paired os ns (r.1.1.view :: vs) := by
  unfold contextStep at h
  split at h
  · rename_i h1
    simp only [Res.bind_eq_ok, Res.ok.injEq, Option.some.injEq] at h
    obtain ⟨d, hd, h⟩ := h
    rw [← h] at hp ⊢
    have hv := determineInline_view hd
    have hb := built_view a b .Delete (captureRun reContextRemoved os).1 []
    rw [List.foldl_nil] at hb
    rw [hb] at hv
    simp only at hp ⊢
    rw [hv]
    exact .removed _ _ _ _ _ (captureRun_run (isMark '-') os) rfl (startsRe_run h1) rfl hp
  · rename_i n1
    have n1 := notStarts_run (isMark '-') n1
    split at h
    · rename_i h1
      simp only [Res.bind_eq_ok, Res.ok.injEq, Option.some.injEq] at h
      obtain ⟨d, hd, h⟩ := h
      rw [← h] at hp ⊢
      have hv := determineInline_view hd
      have hb := built_view a b .Insert [] (captureRun reContextAdded ns).1
      rw [List.foldl_nil] at hb
      rw [hb] at hv
      simp only at hp ⊢
      rw [hv]
      exact .added _ _ _ _ _ n1 (captureRun_run (isMark '+') ns) rfl (startsRe_run h1) rfl hp
    · rename_i n2
      have n2 := notStarts_run (isMark '+') n2
      split at h
      · rename_i h1
        simp only [Res.bind_eq_ok, Res.ok.injEq, Option.some.injEq] at h
        obtain ⟨d, hd, h⟩ := h
        rw [← h] at hp ⊢
        have hv := determineInline_view hd
        have hb := both_view a b .Unchanged (contextUnchanged (os.length + ns.length) os ns).1
        rw [hb] at hv
        simp only at hp ⊢
        rw [hv]
        refine .unchanged _ _ _ _ _ _ (contextUnchanged_run _ os ns (Nat.le_refl _)) rfl (contextUnchanged_ne h1.1 h1.2 hne ?_) rfl hp
        rcases hne with h | h <;> have := List.length_pos_iff.2 h <;> omega
      · split at h
        · rename_i h1
          simp only [Res.bind_eq_ok, Res.ok.injEq, Option.some.injEq] at h
          obtain ⟨d, hd, h⟩ := h
          rw [← h] at hp ⊢
          have hv := determineInline_view hd
          have hb := built_view a b .Change (captureRun reContextChanged os).1 (captureRun reContextChanged ns).1
          rw [hb] at hv
          simp only at hp ⊢
          rw [hv]
          refine .changed _ _ _ _ _ _ n1 n2 (captureRun_run (isMark '!') os) (captureRun_run (isMark '!') ns) rfl ?_ hp
          exact h1.imp startsRe_run startsRe_run
        · simp at h

theorem contextStep_lost {os ns : List Str} {a b : Int} (hne : os ≠ [] ∨ ns ≠ []) (h : contextStep os ns a b = Res.ok none) : Paired os ns [] := by
  unfold contextStep at h
  split at h
  · simp only [Res.bind_eq_ok, Res.ok.injEq] at h
    obtain ⟨_, _, h⟩ := h
    cases h
  · rename_i n1
    split at h
    · simp only [Res.bind_eq_ok, Res.ok.injEq] at h
      obtain ⟨_, _, h⟩ := h
      cases h
    · rename_i n2
      split at h
      · simp only [Res.bind_eq_ok, Res.ok.injEq] at h
        obtain ⟨_, _, h⟩ := h
        cases h
      · rename_i n3
        split at h
        · simp only [Res.bind_eq_ok, Res.ok.injEq] at h
          obtain ⟨_, _, h⟩ := h
          cases h
        · rename_i n4
          refine .lost _ _ hne (notStarts_run (isMark '-') n1) (notStarts_run (isMark '+') n2) ?_ (notStarts_run (isMark '!') (fun e => n4 (.inl e)))
            (notStarts_run (isMark '!') (fun e => n4 (.inr e)))
          refine ⟨[], [], rfl, rfl, by simp, rfl, by simp, by simp, ?_⟩
          by_cases h1 : endOrContext os = true
          · exact .inr (.inr (not_endOrContext (fun h2 => n3 ⟨h1, h2⟩)))
          · exact .inr (.inl (not_endOrContext h1))

theorem contextBody_paired {n : Nat} {os ns : List Str} {a b : Int} {r} (h : contextBodyLoop n os ns a b = Res.ok r) :
    Paired os ns (r.1.map (fun e => e.1.view)) := by
  induction n generalizing os ns a b r with
  | zero => simp [contextBodyLoop] at h
  | succ n ih =>
    simp only [contextBodyLoop] at h
    split at h
    · rename_i h0
      simp only [Res.ok.injEq] at h
      rw [← h, h0.1, h0.2]
      exact .done
    · rename_i h0
      have hne : os ≠ [] ∨ ns ≠ [] := by
        by_cases h : os = []
        · exact .inr (fun e => h0 ⟨h, e⟩)
        · exact .inl h
      obtain ⟨s, hs, h⟩ := Res.bind_eq_ok.1 h
      cases s with
      | none =>
        simp only [Res.ok.injEq] at h
        rw [← h]
        exact contextStep_lost hne hs
      | some r1 =>
        simp only at h
        obtain ⟨rest, hr, h⟩ := Res.bind_eq_ok.1 h
        simp only [Res.ok.injEq] at h
        rw [← h]
        exact contextStep_paired hne hs (ih hr)

/-! ### Hunks -/

theorem contextLines_shown (ls : List Str) : ls = (contextLines ls).1 ++ (contextLines ls).2 ∧ (∀ x ∈ (contextLines ls).1, SectionLine x) ∧
    ∀ x, (contextLines ls).2.head? = some x → ¬ SectionLine x := by
  induction ls with
  | nil => simp [contextLines]
  | cons l ls ih =>
    unfold contextLines
    split
    · rename_i h
      obtain ⟨i1, i2, i3⟩ := ih
      refine ⟨by simp only [List.cons_append]; rw [← i1], ?_, i3⟩
      intro x hx
      rcases List.mem_cons.1 hx with rfl | hx
      · exact (sectionLine_full _).1 h
      · exact i2 x hx
    · rename_i h
      refine ⟨rfl, by simp, ?_⟩
      intro x hx
      simp only [List.head?_cons, Option.some.injEq] at hx
      subst hx
      rw [← sectionLine_full]; exact h

theorem contextHunkHeader_shown (ls : List Str) :
    match contextHunkHeader ls with
    | (none, ls') => ContextShown ls [] ls'
    | (some (c1, c2), ls') => ∃ l l2, ls = l :: l2 :: ls' ∧ StarHead l (c1.get 1) ∧ StarLine l ∧ OldHead l2 (toInt (c2.get 1)) ∧ OldRange l2 := by
  unfold contextHunkHeader
  cases ls with
  | nil => exact .stop _ (by simp)
  | cons l ls =>
    simp only
    cases h1 : reContextHunkHeader1.full l with
    | none =>
      refine .stop _ ?_
      intro x hx
      simp only [List.head?_cons, Option.some.injEq] at hx
      subst hx
      rw [← starLine_lang]; exact (Re.full_none _ _).1 h1
    | some c1 =>
      have s1 : StarLine l := by rw [← starLine_lang, ← Re.full_isSome, h1]; rfl
      cases ls with
      | nil => exact .lone _ _ s1 (by simp)
      | cons l2 ls =>
        simp only
        cases h2 : reContextHunkHeader2.full l2 with
        | none =>
          refine .lone _ _ s1 ?_
          intro x hx
          simp only [List.head?_cons, Option.some.injEq] at hx
          subst hx
          rw [← oldRange_lang]; exact (Re.full_none _ _).1 h2
        | some c2 => exact ⟨l, l2, rfl, star_full h1, s1, oldHead_full h2, by rw [← oldRange_lang, ← Re.full_isSome, h2]; rfl⟩

theorem contextHunks_shown (n : Nat) (st st' : PState) (h : contextHunkLoop n st = Res.ok st') : HunksShow HView.ContextOk ContextShown st st' := by
  induction n generalizing st with
  | zero => simp [contextHunkLoop] at h
  | succ n ih =>
    simp only [contextHunkLoop] at h
    obtain ⟨r, hr, h⟩ := Res.bind_eq_ok.1 h
    have hh := contextHunkHeader_shown st.rest
    unfold parseContextHunk at hr
    cases e : contextHunkHeader st.rest with
    | mk o ls =>
      rw [e] at hr hh
      cases o with
      | none =>
        simp only [Res.ok.injEq] at hr hh
        subst hr
        simp only [Res.ok.injEq] at h
        subst h
        exact ⟨fun _ b => b.congr rfl rfl rfl, Heap.Ext.refl _, rfl, rfl, rfl, fun _ _ => ⟨[], hh, (addHunks_nil _).symm⟩⟩
      | some cc =>
        obtain ⟨c1, c2⟩ := cc
        simp only at hr hh
        obtain ⟨l, l2, hl, k1, k2, k3, k4⟩ := hh
        obtain ⟨p1, p2, p3⟩ := contextLines_shown ls
        cases e2 : (contextLines ls).2 with
        | nil => rw [e2] at hr; cases hr
        | cons l3 more =>
          rw [e2] at hr p1 p3
          simp only at hr
          have ns : ¬ SectionLine l3 := p3 l3 rfl
          cases e3 : reContextHunkHeader3.full l3 with
          | none =>
            rw [e3] at hr
            simp only [Res.ok.injEq] at hr
            subst hr
            refine (ih _ h).skip rfl rfl rfl rfl rfl (fun hs g => ?_)
            rw [hl, p1]
            exact .dropped l l2 l3 _ more hs _ k2 k4 p2 ns (by rw [← newRange_lang]; exact (Re.full_none _ _).1 e3) g
          | some c3 =>
            rw [e3] at hr
            simp only at hr
            obtain ⟨s, hs, hr⟩ := Res.bind_eq_ok.1 hr
            simp only [Res.ok.injEq] at hr
            subst hr
            simp only at h
            obtain ⟨q1, q2, q3⟩ := contextLines_shown more
            obtain ⟨s1, s2, s3⟩ := contextBody_sound hs
            have ok : HView.ContextOk (hunkView (toInt (c2.get 1)) (toInt (c3.get 1)) (c1.get 1) s.1) := by
              refine ⟨rfl, s2, ?_⟩
              intro v hv
              obtain ⟨x, hx, rfl⟩ := List.mem_map.1 hv
              exact s3 x hx
            refine (ih _ h).add s1 ok rfl rfl rfl rfl rfl (fun hs' g => ?_)
            rw [hl, p1, q1]
            exact .hunk l l2 l3 _ _ _ _ hs' _ k1 k3 p2 ns (newHead_full e3) q2 q3 (contextBody_paired hs) ok g

/-- Everything the parser shows of a context diff. -/
theorem contextFiles_shown {win : Bool} {g : Generator} {h0 : Heap} {st st' : PState} (hf : FoundAll HView.ContextOk h0 st)
    (h : contextFiles win g st = Res.ok st') : FoundAll HView.ContextOk h0 st' ∧
      ∃ ms, ShowsFiles (contextForm (unescapePath win) g) ContextShown st.rest ms ∧
        st'.models.map (fun m => m.view st'.heap) = st.models.map (fun m => m.view st.heap) ++ ms := by
  obtain ⟨i1, _, i2⟩ := fileLoop_shown (P := HView.ContextOk) (H := ContextShown) (o := contextForm (unescapePath win) g)
    (N := fun st ms _ => ShowsFiles (contextForm (unescapePath win) g) ContextShown st.rest ms) (fun _ _ => context_header_shows)
    (fun h0 st st' _ e => ⟨(contextHeader_step e).heap, (contextHeader_step e).models, context_header_hidden e⟩)
    (fun st st' e => contextHunks_shown _ st st' e)
    (fun st s ms st' pre hdr f hs n _ _ e1 e2 e3 => by
      obtain ⟨ls, e1, e4⟩ := e1
      rw [e1]
      exact .file pre hdr ls s.rest f hs ms e2 e3 e4 n) _ h0 st st' hf h
  exact ⟨i1, i2⟩

end KompareDiff2
