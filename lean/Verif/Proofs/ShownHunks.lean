import Verif.Proofs.ShownUnified
/-
What the parser shows of arbitrary lines: unified hunks.
-/
namespace KompareDiff2
open Spec Re

theorem toInt_number {d : Str} (h : Digits d) : toInt d = number d := by
  rw [toInt, toIntOk_digits h, number]
  split <;> rfl

theorem hunkHead_full {l : Str} {n m : Nat} {c : Caps} {u : UHeader} (h : HunkHeaderLine l n m) (hc : reUnifiedHunkHeader.full l = some c)
    (hu : unifiedHeaderValues c = some u) :
    UnifiedHead l u.a u.b n m u.function ∧ u.countA = n ∧ u.countB = m ∧ n ≤ intMax ∧ m ≤ intMax := by
  obtain ⟨a, b, na, nb, f, rfl, ha, hb, hf, hn, hm⟩ := h
  have h1 : ∀ (s : Str) (n : Nat), (s = [] ∧ n = 1 ∨ ∃ d, s = ',' :: d ∧ Digits d ∧ n = decimal d) → (s = [] ∨ ∃ d, s = ',' :: d ∧ Digits d) := by
    rintro s n (h | ⟨d, h1, h2, _⟩)
    · exact .inl h.1
    · exact .inr ⟨d, h1, h2⟩
  have h2 : ∀ (s : Str) (n : Nat) (x : Int), (s = [] ∧ n = 1 ∨ ∃ d, s = ',' :: d ∧ Digits d ∧ n = decimal d) → 
      (if s.drop 1 ≠ [] ∧ (n : Int) = 0 then x + 1 else x) = if n = 0 then x + 1 else x := by
    rintro s n x (⟨rfl, rfl⟩ | ⟨d, rfl, hd, rfl⟩)
    · simp
    · simp only [List.drop_succ_cons, List.drop_zero, ne_eq, hd.1, not_false_eq_true, true_and, Int.natCast_eq_zero]
  obtain ⟨c', hc', k1, k3, k4, k6, k7⟩ := hunkHeader_values a b na nb f ha hb (h1 _ _ hn) (h1 _ _ hm) hf
  simp only [List.append_assoc] at hc
  rw [hc'] at hc
  simp only [Option.some.injEq] at hc
  subst hc
  unfold unifiedHeaderValues at hu
  simp only [k1, k3, k4, k6, k7, count_value hn, count_value hm] at hu
  by_cases hn' : n ≤ intMax
  · by_cases hm' : m ≤ intMax
    · simp only [hn', hm', if_true, Bool.true_eq_false, if_false, Option.some.injEq, h2 _ _ _ hn, h2 _ _ _ hm] at hu
      subst hu
      refine ⟨⟨a, b, na, nb, f, rfl, ha, hb, hf, hn, hm, rfl, ?_, ?_⟩, rfl, rfl, hn', hm'⟩
      · rw [toInt_number ha]
      · rw [toInt_number hb]
    · simp [hn', hm'] at hu
  · simp [hn'] at hu

/-! ### The lines of a hunk -/

/-- The next line does not begin with the character, or nothing more is read. -/
def RunEnds (p : Char) (ls : List Str) (ca cb : Int) : Prop := (ca = 0 ∧ cb = 0) ∨ ∀ l, ls.head? = some l → l.head? ≠ some p

theorem takeRun_text (p : Char) (da db : Int) (ls : List Str) (a b : Int) :
    ls = (takeRun p da db ls a b).1.map (p :: ·) ++ (takeRun p da db ls a b).2.1 ∧
      RunEnds p (takeRun p da db ls a b).2.1 (takeRun p da db ls a b).2.2.1 (takeRun p da db ls a b).2.2.2 := by
  induction ls generalizing a b with
  | nil => exact ⟨rfl, .inr (by simp [takeRun])⟩
  | cons l ls ih =>
    unfold takeRun
    split
    · rename_i hc
      obtain ⟨t, rfl⟩ := head_cons hc.1
      obtain ⟨e1, e2⟩ := ih (a - da) (b - db)
      refine ⟨?_, e2⟩
      simp only [List.drop_succ_cons, List.drop_zero, List.map_cons, List.cons_append]
      rw [← e1]
    · rename_i hc
      refine ⟨rfl, ?_⟩
      by_cases h0 : a ≠ 0 ∨ b ≠ 0
      · refine .inr ?_
        intro x hx hp
        simp only [List.head?_cons, Option.some.injEq] at hx
        subst hx
        exact hc ⟨hp, h0⟩
      · have h1 : a = 0 := by omega
        have h2 : b = 0 := by omega
        exact .inl ⟨h1, h2⟩

theorem takeRun_nothing (p : Char) (da db : Int) (ls : List Str) (a b : Int) (h : (takeRun p da db ls a b).1 = []) :
    (takeRun p da db ls a b).2 = (ls, a, b) := by
  cases ls with
  | nil => rfl
  | cons l ls =>
    unfold takeRun at h ⊢
    split at h
    · simp at h
    · rename_i hc; rw [if_neg hc]

/-- After a difference nothing follows that belongs to it. -/
def EndsAfter (v : DView) (ls : List Str) (ca cb : Int) : Prop :=
  if v.type = .Unchanged then RunEnds ' ' ls ca cb else RunEnds '+' ls ca cb ∧ (v.dst = [] → RunEnds '-' ls ca cb)

theorem unifiedStep_text {l : Str} {ls : List Str} {a b ca cb : Int} {r} (h : unifiedStep l ls a b ca cb = Res.ok r) :
    l :: ls = r.1.1.view.unifiedLines ++ r.2.1 ∧ EndsAfter r.1.1.view r.2.1 r.2.2.1 r.2.2.2 := by
  unfold unifiedStep at h
  split at h
  · simp only [Res.ok.injEq] at h
    rw [← h]
    unfold unifiedContext
    simp only
    have hv : Diff.view (List.foldl (fun d l => (d.addSource l).addDest l) (Diff.new a b) (takeRun ' ' 1 1 (l :: ls) ca cb).1) = _ :=
      both_view a b .Unchanged (takeRun ' ' 1 1 (l :: ls) ca cb).1
    obtain ⟨e1, e2⟩ := takeRun_text ' ' 1 1 (l :: ls) ca cb
    rw [hv]
    exact ⟨by simpa [DView.unifiedLines] using e1, by simpa [EndsAfter] using e2⟩
  · unfold unifiedChange at h
    simp only [Res.bind_eq_ok, Res.ok.injEq] at h
    obtain ⟨d', hd, h⟩ := h
    rw [← h]
    simp only
    have hv := (determineInline_view hd).trans (retype_view _ _)
    obtain ⟨e1, e2⟩ := takeRun_text '-' 1 0 (l :: ls) ca cb
    generalize hr1 : takeRun '-' 1 0 (l :: ls) ca cb = r1 at *
    obtain ⟨e3, e4⟩ := takeRun_text '+' 0 1 r1.2.1 r1.2.2.1 r1.2.2.2
    have e5 := takeRun_nothing '+' 0 1 r1.2.1 r1.2.2.1 r1.2.2.2
    generalize hr2 : takeRun '+' 0 1 r1.2.1 r1.2.2.1 r1.2.2.2 = r2 at *
    have hb : Diff.view (List.foldl Diff.addDest (List.foldl Diff.addSource (Diff.new a b) r1.1) r2.1) = _ := built_view a b .Unchanged r1.1 r2.1
    simp only [unifiedType_view, hb] at hv
    have ht : d'.view.type ≠ .Unchanged := by
      rw [hv]
      simp only
      split
      · simp
      · split <;> simp
    have hs : d'.view.src = r1.1 := by rw [hv]
    have hd2 : d'.view.dst = r2.1 := by rw [hv]
    refine ⟨?_, ?_⟩
    · rw [DView.unifiedLines, if_neg ht, hs, hd2, List.append_assoc, ← e3]; exact e1
    · rw [EndsAfter, if_neg ht, hd2]
      exact ⟨e4, fun h0 => by have := e5 h0; rw [this]; exact e2⟩

/-- The first character of the lines of a difference. -/
theorem unifiedLines_head {v : DView} (h : v.SidesAgree) (ls : List Str) : ∃ t more, v.unifiedLines ++ ls = t :: more ∧
    (v.type = .Unchanged → t.head? = some ' ') ∧ (v.type ≠ .Unchanged → v.src ≠ [] → t.head? = some '-') ∧
    (v.type ≠ .Unchanged → v.src = [] → t.head? = some '+') := by
  unfold DView.unifiedLines
  by_cases ht : v.type = .Unchanged
  · rw [if_pos ht]
    have hne : v.src ≠ [] := by unfold DView.SidesAgree at h; rw [ht] at h; exact h.2
    cases hs : v.src with
    | nil => exact absurd hs hne
    | cons x xs => exact ⟨' ' :: x, _, rfl, by simp, fun e => absurd ht e, fun e => absurd ht e⟩
  · rw [if_neg ht]
    cases hs : v.src with
    | cons x xs => exact ⟨'-' :: x, _, rfl, fun e => absurd e ht, by simp, by simp⟩
    | nil =>
      cases hd : v.dst with
      | cons x xs => exact ⟨'+' :: x, _, rfl, fun e => absurd e ht, by simp, by simp⟩
      | nil =>
        exfalso
        unfold DView.SidesAgree at h
        cases e : v.type <;> rw [e] at h <;> simp_all

theorem separate_of_ends {v w : DView} {ls : List Str} {ca cb : Int} (hc : ca ≠ 0 ∨ cb ≠ 0) (hw : w.SidesAgree)
    (he : EndsAfter v (w.unifiedLines ++ ls) ca cb) : v.Separate w := by
  obtain ⟨t, more, e, h1, h2, h3⟩ := unifiedLines_head hw ls
  rw [e] at he
  have key : ∀ p, RunEnds p (t :: more) ca cb → t.head? ≠ some p := by
    rintro p (⟨a, b⟩ | h)
    · omega
    · exact h t rfl
  unfold EndsAfter at he
  unfold DView.Separate
  split
  · rename_i hv
    rw [if_pos hv] at he
    intro ht
    exact key _ he (h1 ht)
  · rename_i hv
    rw [if_neg hv] at he
    by_cases ht : w.type = .Unchanged
    · exact .inl ht
    · right
      have hs : w.src ≠ [] := fun e => key _ he.1 (h3 ht e)
      exact ⟨fun e => key _ (he.2 e) (h2 ht hs), hs⟩

theorem unifiedBody_text {n : Nat} {ls : List Str} {a b ca cb : Int} {r} (h : unifiedBodyLoop n ls a b ca cb = Res.ok r) :
    ls = (r.1.map (fun e => e.1.view)).flatMap DView.unifiedLines ++ r.2 ∧ AllSeparate (r.1.map (fun e => e.1.view)) ∧ UnifiedBody ca cb ls r.2 ∧
      (r.1 ≠ [] → ca ≠ 0 ∨ cb ≠ 0) := by
  induction n generalizing ls a b ca cb r with
  | zero => simp [unifiedBodyLoop] at h
  | succ n ih =>
    cases ls with
    | nil =>
      simp only [unifiedBodyLoop, Res.ok.injEq] at h
      rw [← h]
      exact ⟨rfl, trivial, .other _ _ _ (by simp), by simp⟩
    | cons l ls =>
      simp only [unifiedBodyLoop] at h
      obtain ⟨mt, hm, h⟩ := Res.bind_eq_ok.1 h
      split at h
      · rename_i hc
        obtain ⟨s, hs, h⟩ := Res.bind_eq_ok.1 h
        obtain ⟨rest, hr, h⟩ := Res.bind_eq_ok.1 h
        simp only [Res.ok.injEq] at h
        rw [← h]
        obtain ⟨t1, t2⟩ := unifiedStep_text hs
        obtain ⟨i1, i2, i3, i4⟩ := ih hr
        have ok := (unifiedBody_sound hr).2.2
        refine ⟨?_, ?_, unifiedStep_body hs _ i3, fun _ => hc.2⟩
        · simp only [List.map_cons, List.flatMap_cons, List.append_assoc]
          rw [← i1]; exact t1
        · cases hx : rest.1 with
          | nil => trivial
          | cons e es =>
            simp only [List.map_cons, AllSeparate]
            rw [hx] at i1 i2 i4 ok
            refine ⟨?_, i2⟩
            refine separate_of_ends (ls := (es.map (fun e => e.1.view)).flatMap DView.unifiedLines ++ rest.2) (i4 (by simp)) (ok e (by simp)).2 ?_
            rw [i1] at t2
            simpa using t2
      · rename_i hc
        simp only [Res.ok.injEq] at h
        rw [← h]
        refine ⟨rfl, trivial, ?_, by simp⟩
        by_cases h0 : ca ≠ 0 ∨ cb ≠ 0
        · refine .other _ _ _ ?_
          intro x hx
          simp only [List.head?_cons, Option.some.injEq] at hx
          subst hx
          cases l with
          | nil => simp
          | cons x t =>
            simp only [matchesUnifiedHunkLine, Res.ok.injEq] at hm
            have : ¬ (decide (x = ' ') || decide (x = '+') || decide (x = '-')) = true := fun e => hc ⟨hm ▸ e, h0⟩
            simp only [Bool.or_eq_true, decide_eq_true_eq, not_or] at this
            simp [this.1.1, this.1.2, this.2]
        · have h1 : ca = 0 := by omega
          have h2 : cb = 0 := by omega
          rw [h1, h2]; exact .complete _

/-! ### The loop over the hunks -/

theorem HunksShow.refl {P : HView → Prop} {H : List Str → List HView → List Str → Prop} (st : PState) (h : H st.rest [] st.rest) :
    HunksShow P H st st :=
  ⟨fun _ b => b, Heap.Ext.refl _, rfl, rfl, rfl, fun _ _ => ⟨[], h, (addHunks_nil _).symm⟩⟩

/-- One hunk is read, then the others. -/
theorem HunksShow.add {P : HView → Prop} {H : List Str → List HView → List Str → Prop} {st s1 st' : PState} {x y : Int} {f : Str} {es : Entries}
    (w : HunksShow P H s1 st') (hf : es.Flagged) (hP : P (hunkView x y f es)) (e1 : s1.heap = (st.addHunk x y f es).heap) (e2 : s1.cur = (st.addHunk x y f es).cur)
    (e3 : s1.models = st.models) (e4 : s1.single = st.single) (e5 : s1.lines = st.lines)
    (hH : ∀ hs, H s1.rest hs st'.rest → H st.rest (hunkView x y f es :: hs) st'.rest) : HunksShow P H st st' := by
  have hb : ∀ h0, Building P h0 st → Building P h0 s1 := fun h0 b => b.addHunk x y f es hf hP e1 e3 e2
  have hx : st.heap.Ext s1.heap := by rw [e1]; exact addHunk_ext st x y f es
  refine ⟨fun h0 b => w.building h0 (hb h0 b), hx.trans w.ext, w.models.trans e3, w.single.trans e4, w.lines.trans e5, ?_⟩
  intro h0 b
  obtain ⟨hs, g1, g2⟩ := w.shown h0 (hb h0 b)
  refine ⟨hunkView x y f es :: hs, hH hs g1, ?_⟩
  rw [g2, e1, e2, addHunk_view st x y f es b.cur.1 hf]
  simp [MView.addHunks, changesOf, hunkView]

/-- Lines are skipped, then hunks are read. -/
theorem HunksShow.skip {P : HView → Prop} {H : List Str → List HView → List Str → Prop} {st s1 st' : PState}
    (w : HunksShow P H s1 st') (e1 : s1.heap = st.heap) (e2 : s1.cur = st.cur) (e3 : s1.models = st.models) (e4 : s1.single = st.single) (e5 : s1.lines = st.lines)
    (hH : ∀ hs, H s1.rest hs st'.rest → H st.rest hs st'.rest) : HunksShow P H st st' := by
  have hb : ∀ h0, Building P h0 st → Building P h0 s1 := fun h0 b => b.congr e1 e3 e2
  refine ⟨fun h0 b => w.building h0 (hb h0 b), e1 ▸ w.ext, w.models.trans e3, w.single.trans e4, w.lines.trans e5, ?_⟩
  intro h0 b
  obtain ⟨hs, g1, g2⟩ := w.shown h0 (hb h0 b)
  exact ⟨hs, hH hs g1, by rw [g2, e1, e2]⟩

theorem unifiedHunks_shown (n : Nat) (st st' : PState) (h : hunkLoop parseUnifiedHunk n st = Res.ok st') :
    HunksShow HView.UnifiedOk UnifiedShown st st' := by
  induction n generalizing st with
  | zero => simp [hunkLoop] at h
  | succ n ih =>
    simp only [hunkLoop] at h
    obtain ⟨r, hr, h⟩ := Res.bind_eq_ok.1 h
    cases e : st.rest with
    | nil =>
      have : r = none := by simp only [parseUnifiedHunk, e, Res.ok.injEq] at hr; exact hr.symm
      subst this
      simp only [Res.ok.injEq] at h
      subst h
      exact .refl _ (.stop _ (by simp [e]))
    | cons l ls =>
      by_cases hl : reUnifiedHunkHeader.Lang l
      · obtain ⟨p, q, hh⟩ := (hunkHeader_lang l).1 hl
        obtain ⟨c, hc⟩ := Option.isSome_iff_exists.1 ((Re.full_isSome _ _).2 hl)
        rw [parseUnifiedHunk_some e hc] at hr
        cases hu : unifiedHeaderValues c with
        | none =>
          rw [hu] at hr
          simp only [Res.ok.injEq] at hr
          subst hr
          refine (ih _ h).skip rfl rfl rfl rfl rfl (fun hs g => ?_)
          rw [e]
          refine .skipped l ls p q hs _ hh ?_ g
          obtain ⟨c', hc', _, hsm⟩ := hunkHeader_full hh
          rw [hc] at hc'
          simp only [Option.some.injEq] at hc'
          subst hc'
          apply Decidable.byContradiction
          intro hno
          obtain ⟨u, hu', _⟩ := hsm (by omega) (by omega)
          rw [hu] at hu'; simp at hu'
        | some u =>
          rw [hu] at hr
          obtain ⟨s, hs, hr⟩ := Res.bind_eq_ok.1 hr
          simp only [Res.ok.injEq] at hr
          subst hr
          obtain ⟨k1, k2, k3, k4, k5⟩ := hunkHead_full hh hc hu
          obtain ⟨t1, t2, t3, _⟩ := unifiedBody_text hs
          obtain ⟨s1, s2, s3⟩ := unifiedBody_sound hs
          have ok : HView.UnifiedOk (hunkView u.a u.b u.function s.1) := by
            refine ⟨rfl, s2, ?_⟩
            intro v hv
            obtain ⟨x, hx, rfl⟩ := List.mem_map.1 hv
            exact s3 x hx
          refine (ih _ h).add s1 ok rfl rfl rfl rfl rfl (fun hs g => ?_)
          rw [e, t1]
          rw [k2, k3, t1] at t3
          exact .hunk l _ s.2 p q _ hs _ k1 k4 k5 t3 rfl t2 ok g
      · have : r = none := by
          simp only [parseUnifiedHunk, e, (Re.full_none _ _).2 hl, Res.ok.injEq] at hr; exact hr.symm
        subst this
        simp only [Res.ok.injEq] at h
        subst h
        refine .refl _ (.stop _ ?_)
        intro x hx
        rw [e] at hx
        simp only [List.head?_cons, Option.some.injEq] at hx
        subst hx
        rw [← hunkHeader_lang]; exact hl

/-- Everything the parser shows of a unified diff. -/
theorem unifiedFiles_shown {win : Bool} {g : Generator} {h0 : Heap} {st st' : PState} (hf : FoundAll HView.UnifiedOk h0 st)
    (h : unifiedFiles win g st = Res.ok st') : FoundAll HView.UnifiedOk h0 st' ∧
      ∃ ms, ShowsFiles (unifiedForm (unescapePath win) g) UnifiedShown st.rest ms ∧
        st'.models.map (fun m => m.view st'.heap) = st.models.map (fun m => m.view st.heap) ++ ms := by
  obtain ⟨i1, _, i2⟩ := fileLoop_shown (P := HView.UnifiedOk) (H := UnifiedShown) (o := unifiedForm (unescapePath win) g)
    (N := fun st ms _ => ShowsFiles (unifiedForm (unescapePath win) g) UnifiedShown st.rest ms) (fun _ _ => unified_header_shows)
    (fun h0 st st' _ e => ⟨(unifiedHeader_step e).heap, (unifiedHeader_step e).models, unified_header_hidden e⟩)
    (fun st st' e => unifiedHunks_shown _ st st' e)
    (fun st s ms st' pre hdr f hs n _ _ e1 e2 e3 => by
      obtain ⟨ls, e1, e4⟩ := e1
      rw [e1]
      exact .file pre hdr ls s.rest f hs ms e2 e3 e4 n) _ h0 st st' hf h
  exact ⟨i1, i2⟩

end KompareDiff2
