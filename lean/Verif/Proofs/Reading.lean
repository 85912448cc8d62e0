import Verif.Proofs.ReadingMatch
import Verif.Proofs.NoHang
/-
The parser reads arbitrary unified and context diffs as described in Spec/Reading.lean.
-/
namespace KompareDiff2
open Spec Re

/-- All lines are shorter than the table of the inline comparison allows. -/
def AllShort (ls : List Str) : Prop := ∀ l ∈ ls, ShortLine l

theorem AllShort.suffix {a b : List Str} (h : AllShort b) (hs : a <:+ b) : AllShort a := fun l hl => h l (hs.subset hl)

/-! ### Unified body -/

theorem takeRun_suffix (p : Char) (da db : Int) (ls : List Str) (a b : Int) : (takeRun p da db ls a b).2.1 <:+ ls := by
  induction ls generalizing a b with
  | nil => simp [takeRun]
  | cons l ls ih =>
    unfold takeRun
    split
    · exact (ih _ _).trans (List.suffix_cons _ _)
    · simp

theorem takeRun_lines (p : Char) (da db : Int) (ls : List Str) (a b : Int) :
    ∀ v ∈ (takeRun p da db ls a b).1, ∃ l ∈ ls, v = l.drop 1 := by
  induction ls generalizing a b with
  | nil => simp [takeRun]
  | cons l ls ih =>
    unfold takeRun
    split
    · intro v hv
      simp only [List.mem_cons] at hv
      rcases hv with rfl | hv
      · exact ⟨l, by simp, rfl⟩
      · obtain ⟨l', hl', e⟩ := ih _ _ v hv
        exact ⟨l', by simp [hl'], e⟩
    · simp

theorem short_drop {l : Str} (h : ShortLine l) : ShortLine (l.drop 1) := by
  unfold ShortLine at *; simp only [List.length_drop]; omega

theorem head_cons {l : Str} {p : Char} (h : l.head? = some p) : ∃ t, l = p :: t := by
  cases l with
  | nil => simp at h
  | cons x t => simp only [List.head?_cons, Option.some.injEq] at h; subst h; exact ⟨t, rfl⟩

/-- A run of lines is read as the body is. -/
theorem takeRun_body {p : Char} {da db : Int} (hp : p = ' ' ∧ da = 1 ∧ db = 1 ∨ p = '-' ∧ da = 1 ∧ db = 0 ∨ p = '+' ∧ da = 0 ∧ db = 1)
    (ls : List Str) (a b : Int) (rest : List Str)
    (h : UnifiedBody (takeRun p da db ls a b).2.2.1 (takeRun p da db ls a b).2.2.2 (takeRun p da db ls a b).2.1 rest) : UnifiedBody a b ls rest := by
  induction ls generalizing a b with
  | nil => simpa [takeRun] using h
  | cons l ls ih =>
    unfold takeRun at h
    split at h
    · rename_i hc
      have := ih _ _ h
      obtain ⟨t, rfl⟩ := head_cons hc.1
      rcases hp with ⟨rfl, rfl, rfl⟩ | ⟨rfl, rfl, rfl⟩ | ⟨rfl, rfl, rfl⟩
      · exact .both _ _ _ _ _ hc.2 this
      · rw [Int.sub_zero] at this; exact .old _ _ _ _ _ hc.2 this
      · rw [Int.sub_zero] at this; exact .new _ _ _ _ _ hc.2 this
    · exact h

theorem unifiedStep_body {l : Str} {ls : List Str} {a b ca cb : Int} {r} (h : unifiedStep l ls a b ca cb = Res.ok r) (rest : List Str)
    (hb : UnifiedBody r.2.2.1 r.2.2.2 r.2.1 rest) : UnifiedBody ca cb (l :: ls) rest := by
  unfold unifiedStep at h
  split at h
  · simp only [Res.ok.injEq] at h
    subst h
    exact takeRun_body (.inl ⟨rfl, rfl, rfl⟩) _ _ _ _ hb
  · unfold unifiedChange at h
    obtain ⟨d, _, h⟩ := Res.bind_eq_ok.1 h
    simp only [Res.ok.injEq] at h
    subst h
    exact takeRun_body (.inr (.inl ⟨rfl, rfl, rfl⟩)) _ _ _ _ (takeRun_body (.inr (.inr ⟨rfl, rfl, rfl⟩)) _ _ _ _ hb)

theorem unifiedStep_suffix {l : Str} {ls : List Str} {a b ca cb : Int} {r} (h : unifiedStep l ls a b ca cb = Res.ok r) : r.2.1 <:+ l :: ls := by
  unfold unifiedStep at h
  split at h
  · simp only [Res.ok.injEq] at h
    subst h
    exact takeRun_suffix _ _ _ _ _ _
  · unfold unifiedChange at h
    obtain ⟨d, _, h⟩ := Res.bind_eq_ok.1 h
    simp only [Res.ok.injEq] at h
    subst h
    exact (takeRun_suffix _ _ _ _ _ _).trans (takeRun_suffix _ _ _ _ _ _)

theorem unifiedStep_defined {l : Str} {ls : List Str} {a b ca cb : Int} (hs : AllShort (l :: ls)) : unifiedStep l ls a b ca cb ≠ Res.ub := by
  unfold unifiedStep
  split
  · simp
  · unfold unifiedChange
    simp only [foldl_addSource, foldl_addDest]
    have key : ∀ d : Diff, d.Fresh → ∀ f : Diff → Res ((Diff × Bool) × List Str × Int × Int), (∀ d, f d ≠ Res.ub) → (d.determineInline >>= f) ≠ Res.ub := by
      intro d hd f hf
      obtain ⟨d', h', _⟩ := determineInline_ok hd
      rw [h']; exact hf d'
    refine key _ ⟨?_, ?_⟩ _ (by simp)
    · refine freshLines_ofStr _ ?_
      intro v hv
      obtain ⟨l', hl', rfl⟩ := takeRun_lines _ _ _ _ _ _ v hv
      exact short_drop (hs _ hl')
    · refine freshLines_ofStr _ ?_
      intro v hv
      obtain ⟨l', hl', rfl⟩ := takeRun_lines _ _ _ _ _ _ v hv
      exact short_drop (hs _ ((takeRun_suffix _ _ _ _ _ _).subset hl'))

/-- What the loop over the lines of a hunk leaves. -/
theorem unifiedBody_read {n : Nat} {ls : List Str} {a b ca cb : Int} (hs : AllShort ls) (hn : ls.length < n) :
    (∃ r, unifiedBodyLoop n ls a b ca cb = Res.ok r ∧ UnifiedBody ca cb ls r.2 ∧ r.2.head? ≠ some []) ∨
      (unifiedBodyLoop n ls a b ca cb = Res.ub ∧ ∃ more, UnifiedBody ca cb ls ([] :: more)) := by
  induction n generalizing ls a b ca cb with
  | zero => omega
  | succ n ih =>
    cases ls with
    | nil =>
      exact .inl ⟨([], []), rfl, .other _ _ _ (by simp), by simp⟩
    | cons l ls =>
      simp only [unifiedBodyLoop]
      cases l with
      | nil => exact .inr ⟨rfl, ls, .other _ _ _ (by simp)⟩
      | cons x t =>
        simp only [matchesUnifiedHunkLine, Res.bind_ok]
        split
        · rename_i hc
          cases hst : unifiedStep (x :: t) ls a b ca cb with
          | ub => exact absurd hst (unifiedStep_defined hs)
          | hang => exact absurd hst (unifiedStep_ends _ _ _ _ _ _)
          | ok r =>
            have hl := unifiedStep_consumes (l := x :: t) (by simp only [matchesUnifiedHunkLine, hc.1]) hc.2 hst
            rcases ih (ls := r.2.1) (a := a + r.1.1.slc) (b := b + r.1.1.dlc) (ca := r.2.2.1) (cb := r.2.2.2)
              (hs.suffix (unifiedStep_suffix hst)) (by omega) with ⟨q, hq, h1, h2⟩ | ⟨hq, more, h1⟩
            · refine .inl ⟨(r.1 :: q.1, q.2), ?_, unifiedStep_body hst _ h1, h2⟩
              simp only [Res.bind_ok, hq]
            · refine .inr ⟨?_, more, unifiedStep_body hst _ h1⟩
              simp only [Res.bind_ok, hq, Res.bind_ub]
        · rename_i hc
          refine .inl ⟨([], (x :: t) :: ls), rfl, ?_, by simp⟩
          by_cases h0 : ca ≠ 0 ∨ cb ≠ 0
          · refine .other _ _ _ ?_
            intro l hl
            simp only [List.head?_cons, Option.some.injEq] at hl
            subst hl
            have : ¬ (decide (x = ' ') || decide (x = '+') || decide (x = '-')) = true := fun e => hc ⟨e, h0⟩
            simp only [Bool.or_eq_true, decide_eq_true_eq, not_or] at this
            simp [this.1.1, this.1.2, this.2]
          · have h1 : ca = 0 := by omega
            have h2 : cb = 0 := by omega
            rw [h1, h2]; exact .complete _

theorem unifiedBody_det {n m : Int} {ls r1 r2 : List Str} (h1 : UnifiedBody n m ls r1) (h2 : UnifiedBody n m ls r2) : r1 = r2 := by
  induction h1 with
  | complete ls =>
    cases h2 with
    | complete => rfl
    | other => rfl
    | both _ _ _ _ _ h => simp at h
    | old _ _ _ _ _ h => simp at h
    | new _ _ _ _ _ h => simp at h
  | other n m ls h =>
    cases h2 with
    | complete => rfl
    | other => rfl
    | both _ _ _ _ _ _ => simp at h
    | old _ _ _ _ _ _ => simp at h
    | new _ _ _ _ _ _ => simp at h
  | both n m t ls rest hc _ ih =>
    cases h2 with
    | complete => simp at hc
    | other _ _ _ h => simp at h
    | both _ _ _ _ _ _ h => exact ih h
  | old n m t ls rest hc _ ih =>
    cases h2 with
    | complete => simp at hc
    | other _ _ _ h => simp at h
    | old _ _ _ _ _ _ h => exact ih h
  | new n m t ls rest hc _ ih =>
    cases h2 with
    | complete => simp at hc
    | other _ _ _ h => simp at h
    | new _ _ _ _ _ _ h => exact ih h

theorem unifiedBody_suffix {n m : Int} {ls r : List Str} (h : UnifiedBody n m ls r) : r <:+ ls := by
  induction h with
  | complete ls => simp
  | other n m ls _ => simp
  | both _ _ _ _ _ _ _ ih => exact ih.trans (List.suffix_cons _ _)
  | old _ _ _ _ _ _ _ ih => exact ih.trans (List.suffix_cons _ _)
  | new _ _ _ _ _ _ _ ih => exact ih.trans (List.suffix_cons _ _)

/-! ### Hunks -/

/-- A hunk loop behaves as the relation `Hunks` says. -/
def ReadsHunks (hunks : PState → Res PState) (Hunks : List Str → Option (List Str) → Prop) : Prop :=
  ∀ st : PState, AllShort st.rest →
    (∃ st', hunks st = Res.ok st' ∧ st'.malformed = st.malformed ∧ Hunks st.rest (some st'.rest) ∧ st'.rest <:+ st.rest) ∨
      (hunks st = Res.ub ∧ Hunks st.rest none)

theorem parseUnifiedHunk_some {st : PState} {l : Str} {ls : List Str} {c : Caps} (e : st.rest = l :: ls) (hc : reUnifiedHunkHeader.full l = some c) :
    parseUnifiedHunk st = (match unifiedHeaderValues c with
      | none => Res.ok (some { st with rest := ls })
      | some u => (unifiedBodyLoop (ls.length + 1) ls u.a u.b u.countA u.countB) >>= fun r =>
        Res.ok (some { (st.addHunk u.a u.b u.function r.1) with rest := r.2 })) := by
  unfold parseUnifiedHunk
  rw [e]
  simp only [hc]
  cases unifiedHeaderValues c <;> rfl

theorem unifiedHunkLoop_reads (n : Nat) (st : PState) (hn : st.rest.length < n) (hs : AllShort st.rest) :
    (∃ st', hunkLoop parseUnifiedHunk n st = Res.ok st' ∧ st'.malformed = st.malformed ∧ UnifiedHunks st.rest (some st'.rest) ∧ st'.rest <:+ st.rest) ∨
      (hunkLoop parseUnifiedHunk n st = Res.ub ∧ UnifiedHunks st.rest none) := by
  induction n generalizing st with
  | zero => omega
  | succ n ih =>
    simp only [hunkLoop]
    cases e : st.rest with
    | nil =>
      refine .inl ⟨st, ?_, rfl, ?_, ?_⟩
      · simp [parseUnifiedHunk, e]
      · rw [e]; exact .stop _ (by simp)
      · rw [e]; simp
    | cons l ls =>
      by_cases hl : reUnifiedHunkHeader.Lang l
      · obtain ⟨p, q, hh⟩ := (hunkHeader_lang l).1 hl
        obtain ⟨c, hc, hbig, hsmall⟩ := hunkHeader_full hh
        rw [parseUnifiedHunk_some e hc]
        rw [e] at hn hs
        simp only [List.length_cons] at hn
        have hs' : AllShort ls := hs.suffix (List.suffix_cons _ _)
        by_cases hb : intMax < p ∨ intMax < q
        · rw [hbig hb]
          simp only [Res.bind_ok]
          rcases ih { st with rest := ls } (by simp only; omega) hs' with ⟨st', h1, h2, h3, h4⟩ | ⟨h1, h2⟩
          · exact .inl ⟨st', h1, h2, .skipped _ _ _ _ _ hh hb h3, h4.trans (List.suffix_cons _ _)⟩
          · exact .inr ⟨h1, .skipped _ _ _ _ _ hh hb h2⟩
        · obtain ⟨u, hu, ha, hb'⟩ := hsmall (by omega) (by omega)
          rw [hu]
          simp only
          rcases unifiedBody_read (n := ls.length + 1) (a := u.a) (b := u.b) (ca := u.countA) (cb := u.countB) hs' (by omega) with
            ⟨r, hr, h1, h2⟩ | ⟨hr, more, h1⟩
          · rw [hr]
            simp only [Res.bind_ok]
            rw [ha, hb'] at h1
            have hsuf := unifiedBody_suffix h1
            rcases ih { (st.addHunk u.a u.b u.function r.1) with rest := r.2 } (by have := hsuf.length_le; simp only; omega) (hs'.suffix hsuf) with
              ⟨st', g1, g2, g3, g4⟩ | ⟨g1, g2⟩
            · exact .inl ⟨st', g1, g2, .hunk _ _ _ _ _ _ hh (by omega) (by omega) h1 h2 g3, (g4.trans hsuf).trans (List.suffix_cons _ _)⟩
            · exact .inr ⟨g1, .hunk _ _ _ _ _ _ hh (by omega) (by omega) h1 h2 g2⟩
          · rw [hr]
            rw [ha, hb'] at h1
            exact .inr ⟨rfl, .empty _ _ _ _ _ hh (by omega) (by omega) h1⟩
      · refine .inl ⟨st, ?_, rfl, ?_, ?_⟩
        · simp [parseUnifiedHunk, e, (Re.full_none _ _).2 hl]
        · rw [e]; refine .stop _ ?_
          intro l' hl'
          simp only [List.head?_cons, Option.some.injEq] at hl'
          subst hl'
          rw [← hunkHeader_lang]; exact hl
        · rw [e]; exact List.suffix_refl _

theorem unifiedHunks_reads : ReadsHunks unifiedHunks UnifiedHunks := fun st hs => unifiedHunkLoop_reads _ st (by omega) hs

theorem hunkHeaderLine_det {l : Str} {n m n' m' : Nat} (h : HunkHeaderLine l n m) (h' : HunkHeaderLine l n' m') (h1 : n ≤ intMax) (h2 : m ≤ intMax) :
    n' = n ∧ m' = m := by
  obtain ⟨c, hc, _, hs⟩ := hunkHeader_full h
  obtain ⟨c', hc', hb', hs'⟩ := hunkHeader_full h'
  rw [hc] at hc'
  simp only [Option.some.injEq] at hc'
  subst hc'
  obtain ⟨u, hu, ha, hb⟩ := hs h1 h2
  by_cases hbig : intMax < n' ∨ intMax < m'
  · rw [hb' hbig] at hu; simp at hu
  · obtain ⟨u', hu', ha', hb'⟩ := hs' (by omega) (by omega)
    rw [hu] at hu'
    simp only [Option.some.injEq] at hu'
    subst hu'
    rw [ha] at ha'; rw [hb] at hb'
    omega

theorem unifiedHunks_det {ls : List Str} {r1 r2 : Option (List Str)} (h1 : UnifiedHunks ls r1) (h2 : UnifiedHunks ls r2) : r1 = r2 := by
  induction h1 generalizing r2 with
  | stop ls h =>
    cases h2 with
    | stop => rfl
    | skipped l _ n m _ hh => exact absurd ⟨n, m, hh⟩ (h l rfl)
    | hunk l _ _ n m _ hh => exact absurd ⟨n, m, hh⟩ (h l rfl)
    | empty l _ _ n m hh => exact absurd ⟨n, m, hh⟩ (h l rfl)
  | skipped l ls n m r hh hb _ ih =>
    cases h2 with
    | stop _ h => exact absurd ⟨n, m, hh⟩ (h l rfl)
    | skipped _ _ _ _ _ _ _ h => exact ih h
    | hunk _ _ _ _ _ _ hh' a b => have := hunkHeaderLine_det hh' hh a b; omega
    | empty _ _ _ _ _ hh' a b => have := hunkHeaderLine_det hh' hh a b; omega
  | hunk l ls rest n m r hh a b hbody hne _ ih =>
    cases h2 with
    | stop _ h => exact absurd ⟨n, m, hh⟩ (h l rfl)
    | skipped _ _ _ _ _ hh' hb => have := hunkHeaderLine_det hh hh' a b; omega
    | hunk _ _ _ _ _ _ hh' _ _ hbody' _ h =>
      obtain ⟨rfl, rfl⟩ := hunkHeaderLine_det hh hh' a b
      have := unifiedBody_det hbody hbody'
      subst this
      exact ih h
    | empty _ _ _ _ _ hh' _ _ hbody' =>
      obtain ⟨rfl, rfl⟩ := hunkHeaderLine_det hh hh' a b
      have := unifiedBody_det hbody hbody'
      subst this
      simp at hne
  | empty l ls more n m hh a b hbody =>
    cases h2 with
    | stop _ h => exact absurd ⟨n, m, hh⟩ (h l rfl)
    | skipped _ _ _ _ _ hh' hb => have := hunkHeaderLine_det hh hh' a b; omega
    | hunk _ _ _ _ _ _ hh' _ _ hbody' hne h =>
      obtain ⟨rfl, rfl⟩ := hunkHeaderLine_det hh hh' a b
      have := unifiedBody_det hbody hbody'
      subst this
      simp at hne
    | empty _ _ _ _ _ hh' _ _ hbody' => rfl

/-! ### Headers and files -/

/-- A header search behaves as the opening `o` says. -/
structure ReadsHeader (header : PState → Res (PState × Bool)) (o : Opening) : Prop where
  absent : ∀ st : PState, (∀ l ∈ st.rest, ¬ o.first l) → ∃ st', header st = Res.ok (st', false) ∧ st'.malformed = st.malformed
  truncated : ∀ (st : PState) pre l S, st.rest = pre ++ [l] → o.second = some S → (∀ x ∈ pre, ¬ o.first x) → o.first l → header st = Res.ub
  abandoned : ∀ (st : PState) pre l l2 ls S, st.rest = pre ++ l :: l2 :: ls → o.second = some S → (∀ x ∈ pre, ¬ o.first x) → o.first l → ¬ S l2 →
    ∃ st', header st = Res.ok (st', false) ∧ st'.malformed = st.malformed
  two : ∀ (st : PState) pre l l2 ls S, st.rest = pre ++ l :: l2 :: ls → o.second = some S → (∀ x ∈ pre, ¬ o.first x) → o.first l → S l2 →
    ∃ st', header st = Res.ok (st', true) ∧ st'.malformed = st.malformed ∧ st'.rest = ls
  one : ∀ (st : PState) pre l ls, st.rest = pre ++ l :: ls → o.second = none → (∀ x ∈ pre, ¬ o.first x) → o.first l →
    ∃ st', header st = Res.ok (st', true) ∧ st'.malformed = st.malformed ∧ st'.rest = ls

theorem twoLineHeader_reads {h1 h2 : Re} {mk : Caps → Caps → DModel} {F S : Str → Prop} (hF : ∀ l, h1.Lang l ↔ F l) (hS : ∀ l, h2.Lang l ↔ S l)
    {header : PState → Res (PState × Bool)} (hh : ∀ st, header st = twoLineHeader h1 h2 mk st st.rest) :
    ReadsHeader header { first := F, second := some S } := by
  have hno : ∀ l, ¬ F l → h1.full l = none := fun l h => (Re.full_none _ _).2 (fun x => h ((hF l).1 x))
  have hyes : ∀ l, F l → ∃ c, h1.full l = some c := fun l h => Option.isSome_iff_exists.1 ((Re.full_isSome _ _).2 ((hF l).2 h))
  have hno2 : ∀ l, ¬ S l → h2.full l = none := fun l h => (Re.full_none _ _).2 (fun x => h ((hS l).1 x))
  have hyes2 : ∀ l, S l → ∃ c, h2.full l = some c := fun l h => Option.isSome_iff_exists.1 ((Re.full_isSome _ _).2 ((hS l).2 h))
  refine ⟨?_, ?_, ?_, ?_, ?_⟩
  · intro st h
    rw [hh]
    have := twoLineHeader_skip h1 h2 mk st st.rest [] (fun l hl => hno l (h l hl))
    rw [List.append_nil] at this
    rw [this]
    exact ⟨_, rfl, rfl⟩
  · intro st pre l S' e _ hp hl
    rw [hh, e, twoLineHeader_skip h1 h2 mk st pre _ (fun l hl => hno l (hp l hl))]
    obtain ⟨c, hc⟩ := hyes l hl
    simp [twoLineHeader, hc]
  · intro st pre l l2 ls S' e hS' hp hl h2'
    simp only [Option.some.injEq] at hS'
    rw [hh, e, twoLineHeader_skip h1 h2 mk st pre _ (fun l hl => hno l (hp l hl))]
    obtain ⟨c, hc⟩ := hyes l hl
    simp only [twoLineHeader, hc, hno2 l2 (by rw [hS']; exact h2')]
    exact ⟨_, rfl, rfl⟩
  · intro st pre l l2 ls S' e hS' hp hl h2'
    simp only [Option.some.injEq] at hS'
    rw [hh, e, twoLineHeader_skip h1 h2 mk st pre _ (fun l hl => hno l (hp l hl))]
    obtain ⟨c, hc⟩ := hyes l hl
    obtain ⟨c2, hc2⟩ := hyes2 l2 (by rw [hS']; exact h2')
    simp only [twoLineHeader, hc, hc2]
    exact ⟨_, rfl, rfl, rfl⟩
  · intro st pre l ls _ h; simp at h

theorem p4Header_skip (st : PState) (pre ls : List Str) (h : ∀ l ∈ pre, reP4Header.full l = none) : p4Header st (pre ++ ls) = p4Header st ls := by
  induction pre with
  | nil => rfl
  | cons l pre ih =>
    simp only [List.cons_append, p4Header, h l (by simp)]
    exact ih (fun l hl => h l (by simp [hl]))

theorem p4Header_reads {header : PState → Res (PState × Bool)} (hh : ∀ st, header st = Res.ok (p4Header st st.rest)) :
    ReadsHeader header { first := PerforceHeaderLine, second := none } := by
  have hno : ∀ l, ¬ PerforceHeaderLine l → reP4Header.full l = none := fun l h => (Re.full_none _ _).2 (fun x => h ((p4Header_lang l).1 x))
  have hyes : ∀ l, PerforceHeaderLine l → ∃ c, reP4Header.full l = some c :=
    fun l h => Option.isSome_iff_exists.1 ((Re.full_isSome _ _).2 ((p4Header_lang l).2 h))
  refine ⟨?_, ?_, ?_, ?_, ?_⟩
  · intro st h
    rw [hh]
    have := p4Header_skip st st.rest [] (fun l hl => hno l (h l hl))
    rw [List.append_nil] at this
    rw [this]
    exact ⟨_, rfl, rfl⟩
  · intro st pre l S _ h; simp at h
  · intro st pre l l2 ls S _ h; simp at h
  · intro st pre l l2 ls S _ h; simp at h
  · intro st pre l ls e _ hp hl
    rw [hh, e, p4Header_skip st pre _ (fun l hl => hno l (hp l hl))]
    obtain ⟨c, hc⟩ := hyes l hl
    simp only [p4Header, hc]
    exact ⟨_, rfl, rfl, rfl⟩

theorem unifiedHeader_reads (win : Bool) (g : Generator) : ReadsHeader (parseUnifiedDiffHeader win g) (unifiedOpening g) := by
  cases g with
  | Perforce => exact p4Header_reads (fun st => rfl)
  | Diff => exact twoLineHeader_reads unifiedHeader1_lang unifiedHeader2_lang (fun st => rfl)
  | CVSDiff => exact twoLineHeader_reads unifiedHeader1_lang unifiedHeader2_lang (fun st => rfl)

theorem contextHeader_reads (win : Bool) (g : Generator) : ReadsHeader (parseContextDiffHeader win g) (contextOpening g) := by
  cases g with
  | Perforce => exact p4Header_reads (fun st => rfl)
  | Diff => exact twoLineHeader_reads (contextHeader_lang _) (contextHeader_lang _) (fun st => rfl)
  | CVSDiff => exact twoLineHeader_reads cvsHeader1_lang cvsHeader2_lang (fun st => rfl)

theorem keepModel_malformed (st : PState) : st.keepModel.malformed = st.malformed := by unfold PState.keepModel; split <;> rfl

theorem checkHeader_malformed {check : Re} {o : Opening} (hc : ∀ l, check.Lang l ↔ o.first l) (st : PState) :
    (checkHeader check st).malformed = true ↔ st.malformed = true ∨ BadStop o st.rest := by
  unfold checkHeader
  cases e : st.rest with
  | nil => simp [BadStop]
  | cons l ls =>
    simp only
    have hb : BadStop o (l :: ls) ↔ ¬ ((check.full l).isSome ∨ (str "Index: ").isPrefixOf l ∨ (str "diff ").isPrefixOf l ∨ (str "-- ").isPrefixOf l) := by
      rw [Re.full_isSome, hc]
      simp only [List.isPrefixOf_iff_prefix, not_or]
      constructor
      · rintro ⟨l', ls', e, h⟩
        simp only [List.cons.injEq] at e
        obtain ⟨rfl, rfl⟩ := e
        exact h
      · intro h; exact ⟨l, ls, rfl, h⟩
    rw [hb]
    split
    · rename_i h; simp only [h, not_true_eq_false, or_false]
    · rename_i h; simp only [h, not_false_eq_true, or_true]

/-- What is known about the outcome of the loop over the files. -/
def Follows (o : Opening) (st : PState) (stops : List (List Str)) (out : Outcome) (res : Res PState) : Prop :=
  match out with
  | .undefined => res = Res.ub
  | _ => ∃ st', res = Res.ok st' ∧ (st'.malformed = true ↔ st.malformed = true ∨ ∃ r ∈ stops, BadStop o r)

theorem fileLoop_reads {header : PState → Res (PState × Bool)} {hunks : PState → Res PState} {check : Re} {o : Opening}
    {Hunks : List Str → Option (List Str) → Prop} (hh : ReadsHeader header o) (hk : ReadsHunks hunks Hunks)
    (hdet : ∀ ls r1 r2, Hunks ls r1 → Hunks ls r2 → r1 = r2) (hc : ∀ l, check.Lang l ↔ o.first l)
    {ls : List Str} {stops : List (List Str)} {out : Outcome} (hr : Reading o Hunks ls stops out) :
    ∀ (n : Nat) (st : PState), st.rest = ls → AllShort ls → ls.length < n → Follows o st stops out (fileLoop header hunks check n st) := by
  -- the part common to both kinds of headers
  have file : ∀ (n : Nat) (st st1 : PState) (ls rest : List Str) (stops : List (List Str)) (out : Outcome), header st = Res.ok (st1, true) →
      st1.malformed = st.malformed → st1.rest = ls → AllShort ls → Hunks ls (some rest) → rest.length < n + 1 →
      (∀ (n : Nat) (st : PState), st.rest = rest → AllShort rest → rest.length < n → Follows o st stops out (fileLoop header hunks check n st)) →
      rest.length < n →
      Follows o st (rest :: stops) out (fileLoop header hunks check (n + 1) st) := by
    intro n st st1 ls rest stops out h1 hm e hs hH _ ih hn
    simp only [fileLoop, h1, Res.bind_ok, Bool.true_eq_false, if_false]
    rcases hk st1 (e ▸ hs) with ⟨st2, h2, m2, r2, s2⟩ | ⟨_, r2⟩
    · rw [h2]
      simp only [Res.bind_ok]
      rw [e] at r2 s2
      have := hdet _ _ _ r2 hH
      simp only [Option.some.injEq] at this
      have e3 : (checkHeader check st2.keepModel).rest = rest := by rw [checkHeader_rest, keepModel_rest, this]
      have := ih n (checkHeader check st2.keepModel) e3 (hs.suffix (by rw [← this]; exact s2)) hn
      unfold Follows at this ⊢
      have hmal : (checkHeader check st2.keepModel).malformed = true ↔ st.malformed = true ∨ BadStop o rest := by
        rw [checkHeader_malformed hc, keepModel_malformed, keepModel_rest, m2, hm]
        rename_i hx; rw [hx]
      cases out with
      | undefined => exact this
      | finished =>
        obtain ⟨st', h, hi⟩ := this
        refine ⟨st', h, ?_⟩
        rw [hi, hmal]; simp [or_assoc]
      | abandoned =>
        obtain ⟨st', h, hi⟩ := this
        refine ⟨st', h, ?_⟩
        rw [hi, hmal]; simp [or_assoc]
    · rw [e] at r2
      exact absurd (hdet _ _ _ r2 hH) (by simp)
  have bad : ∀ (n : Nat) (st st1 : PState) (ls : List Str), header st = Res.ok (st1, true) →
      st1.rest = ls → AllShort ls → Hunks ls none → fileLoop header hunks check (n + 1) st = Res.ub := by
    intro n st st1 ls h1 e hs hH
    simp only [fileLoop, h1, Res.bind_ok, Bool.true_eq_false, if_false]
    rcases hk st1 (e ▸ hs) with ⟨st2, h2, m2, r2, s2⟩ | ⟨h2, r2⟩
    · rw [e] at r2
      exact absurd (hdet _ _ _ r2 hH) (by simp)
    · rw [h2]; rfl
  have hsuf : ∀ st1 : PState, AllShort st1.rest → ∀ rest, Hunks st1.rest (some rest) → rest <:+ st1.rest := by
    intro st1 hs rest hH
    rcases hk st1 hs with ⟨st2, h2, m2, r2, s2⟩ | ⟨h2, r2⟩
    · have := hdet _ _ _ r2 hH
      simp only [Option.some.injEq] at this
      rw [← this]; exact s2
    · exact absurd (hdet _ _ _ r2 hH) (by simp)
  induction hr with
  | finished ls h =>
    intro n st e hs hn
    cases n with
    | zero => omega
    | succ n =>
      obtain ⟨st', h1, h2⟩ := hh.absent st (e ▸ h)
      refine ⟨st', ?_, ?_⟩
      · simp [fileLoop, h1]
      · rw [h2]; simp
  | truncated pre l S h1 h2 h3 =>
    intro n st e hs hn
    cases n with
    | zero => omega
    | succ n =>
      have := hh.truncated st pre l S e h1 h2 h3
      show fileLoop header hunks check (n + 1) st = Res.ub
      simp [fileLoop, this]
  | abandoned pre l l2 ls S h1 h2 h3 h4 =>
    intro n st e hs hn
    cases n with
    | zero => omega
    | succ n =>
      obtain ⟨st', g1, g2⟩ := hh.abandoned st pre l l2 ls S e h1 h2 h3 h4
      refine ⟨st', ?_, ?_⟩
      · simp [fileLoop, g1]
      · rw [g2]; simp
  | two pre l l2 ls rest S stops out h1 h2 h3 h4 h5 _ ih =>
    intro n st e hs hn
    cases n with
    | zero => omega
    | succ n =>
      obtain ⟨st1, g1, g2, g3⟩ := hh.two st pre l l2 ls S e h1 h2 h3 h4
      have hs' : AllShort ls := hs.suffix ⟨pre ++ [l, l2], by simp⟩
      have hl := (hsuf st1 (g3 ▸ hs') rest (g3 ▸ h5)).length_le
      rw [g3] at hl
      simp only [List.length_append, List.length_cons] at hn
      exact file n st st1 ls rest stops out g1 g2 g3 hs' h5 (by omega) ih (by omega)
  | one pre l ls rest stops out h1 h2 h3 h4 _ ih =>
    intro n st e hs hn
    cases n with
    | zero => omega
    | succ n =>
      obtain ⟨st1, g1, g2, g3⟩ := hh.one st pre l ls e h1 h2 h3
      have hs' : AllShort ls := hs.suffix ⟨pre ++ [l], by simp⟩
      have hl := (hsuf st1 (g3 ▸ hs') rest (g3 ▸ h4)).length_le
      rw [g3] at hl
      simp only [List.length_append, List.length_cons] at hn
      exact file n st st1 ls rest stops out g1 g2 g3 hs' h4 (by omega) ih (by omega)
  | badTwo pre l l2 ls S h1 h2 h3 h4 h5 =>
    intro n st e hs hn
    cases n with
    | zero => omega
    | succ n =>
      obtain ⟨st1, g1, g2, g3⟩ := hh.two st pre l l2 ls S e h1 h2 h3 h4
      exact bad n st st1 ls g1 g3 (hs.suffix ⟨pre ++ [l, l2], by simp⟩) h5
  | badOne pre l ls h1 h2 h3 h4 =>
    intro n st e hs hn
    cases n with
    | zero => omega
    | succ n =>
      obtain ⟨st1, g1, g2, g3⟩ := hh.one st pre l ls e h1 h2 h3
      exact bad n st st1 ls g1 g3 (hs.suffix ⟨pre ++ [l], by simp⟩) h4

theorem first_split {F : Str → Prop} (ls : List Str) : (∀ l ∈ ls, ¬ F l) ∨ ∃ pre l more, ls = pre ++ l :: more ∧ (∀ x ∈ pre, ¬ F x) ∧ F l := by
  induction ls with
  | nil => exact .inl (by simp)
  | cons x ls ih =>
    by_cases hx : F x
    · exact .inr ⟨[], x, ls, rfl, by simp, hx⟩
    · rcases ih with h | ⟨pre, l, more, rfl, h1, h2⟩
      · refine .inl ?_
        intro l hl
        rcases List.mem_cons.1 hl with rfl | hl
        · exact hx
        · exact h l hl
      · refine .inr ⟨x :: pre, l, more, rfl, ?_, h2⟩
        intro y hy
        rcases List.mem_cons.1 hy with rfl | hy
        · exact hx
        · exact h1 y hy

/-- Every input has a reading. -/
theorem reading_total (o : Opening) {Hunks : List Str → Option (List Str) → Prop}
    (hH : ∀ ls, Hunks ls none ∨ ∃ rest, Hunks ls (some rest) ∧ rest.length ≤ ls.length) (ls : List Str) :
    ∃ stops out, Reading o Hunks ls stops out := by
  generalize hn : ls.length = n
  induction n using Nat.strongRecOn generalizing ls with
  | ind n ih =>
    rcases first_split (F := o.first) ls with h | ⟨pre, l, more, rfl, h1, h2⟩
    · exact ⟨[], .finished, .finished _ h⟩
    · simp only [List.length_append, List.length_cons] at hn
      cases hs : o.second with
      | none =>
        rcases hH more with h | ⟨rest, h, hl⟩
        · exact ⟨_, _, .badOne pre l more hs h1 h2 h⟩
        · obtain ⟨stops, out, hr⟩ := ih rest.length (by omega) rest rfl
          exact ⟨_, _, .one pre l more rest stops out hs h1 h2 h hr⟩
      | some S =>
        cases more with
        | nil => exact ⟨_, _, .truncated pre l S hs h1 h2⟩
        | cons l2 more =>
          simp only [List.length_cons] at hn
          by_cases h3 : S l2
          · rcases hH more with h | ⟨rest, h, hl⟩
            · exact ⟨_, _, .badTwo pre l l2 more S hs h1 h2 h3 h⟩
            · obtain ⟨stops, out, hr⟩ := ih rest.length (by omega) rest rfl
              exact ⟨_, _, .two pre l l2 more rest S stops out hs h1 h2 h3 h hr⟩
          · exact ⟨_, _, .abandoned pre l l2 more S hs h1 h2 h3⟩

/-- Every hunk relation that the parser follows is total. -/
theorem ReadsHunks.total {hunks : PState → Res PState} {Hunks : List Str → Option (List Str) → Prop} (h : ReadsHunks hunks Hunks) (ls : List Str)
    (hs : AllShort ls) : Hunks ls none ∨ ∃ rest, Hunks ls (some rest) ∧ rest.length ≤ ls.length := by
  rcases h { lines := ls, rest := ls, heap := { cell := fun _ => Diff.new 0 0, next := 0 }, cur := {}, models := [], single := false, malformed := false } hs with
    ⟨st', _, _, h3, h4⟩ | ⟨_, h2⟩
  · exact .inr ⟨_, h3, h4.length_le⟩
  · exact .inl h2

theorem unifiedFiles_follows (win : Bool) (g : Generator) (st : PState) (hs : AllShort st.rest) {stops : List (List Str)} {out : Outcome}
    (hr : Reading (unifiedOpening g) UnifiedHunks st.rest stops out) : Follows (unifiedOpening g) st stops out (unifiedFiles win g st) :=
  fileLoop_reads (unifiedHeader_reads win g) unifiedHunks_reads (fun _ _ _ => unifiedHunks_det)
    (by cases g <;> first | exact unifiedHeader1_lang | exact p4Header_lang) hr _ st rfl hs (by omega)

end KompareDiff2
