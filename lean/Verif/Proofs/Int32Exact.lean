import Verif.Proofs.Int32
import Verif.Proofs.UnifiedDiff
import Verif.Proofs.ContextDiff
/-
For well-formed unified and context diffs: nothing overflows exactly if every hunk ends within `int`.
-/
namespace KompareDiff2
open Spec Re

theorem unifiedHeaderValues32_fit {c : Caps} {u : UHeader} (e : unifiedHeaderValues c = some u) (h1 : u.a ≤ maxInt) (h2 : u.b ≤ maxInt) :
    unifiedHeaderValues32 c = Res.ok (some u) := by
  have side : ∀ (g t : Str) (n : Int), (if g ≠ [] ∧ n = 0 then toInt t + 1 else toInt t) ≤ maxInt →
      emptyRange32 g n (toInt t) = Res.ok (if g ≠ [] ∧ n = 0 then toInt t + 1 else toInt t) := by
    intro g t n h
    have := (toIntOk_range t).1
    unfold emptyRange32
    split
    · rename_i hc
      rw [if_pos hc] at h
      refine int32_ok ?_ h
      unfold toInt; omega
    · rfl
  unfold unifiedHeaderValues at e
  unfold unifiedHeaderValues32
  simp only at e ⊢
  generalize (if c.get 3 = [] then ((1 : Int), true) else toIntOk (c.get 3)) = na at *
  generalize (if c.get 6 = [] then ((1 : Int), true) else toIntOk (c.get 6)) = nb at *
  by_cases h5 : na.2 = false
  · rw [if_pos h5] at e; cases e
  · rw [if_neg h5] at e
    by_cases h6 : nb.2 = false
    · rw [if_pos h6] at e; cases e
    · rw [if_neg h6] at e
      cases e
      dsimp only at h1 h2
      rw [if_neg h5, side _ _ _ h1, Res.bind_ok, if_neg h6, side _ _ _ h2]
      rfl

theorem unifiedBodyLoop32_end {n : Nat} {ls : List Str} {a b ca cb : Int} {q : Entries × List Str} (h : unifiedBodyLoop n ls a b ca cb = Res.ok q)
    (a1 : 0 ≤ a) (a2 : a + ((q.1.map (fun e => e.1.view.src.length)).sum : Nat) ≤ maxInt) (b1 : 0 ≤ b)
    (b2 : b + ((q.1.map (fun e => e.1.view.dst.length)).sum : Nat) ≤ maxInt) (h1 : CountOk ls.length ca) (h2 : CountOk ls.length cb) :
    unifiedBodyLoop32 n ls a b ca cb = Res.ok q := by
  induction n generalizing ls a b ca cb q with
  | zero => cases h
  | succ n ih =>
    cases ls with
    | nil => simp only [unifiedBodyLoop, Res.ok.injEq] at h; rw [← h]; rfl
    | cons l ls =>
      simp only [unifiedBodyLoop32, unifiedBodyLoop] at h ⊢
      obtain ⟨mt, hm, h⟩ := Res.bind_eq_ok.1 h
      rw [hm, Res.bind_ok]
      split
      · rename_i hc
        rw [if_pos hc] at h
        obtain ⟨r, hr, h⟩ := Res.bind_eq_ok.1 h
        obtain ⟨q', hq, h⟩ := Res.bind_eq_ok.1 h
        simp only [Res.ok.injEq] at h
        subst h
        simp only [List.map_cons, List.sum_cons, view_slc, view_dlc] at a2 b2
        rw [unifiedStep32_ok h1 h2, hr, Res.bind_ok]
        obtain ⟨_, _, k3, k4⟩ := unifiedStep_counts h1 h2 hr
        rw [bump32_ok (by omega) (by omega), Res.bind_ok, bump32_ok (by omega) (by omega), Res.bind_ok,
          ih hq (by omega) (by simp only [view_slc]; omega) (by omega) (by simp only [view_dlc]; omega) k3 k4]
        rfl
      · rename_i hc
        rw [if_neg hc] at h
        exact h

theorem contextBodyLoop32_end {n : Nat} {os ns : List Str} {a b : Int} {q : Entries × Bool} (h : contextBodyLoop n os ns a b = Res.ok q)
    (a1 : 0 ≤ a) (a2 : a + ((q.1.map (fun e => e.1.view.src.length)).sum : Nat) ≤ maxInt) (b1 : 0 ≤ b)
    (b2 : b + ((q.1.map (fun e => e.1.view.dst.length)).sum : Nat) ≤ maxInt) : contextBodyLoop32 n os ns a b = Res.ok q := by
  induction n generalizing os ns a b q with
  | zero => cases h
  | succ n ih =>
    simp only [contextBodyLoop32, contextBodyLoop] at h ⊢
    split
    · rename_i hc
      rw [if_pos hc] at h; exact h
    · rename_i hc
      rw [if_neg hc] at h
      obtain ⟨s, hs, h⟩ := Res.bind_eq_ok.1 h
      rw [hs, Res.bind_ok]
      cases s with
      | none => exact h
      | some r =>
        simp only at h ⊢
        obtain ⟨q', hq, h⟩ := Res.bind_eq_ok.1 h
        simp only [Res.ok.injEq] at h
        subst h
        simp only [List.map_cons, List.sum_cons, view_slc, view_dlc] at a2 b2
        rw [bump32_ok (by omega) (by omega), Res.bind_ok, bump32_ok (by omega) (by omega), Res.bind_ok,
          ih hq (by omega) (by simp only [view_slc]; omega) (by omega) (by simp only [view_dlc]; omega)]
        rfl

theorem append_singleton_inj {α : Type} {l : List α} {x y : α} (h : l ++ [x] = l ++ [y]) : x = y := by
  have := List.append_cancel_left h
  simpa using this

/-- One hunk: the checked function succeeds exactly if the hunk added ends within `int`. -/
theorem parseUnifiedHunk32_exact {st st' : PState} (p : Parsed (fun _ => True) st.heap st.cur) (hl : st.rest.length ≤ 2147483648)
    (h : parseUnifiedHunk st = Res.ok (some st')) {k : HView}
    (hk : (st'.cur.view st'.heap).hunks = (st.cur.view st.heap).hunks ++ [k]) :
    (k.EndsFit → parseUnifiedHunk32 st = Res.ok (some st')) ∧ (¬ k.EndsFit → parseUnifiedHunk32 st = Res.ub) := by
  have hM : maxInt = 2147483647 := rfl
  unfold parseUnifiedHunk at h
  unfold parseUnifiedHunk32
  cases hr : st.rest with
  | nil => rw [hr] at h; simp at h
  | cons l ls =>
    rw [hr] at h hl
    simp only at h ⊢
    cases hc : reUnifiedHunkHeader.full l with
    | none => rw [hc] at h; simp at h
    | some c =>
      rw [hc] at h
      simp only at h ⊢
      cases hu : unifiedHeaderValues c with
      | none =>
        rw [hu] at h
        simp only [Res.ok.injEq, Option.some.injEq] at h
        rw [← h] at hk
        have := congrArg List.length hk
        simp at this
      | some u =>
        rw [hu] at h
        simp only at h
        obtain ⟨q, hq, h⟩ := Res.bind_eq_ok.1 h
        simp only [Res.ok.injEq, Option.some.injEq] at h
        have hv := addHunk_view st u.a u.b u.function q.1 p (unifiedBody_sound hq).1
        have hk' : hunkView u.a u.b u.function q.1 = k := by
          have e1 : (st'.cur.view st'.heap).hunks = (st.cur.view st.heap).hunks ++ [hunkView u.a u.b u.function q.1] := by
            rw [← h]; exact congrArg MView.hunks hv
          exact append_singleton_inj (e1.symm.trans hk)
        subst hk'
        obtain ⟨r1, r2, r3, r4, r5, r6, r7, r8⟩ := unifiedHeaderValues_range hu
        have t1 := (toIntOk_range (c.get 1)).1
        have t4 := (toIntOk_range (c.get 4)).1
        unfold toInt at r1 r3
        simp only [List.length_cons] at hl
        constructor
        · rintro ⟨f1, f2⟩
          simp only [hunkView, List.map_map] at f1 f2
          rw [unifiedHeaderValues32_fit hu (by omega) (by omega), Res.bind_ok]
          simp only
          rw [unifiedBodyLoop32_end hq (by omega) f1 (by omega) f2 ⟨by omega, r6⟩ ⟨by omega, r8⟩, Res.bind_ok, h]
        · intro nf
          rcases unifiedHeaderValues32_below c with e | e
          · rw [e]; rfl
          · rw [e, Res.bind_ok, hu]
            rw [hu] at e
            simp only
            rcases unifiedBodyLoop32_below (ls.length + 1) ls u.a u.b u.countA u.countB with e2 | e2
            · rw [e2]; rfl
            · exfalso
              obtain ⟨g1, g2⟩ := unifiedHeaderValues32_fits e
              rw [hq] at e2
              obtain ⟨k1, k2⟩ := unifiedBodyLoop32_fits e2 g1 g2
              refine nf ⟨?_, ?_⟩ <;> simp only [hunkView, List.map_map]
              · exact k1
              · exact k2

theorem parseContextHunk32_exact {st st' st'' : PState} (p : Parsed (fun _ => True) st.heap st.cur)
    (h : parseContextHunk st = Res.ok (some st', st'')) {k : HView}
    (hk : (st'.cur.view st'.heap).hunks = (st.cur.view st.heap).hunks ++ [k]) :
    (k.EndsFit → parseContextHunk32 st = Res.ok (some st', st'')) ∧ (¬ k.EndsFit → parseContextHunk32 st = Res.ub) := by
  unfold parseContextHunk at h
  unfold parseContextHunk32
  cases hh : contextHunkHeader st.rest with
  | mk o ls =>
    rw [hh] at h
    cases o with
    | none => simp at h
    | some cc =>
      obtain ⟨c1, c2⟩ := cc
      simp only at h ⊢
      cases hr : (contextLines ls).2 with
      | nil => rw [hr] at h; simp at h
      | cons l ls2 =>
        rw [hr] at h
        simp only at h ⊢
        cases h3 : reContextHunkHeader3.full l with
        | none =>
          rw [h3] at h
          simp only [Res.ok.injEq, Prod.mk.injEq, Option.some.injEq] at h
          rw [← h.1] at hk
          have := congrArg List.length hk
          simp at this
        | some c3 =>
          rw [h3] at h
          simp only at h ⊢
          obtain ⟨q, hq, h⟩ := Res.bind_eq_ok.1 h
          simp only [Res.ok.injEq, Prod.mk.injEq, Option.some.injEq] at h
          have hv := addHunk_view st (toInt (c2.get 1)) (toInt (c3.get 1)) (c1.get 1) q.1 p (contextBody_sound hq).1
          have hk' : hunkView (toInt (c2.get 1)) (toInt (c3.get 1)) (c1.get 1) q.1 = k := by
            have e1 : (st'.cur.view st'.heap).hunks = (st.cur.view st.heap).hunks ++ [hunkView (toInt (c2.get 1)) (toInt (c3.get 1)) (c1.get 1) q.1] := by
              rw [← h.1]; exact congrArg MView.hunks hv
            exact append_singleton_inj (e1.symm.trans hk)
          subst hk'
          constructor
          · rintro ⟨f1, f2⟩
            simp only [hunkView, List.map_map] at f1 f2
            rw [contextBodyLoop32_end hq (toIntOk_range _).1 f1 (toIntOk_range _).1 f2, Res.bind_ok, h.1, h.2]
          · intro nf
            rcases contextBodyLoop32_below ((contextLines ls).1.length + (contextLines ls2).1.length + 1) (contextLines ls).1 (contextLines ls2).1
              (toInt (c2.get 1)) (toInt (c3.get 1)) with e2 | e2
            · rw [e2]; rfl
            · exfalso
              rw [hq] at e2
              obtain ⟨k1, k2⟩ := contextBodyLoop32_fits e2 (toIntOk_range _).2.2 (toIntOk_range _).2.2
              refine nf ⟨?_, ?_⟩ <;> simp only [hunkView, List.map_map]
              · exact k1
              · exact k2

/-! ### Unified diffs -/

theorem hunks32_exact (hs : List UHunk) (ok : ∀ h ∈ hs, h.Ok) (rest : List Str) (hr : AfterHunks rest) (n : Nat) (hn : hs.length < n)
    (st : PState) (e : st.rest = hs.flatMap UHunk.clean ++ rest) (p : Parsed (fun _ => True) st.heap st.cur)
    (hl : st.rest.length ≤ 2147483648) :
    ((∀ h ∈ hs, h.view.EndsFit) → hunkLoop parseUnifiedHunk32 n st = hunkLoop parseUnifiedHunk n st) ∧
    (¬ (∀ h ∈ hs, h.view.EndsFit) → hunkLoop parseUnifiedHunk32 n st = Res.ub) := by
  induction hs generalizing n st with
  | nil =>
    cases n with
    | zero => simp at hn
    | succ n =>
      refine ⟨fun _ => ?_, fun h => absurd (fun h hh => by cases hh) h⟩
      simp only [List.flatMap_nil, List.nil_append] at e
      have h1 : parseUnifiedHunk st = Res.ok none := by
        unfold parseUnifiedHunk
        rw [e]
        cases rest with
        | nil => rfl
        | cons l rest => simp [unifiedHunkHeader_none (hr.noHeader l rfl)]
      have h2 : parseUnifiedHunk32 st = Res.ok none := by
        unfold parseUnifiedHunk32
        rw [e]
        cases rest with
        | nil => rfl
        | cons l rest => simp [unifiedHunkHeader_none (hr.noHeader l rfl)]
      simp [hunkLoop, h1, h2]
  | cons h hs ih =>
    cases n with
    | zero => simp at hn
    | succ n =>
      simp only [List.length_cons] at hn
      have hrest : (hs.flatMap UHunk.clean ++ rest).head? ≠ some [] := by
        cases hs with
        | nil => exact hr.nonEmpty
        | cons h' hs =>
          rw [List.flatMap_cons, List.append_assoc, (UHunk.header_prefix h' _).1]
          intro e; exact (UHunk.header_prefix h' []).2 (Option.some.inj e)
      obtain ⟨es, h1, h2, h3⟩ := parseUnifiedHunk_ok h (ok h (by simp)) st (hs.flatMap UHunk.clean ++ rest) hrest
        (by rw [e, List.flatMap_cons, List.append_assoc])
      have hf := flagged_of_blocks h2 h3
      have hp := addHunk_parsed st h.srcLine h.dstLine (h.function.getD []) es p hf trivial
      have hv := addHunk_view st h.srcLine h.dstLine (h.function.getD []) es p hf
      have hvw : hunkView h.srcLine h.dstLine (h.function.getD []) es = h.view := by simp only [hunkView, UHunk.view, h2]
      obtain ⟨x1, x2⟩ := parseUnifiedHunk32_exact p hl h1 (k := h.view) (by
        rw [← hvw]; exact congrArg MView.hunks hv)
      obtain ⟨i1, i2⟩ := ih (fun h hh => ok h (by simp [hh])) n (by omega)
        { (st.addHunk h.srcLine h.dstLine (h.function.getD []) es) with rest := hs.flatMap UHunk.clean ++ rest } rfl hp
        (by rw [e, List.flatMap_cons, List.append_assoc, List.length_append] at hl; simp only; omega)
      by_cases hfit : h.view.EndsFit
      · constructor
        · intro hall
          simp only [hunkLoop, h1, x1 hfit, Res.bind_ok]
          exact i1 (fun h hh => hall h (by simp [hh]))
        · intro hnot
          simp only [hunkLoop, x1 hfit, Res.bind_ok]
          exact i2 (fun hall => hnot (fun k hk => by
            rcases List.mem_cons.1 hk with rfl | hk
            · exact hfit
            · exact hall k hk))
      · refine ⟨fun hall => absurd (hall h (by simp)) hfit, fun _ => ?_⟩
        simp only [hunkLoop, x2 hfit]
        rfl

theorem files32_exact (win : Bool) (g : Generator) (hg : g ≠ .Perforce) (fs : List UFile) (ok : ∀ f ∈ fs, f.Ok)
    (later : ∀ f fs', fs = f :: fs' → ∀ k ∈ fs', ∀ t ts, k.preamble = t :: ts → SeparatorLine t)
    (tr : List Str) (ht : ∀ t ∈ tr, BetweenLine t) (hts : ∀ t ts, tr = t :: ts → SeparatorLine t)
    (n : Nat) (hn : fs.length < n) (st : PState) (vs : List MView) (inv : FilesInv st vs)
    (e : st.rest = fs.flatMap UFile.clean ++ tr.map (· ++ ['\n']))
    (hl : st.rest.length ≤ 2147483648) :
    ((∀ f ∈ fs, ∀ h ∈ f.hunks, h.view.EndsFit) →
      fileLoop (parseUnifiedDiffHeader win g) (fun st => hunkLoop parseUnifiedHunk32 (st.rest.length + 1) st) (unifiedHeader1 g) n st =
        fileLoop (parseUnifiedDiffHeader win g) unifiedHunks (unifiedHeader1 g) n st) ∧
    (¬ (∀ f ∈ fs, ∀ h ∈ f.hunks, h.view.EndsFit) →
      fileLoop (parseUnifiedDiffHeader win g) (fun st => hunkLoop parseUnifiedHunk32 (st.rest.length + 1) st) (unifiedHeader1 g) n st = Res.ub) := by
  induction fs generalizing n st vs with
  | nil =>
    cases n with
    | zero => simp at hn
    | succ n =>
      refine ⟨fun _ => ?_, fun h => absurd (fun h hh => by cases hh) h⟩
      simp only [List.flatMap_nil, List.nil_append] at e
      simp [fileLoop, trailer_end win g hg tr ht st e]
  | cons f fs ih =>
    cases n with
    | zero => simp at hn
    | succ n =>
      simp only [List.length_cons] at hn
      have hafter : AfterFile (fs.flatMap UFile.clean ++ tr.map (· ++ ['\n'])) := by
        cases fs with
        | nil => simpa using afterFile_trailer tr hts
        | cons f' fs =>
          rw [List.flatMap_cons, List.append_assoc]
          exact afterFile_file f' (ok f' (by simp)) (later f _ rfl f' (by simp)) _
      have erest : st.rest = f.clean ++ (fs.flatMap UFile.clean ++ tr.map (· ++ ['\n'])) := by rw [e, List.flatMap_cons, List.append_assoc]
      obtain ⟨st1, st2, h1, h2, st3, h3, h4, h5, h6⟩ := file_ok win g hg f (ok f (by simp)) st _ hafter erest vs inv
      obtain ⟨m, k1, hb, _⟩ := header_ok win g hg f (ok f (by simp)) st _ erest
      have est : st1 = { st with rest := f.hunks.flatMap UHunk.clean ++ (fs.flatMap UFile.clean ++ tr.map (· ++ ['\n'])), cur := m } :=
        (Prod.mk.inj (Res.ok.inj (h1.symm.trans k1))).1
      have hlen : f.hunks.length < st1.rest.length + 1 := by
        have : f.hunks.length ≤ (f.hunks.flatMap UHunk.clean).length := by
          induction f.hunks with
          | nil => simp
          | cons h hs ih => simp only [List.flatMap_cons, List.length_append, List.length_cons, UHunk.clean]; omega
        rw [est]
        simp only [List.length_append]; omega
      obtain ⟨x1, x2⟩ := hunks32_exact f.hunks (ok f (by simp)).hunks _ hafter.after (st1.rest.length + 1) hlen st1 (by rw [est])
        (by rw [est]; exact hb.parsed _)
        (by
          rw [erest] at hl
          rw [est]
          simp only [UFile.clean, List.length_append, List.length_map, List.length_cons] at hl ⊢
          omega)
      obtain ⟨i1, i2⟩ := ih (fun f hf => ok f (by simp [hf]))
        (by
          intro k ks hk k' hk' t ts ht
          exact later f fs rfl k' (by rw [hk]; simp [hk']) t ts ht) n (by omega) st3 _ h6 h4
        (by rw [h4]; rw [erest, List.length_append] at hl; omega)
      by_cases hfit : ∀ h ∈ f.hunks, h.view.EndsFit
      · have h2' : hunkLoop parseUnifiedHunk32 (st1.rest.length + 1) st1 = Res.ok st2 := by rw [x1 hfit]; exact h2
        constructor
        · intro hall
          simp only [fileLoop, h1, Res.bind_ok, Bool.true_eq_false, if_false, h2, h2', h3]
          exact i1 (fun f hf => hall f (by simp [hf]))
        · intro hnot
          simp only [fileLoop, h1, Res.bind_ok, Bool.true_eq_false, if_false, h2', h3]
          exact i2 (fun hall => hnot (fun k hk => by
            rcases List.mem_cons.1 hk with rfl | hk
            · exact hfit
            · exact hall k hk))
      · refine ⟨fun hall => absurd (hall f (by simp)) hfit, fun _ => ?_⟩
        simp only [fileLoop, h1, Res.bind_ok, Bool.true_eq_false, if_false, x2 hfit]
        rfl

/-! ### Context diffs -/

theorem chunks32_exact (hs : List CHunk) (ok : ∀ h ∈ hs, h.Ok) (rest : List Str) (hr : CAfterHunks rest) (n : Nat) (hn : hs.length < n)
    (st : PState) (e : st.rest = hs.flatMap CHunk.render ++ rest) (p : Parsed (fun _ => True) st.heap st.cur) :
    ((∀ h ∈ hs, h.view.EndsFit) → contextHunkLoop32 n st = contextHunkLoop n st) ∧
    (¬ (∀ h ∈ hs, h.view.EndsFit) → contextHunkLoop32 n st = Res.ub) := by
  induction hs generalizing n st with
  | nil =>
    cases n with
    | zero => simp at hn
    | succ n =>
      refine ⟨fun _ => ?_, fun h => absurd (fun h hh => by cases hh) h⟩
      simp only [List.flatMap_nil, List.nil_append] at e
      have hh : contextHunkHeader st.rest = (none, st.rest) := by
        rw [e]
        cases rest with
        | nil => rfl
        | cons l rest => simp [contextHunkHeader, hr.noStars l rfl]
      simp [contextHunkLoop, contextHunkLoop32, parseContextHunk, parseContextHunk32, hh]
  | cons h hs ih =>
    cases n with
    | zero => simp at hn
    | succ n =>
      simp only [List.length_cons] at hn
      have hrest : ∀ l, (hs.flatMap CHunk.render ++ rest).head? = some l → (reContextLine.full l).isSome = false := by
        cases hs with
        | nil => exact hr.noSection
        | cons h' hs =>
          intro l hl
          have : (h' :: hs).flatMap CHunk.render ++ rest = h'.stars :: ((h'.oldRange :: h'.oldSection ++ h'.newRange :: h'.newSection) ++
              (hs.flatMap CHunk.render ++ rest)) := by simp [CHunk.render]
          rw [this] at hl
          simp only [List.head?_cons, Option.some.injEq] at hl
          rw [← hl]; exact CHunk.stars_section h'
      obtain ⟨es, h1, h2, h3⟩ := parseContextHunk_ok h (ok h (by simp)) st (hs.flatMap CHunk.render ++ rest) hrest
        (by rw [e, List.flatMap_cons, List.append_assoc])
      have hf := flagged_of_cblocks h2 h3
      have hp := addHunk_parsed st h.srcLine h.dstLine (h.function.getD []) es p hf trivial
      have hv := addHunk_view st h.srcLine h.dstLine (h.function.getD []) es p hf
      have hvw : hunkView h.srcLine h.dstLine (h.function.getD []) es = h.view := by simp only [hunkView, CHunk.view, h2]
      obtain ⟨x1, x2⟩ := parseContextHunk32_exact p h1 (k := h.view) (by
        rw [← hvw]; exact congrArg MView.hunks hv)
      obtain ⟨i1, i2⟩ := ih (fun h hh => ok h (by simp [hh])) n (by omega)
        { (st.addHunk h.srcLine h.dstLine (h.function.getD []) es) with rest := hs.flatMap CHunk.render ++ rest } rfl hp
      by_cases hfit : h.view.EndsFit
      · constructor
        · intro hall
          simp only [contextHunkLoop, h1, x1 hfit, Res.bind_ok, contextHunkLoop32]
          exact i1 (fun h hh => hall h (by simp [hh]))
        · intro hnot
          simp only [contextHunkLoop, x1 hfit, Res.bind_ok, contextHunkLoop32]
          exact i2 (fun hall => hnot (fun k hk => by
            rcases List.mem_cons.1 hk with rfl | hk
            · exact hfit
            · exact hall k hk))
      · refine ⟨fun hall => absurd (hall h (by simp)) hfit, fun _ => ?_⟩
        simp only [contextHunkLoop, x2 hfit, contextHunkLoop32]
        rfl

theorem cfiles32_exact (win cvs : Bool) (fs : List CFile) (ok : ∀ f ∈ fs, f.Ok) (hh : ∀ f ∈ fs, HeadersOk cvs f.src f.dst)
    (later : ∀ f fs', fs = f :: fs' → ∀ k ∈ fs', ∀ t ts, k.preamble = t :: ts → SeparatorLine t)
    (tr : List Str) (ht : ∀ t ∈ tr, CBetween t) (hts : ∀ t ts, tr = t :: ts → SeparatorLine t)
    (n : Nat) (hn : fs.length < n) (st : PState) (vs : List MView) (inv : FilesInv st vs)
    (e : st.rest = fs.flatMap CFile.render ++ tr.map (· ++ ['\n'])) :
    ((∀ f ∈ fs, ∀ h ∈ f.hunks, h.view.EndsFit) →
      fileLoop (parseContextDiffHeader win (genOf cvs)) (fun st => contextHunkLoop32 (st.rest.length + 1) st) (contextHeader1 (genOf cvs)) n st =
        fileLoop (parseContextDiffHeader win (genOf cvs)) contextHunks (contextHeader1 (genOf cvs)) n st) ∧
    (¬ (∀ f ∈ fs, ∀ h ∈ f.hunks, h.view.EndsFit) →
      fileLoop (parseContextDiffHeader win (genOf cvs)) (fun st => contextHunkLoop32 (st.rest.length + 1) st) (contextHeader1 (genOf cvs)) n st = Res.ub) := by
  induction fs generalizing n st vs with
  | nil =>
    cases n with
    | zero => simp at hn
    | succ n =>
      refine ⟨fun _ => ?_, fun h => absurd (fun h hh => by cases hh) h⟩
      simp only [List.flatMap_nil, List.nil_append] at e
      simp [fileLoop, ctrailer_end win cvs tr ht st e]
  | cons f fs ih =>
    cases n with
    | zero => simp at hn
    | succ n =>
      simp only [List.length_cons] at hn
      have hafter : CAfterFile cvs (fs.flatMap CFile.render ++ tr.map (· ++ ['\n'])) := by
        cases fs with
        | nil => simpa using cafterFile_trailer cvs tr hts
        | cons f' fs =>
          rw [List.flatMap_cons, List.append_assoc]
          exact cafterFile_file cvs f' (ok f' (by simp)) (hh f' (by simp)) (later f _ rfl f' (by simp)) _
      have erest : st.rest = f.render ++ (fs.flatMap CFile.render ++ tr.map (· ++ ['\n'])) := by rw [e, List.flatMap_cons, List.append_assoc]
      obtain ⟨st1, st2, h1, h2, st3, h3, h4, h5, h6⟩ := cfile_ok win cvs f (ok f (by simp)) (hh f (by simp)) st _ hafter erest vs inv
      obtain ⟨m, k1, hb, _⟩ := cheader_ok win cvs f (ok f (by simp)) (hh f (by simp)) st _ erest
      have est : st1 = { st with rest := f.hunks.flatMap CHunk.render ++ (fs.flatMap CFile.render ++ tr.map (· ++ ['\n'])), cur := m } :=
        (Prod.mk.inj (Res.ok.inj (h1.symm.trans k1))).1
      have hlen : f.hunks.length < st1.rest.length + 1 := by
        have : f.hunks.length ≤ (f.hunks.flatMap CHunk.render).length := by
          induction f.hunks with
          | nil => simp
          | cons h hs ih => simp only [List.flatMap_cons, List.length_append, List.length_cons, CHunk.render]; omega
        rw [est]
        simp only [List.length_append]; omega
      obtain ⟨x1, x2⟩ := chunks32_exact f.hunks (ok f (by simp)).hunks _ hafter.after (st1.rest.length + 1) hlen st1 (by rw [est])
        (by rw [est]; exact hb.parsed _)
      obtain ⟨i1, i2⟩ := ih (fun f hf => ok f (by simp [hf])) (fun f hf => hh f (by simp [hf]))
        (by
          intro k ks hk k' hk' t ts ht
          exact later f fs rfl k' (by rw [hk]; simp [hk']) t ts ht) n (by omega) st3 _ h6 h4
      by_cases hfit : ∀ h ∈ f.hunks, h.view.EndsFit
      · have h2' : contextHunkLoop32 (st1.rest.length + 1) st1 = Res.ok st2 := by rw [x1 hfit]; exact h2
        constructor
        · intro hall
          simp only [fileLoop, h1, Res.bind_ok, Bool.true_eq_false, if_false, h2, h2', h3]
          exact i1 (fun f hf => hall f (by simp [hf]))
        · intro hnot
          simp only [fileLoop, h1, Res.bind_ok, Bool.true_eq_false, if_false, h2', h3]
          exact i2 (fun hall => hnot (fun k hk => by
            rcases List.mem_cons.1 hk with rfl | hk
            · exact hfit
            · exact hall k hk))
      · refine ⟨fun hall => absurd (hall f (by simp)) hfit, fun _ => ?_⟩
        simp only [fileLoop, h1, Res.bind_ok, Bool.true_eq_false, if_false, x2 hfit]
        rfl

/-! ### The parser -/

theorem cleanUpLoop_length {before ls out : List Str} (h : cleanUpLoop before ls = Res.ok out) : out.length ≤ before.length + ls.length := by
  induction ls generalizing before with
  | nil => simp only [cleanUpLoop, Res.ok.injEq] at h; rw [← h]; simp
  | cons l ls ih =>
    unfold cleanUpLoop at h
    split at h
    · cases hp : before.getLast? with
      | none => rw [hp] at h; cases h
      | some p =>
        rw [hp] at h
        have := ih h
        have := List.length_pos_of_mem (List.mem_of_getLast? hp)
        simp only [List.length_append, List.length_dropLast, List.length_cons, List.length_nil] at *
        omega
    · have := ih h
      simp only [List.length_append, List.length_cons, List.length_nil] at *
      omega

theorem UDiff.clean_length {d : UDiff} (ok : d.Ok) : d.clean.length ≤ d.render.length := by
  have := cleanUpLoop_length ((UDiff.cleans d ok).run)
  simpa using this

theorem parse32_unified {d : UDiff} (ok : d.Ok) (hne : d.files ≠ []) (hl : d.clean.length ≤ 2147483648) (win : Bool) (cmp : Str → Str → Int)
    (heap : Heap) :
    ((∀ f ∈ d.files, ∀ h ∈ f.hunks, h.view.EndsFit) → parse32 win cmp heap d.render = parse win cmp heap d.render) ∧
    (¬ (∀ f ∈ d.files, ∀ h ∈ f.hunks, h.view.EndsFit) → parse32 win cmp heap d.render = Res.ub) := by
  have hg := UDiff.generator d ok
  have hfmt := UDiff.format d ok hne
  have hlen : d.files.length < d.clean.length + 1 := by
    have : d.files.length ≤ (d.files.flatMap UFile.clean).length := by
      induction d.files with
      | nil => simp
      | cons f fs ih => simp only [List.flatMap_cons, List.length_append, List.length_cons, UFile.clean]; omega
    simp only [UDiff.clean, List.length_append]; omega
  obtain ⟨h1, h2⟩ := files32_exact win _ hg d.files ok.files ok.later d.trailer ok.trailer.1 ok.trailer.2
    (d.clean.length + 1) hlen
    { lines := d.clean, rest := d.clean, heap := heap, cur := {}, models := [], single := false, malformed := false } []
    ⟨by simp, rfl⟩ rfl hl
  unfold parse32 parse
  rw [(UDiff.cleans d ok).run]
  simp only [Res.bind_ok, parseLines, parseLines32, hfmt, unifiedFiles, unifiedFiles32]
  exact ⟨fun h => by rw [h1 h], fun h => by rw [h2 h]; rfl⟩

theorem parse32_context {d : CDiff} (ok : d.Ok) (hne : d.files ≠ []) (win : Bool) (cmp : Str → Str → Int) (heap : Heap) :
    ((∀ f ∈ d.files, ∀ h ∈ f.hunks, h.view.EndsFit) → parse32 win cmp heap d.render = parse win cmp heap d.render) ∧
    (¬ (∀ f ∈ d.files, ∀ h ∈ f.hunks, h.view.EndsFit) → parse32 win cmp heap d.render = Res.ub) := by
  have hlen : d.files.length < d.render.length + 1 := by
    have : d.files.length ≤ (d.files.flatMap CFile.render).length := by
      induction d.files with
      | nil => simp
      | cons f fs ih => simp only [List.flatMap_cons, List.length_append, List.length_cons, CFile.render]; omega
    simp only [CDiff.render, List.length_append]; omega
  obtain ⟨h1, h2⟩ := cfiles32_exact win d.cvs d.files ok.files ok.headers ok.later d.trailer ok.trailer.1 ok.trailer.2
    (d.render.length + 1) hlen
    { lines := d.render, rest := d.render, heap := heap, cur := {}, models := [], single := false, malformed := false } []
    ⟨by simp, rfl⟩ rfl
  unfold parse32 parse
  rw [CDiff.clean d ok, CDiff.generator d ok]
  simp only [Res.bind_ok, parseLines, parseLines32, CDiff.format d ok hne, contextFiles, contextFiles32]
  exact ⟨fun h => by rw [h1 h], fun h => by rw [h2 h]; rfl⟩

end KompareDiff2
