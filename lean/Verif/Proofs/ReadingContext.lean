import Verif.Proofs.Reading
/-
The parser reads arbitrary context diffs as described in Spec/Reading.lean.
-/
namespace KompareDiff2
open Spec Re

theorem contextLines_split (ls : List Str) : ls = (contextLines ls).1 ++ (contextLines ls).2 ∧ (∀ x ∈ (contextLines ls).1, SectionLine x) ∧
    ∀ x, (contextLines ls).2.head? = some x → ¬ SectionLine x := by
  induction ls with
  | nil => simp [contextLines]
  | cons l ls ih =>
    unfold contextLines
    split
    · rename_i h
      refine ⟨by simp [← ih.1], ?_, ih.2.2⟩
      intro x hx
      rcases List.mem_cons.1 hx with rfl | hx
      · exact (sectionLine_full _).1 h
      · exact ih.2.1 x hx
    · rename_i h
      refine ⟨by simp, by simp, ?_⟩
      intro x hx
      simp only [List.head?_cons, Option.some.injEq] at hx
      subst hx
      rw [← sectionLine_full]; exact h

theorem captureRun_short {p : Char → Bool} (ls : List Str) (hs : AllShort ls) : AllShort (captureRun (reBody p) ls).1 := by
  induction ls with
  | nil => simp [captureRun, AllShort]
  | cons l ls ih =>
    have hs' : AllShort ls := hs.suffix (List.suffix_cons _ _)
    unfold captureRun
    split
    · rename_i c hc
      obtain ⟨x, t, _, _, rfl, rfl⟩ := reBody_full.1 hc
      intro v hv
      rcases List.mem_cons.1 hv with rfl | hv
      · have := hs _ (List.mem_cons_self ..)
        simp only [ShortLine, List.cons_append, List.length_cons, List.length_append] at this
        simp only [ShortLine, Caps.get, List.lookup]
        simp
        omega
      · exact ih hs' v hv
    · simp [AllShort]

theorem captureRun_suffix (r : Re) (ls : List Str) : (captureRun r ls).2 <:+ ls := by
  induction ls with
  | nil => simp [captureRun]
  | cons l ls ih =>
    unfold captureRun
    split
    · exact ih.trans (List.suffix_cons _ _)
    · simp

theorem contextText_short {l : Str} (h : ShortLine l) : ShortLine (contextText l) := by
  unfold contextText
  split
  · rename_i c hc
    obtain ⟨x, t, _, _, rfl, rfl⟩ := reBody_full.1 hc
    simp only [ShortLine, List.cons_append, List.length_cons, List.length_append] at h
    simp only [ShortLine, Caps.get, List.lookup]
    simp
    omega
  · simp [ShortLine]

theorem contextUnchanged_short (n : Nat) (os ns : List Str) (ho : AllShort os) (hn : AllShort ns) : AllShort (contextUnchanged n os ns).1 := by
  induction n generalizing os ns with
  | zero => simp [contextUnchanged, AllShort]
  | succ n ih =>
    unfold contextUnchanged
    split
    · have hsub : ∀ l : List Str, AllShort l → AllShort (l.drop 1) := fun l h => h.suffix (List.drop_suffix _ _)
      intro v hv
      rcases List.mem_cons.1 hv with rfl | hv
      · cases ns with
        | cons x ns => exact contextText_short (hn x (by simp))
        | nil =>
          cases os with
          | cons x os => exact contextText_short (ho x (by simp))
          | nil => simp [ShortLine]
      · exact ih _ _ (hsub _ ho) (hsub _ hn) v hv
    · simp [AllShort]

theorem contextUnchanged_suffix (n : Nat) (os ns : List Str) : (contextUnchanged n os ns).2.1 <:+ os ∧ (contextUnchanged n os ns).2.2 <:+ ns := by
  induction n generalizing os ns with
  | zero => simp [contextUnchanged]
  | succ n ih =>
    unfold contextUnchanged
    split
    · have := ih (os.drop 1) (ns.drop 1)
      exact ⟨this.1.trans (List.drop_suffix _ _), this.2.trans (List.drop_suffix _ _)⟩
    · simp

theorem inline_defined {β : Type} (d : Diff) (hd : d.Fresh) (f : Diff → Res β) (hf : ∀ d, f d ≠ Res.ub) : (d.determineInline >>= f) ≠ Res.ub := by
  obtain ⟨d', h', _⟩ := determineInline_ok hd
  rw [h']; exact hf d'

theorem contextStep_defined {os ns : List Str} (a b : Int) (ho : AllShort os) (hn : AllShort ns) : contextStep os ns a b ≠ Res.ub := by
  have hnil : FreshLines ([] : List DStr) := by intro x hx; simp at hx
  unfold contextStep
  split
  · simp only [foldl_addSource]
    exact inline_defined _ ⟨freshLines_ofStr _ (captureRun_short os ho), hnil⟩ _ (by simp)
  · split
    · simp only [foldl_addDest]
      exact inline_defined _ ⟨hnil, freshLines_ofStr _ (captureRun_short ns hn)⟩ _ (by simp)
    · split
      · simp only [foldl_addBoth]
        exact inline_defined _ ⟨freshLines_ofStr _ (contextUnchanged_short _ os ns ho hn), freshLines_ofStr _ (contextUnchanged_short _ os ns ho hn)⟩ _ (by simp)
      · split
        · simp only [foldl_addSource, foldl_addDest]
          exact inline_defined _ ⟨freshLines_ofStr _ (captureRun_short os ho), freshLines_ofStr _ (captureRun_short ns hn)⟩ _ (by simp)
        · simp

theorem contextStep_suffix {os ns : List Str} {a b : Int} {r} (h : contextStep os ns a b = Res.ok (some r)) : r.2.1 <:+ os ∧ r.2.2 <:+ ns := by
  unfold contextStep at h
  split at h
  · obtain ⟨d, _, h⟩ := Res.bind_eq_ok.1 h
    simp only [Res.ok.injEq, Option.some.injEq] at h
    subst h
    exact ⟨captureRun_suffix _ _, List.suffix_refl _⟩
  · split at h
    · obtain ⟨d, _, h⟩ := Res.bind_eq_ok.1 h
      simp only [Res.ok.injEq, Option.some.injEq] at h
      subst h
      exact ⟨List.suffix_refl _, captureRun_suffix _ _⟩
    · split at h
      · obtain ⟨d, _, h⟩ := Res.bind_eq_ok.1 h
        simp only [Res.ok.injEq, Option.some.injEq] at h
        subst h
        exact contextUnchanged_suffix _ _ _
      · split at h
        · obtain ⟨d, _, h⟩ := Res.bind_eq_ok.1 h
          simp only [Res.ok.injEq, Option.some.injEq] at h
          subst h
          exact ⟨captureRun_suffix _ _, captureRun_suffix _ _⟩
        · simp at h

theorem contextBody_defined (n : Nat) (os ns : List Str) (a b : Int) (ho : AllShort os) (hn : AllShort ns) : contextBodyLoop n os ns a b ≠ Res.ub := by
  induction n generalizing os ns a b with
  | zero => simp [contextBodyLoop]
  | succ n ih =>
    simp only [contextBodyLoop]
    split
    · simp
    · cases hst : contextStep os ns a b with
      | ub => exact absurd hst (contextStep_defined a b ho hn)
      | hang => simp
      | ok s =>
        cases s with
        | none => simp
        | some r =>
          simp only [Res.bind_ok]
          have := contextStep_suffix hst
          have hi := ih r.2.1 r.2.2 (a + r.1.1.slc) (b + r.1.1.dlc) (ho.suffix this.1) (hn.suffix this.2)
          cases hq : contextBodyLoop n r.2.1 r.2.2 (a + r.1.1.slc) (b + r.1.1.dlc) with
          | ub => exact absurd hq hi
          | hang => simp
          | ok q => simp

theorem contextHunkLoop_reads (n : Nat) (st : PState) (hn : st.rest.length < n) (hs : AllShort st.rest) :
    (∃ st', contextHunkLoop n st = Res.ok st' ∧ st'.malformed = st.malformed ∧ ContextHunks st.rest (some st'.rest) ∧ st'.rest <:+ st.rest) ∨
      (contextHunkLoop n st = Res.ub ∧ ContextHunks st.rest none) := by
  induction n generalizing st with
  | zero => omega
  | succ n ih =>
    have hstar := fun l => starLine_lang l
    simp only [contextHunkLoop]
    cases e : st.rest with
    | nil =>
      refine .inl ⟨{ st with rest := [] }, ?_, rfl, ?_, ?_⟩
      · simp [parseContextHunk, contextHunkHeader, e]
      · exact .stop _ (by simp)
      · simp
    | cons l ls =>
      rw [e] at hn hs
      simp only [List.length_cons] at hn
      by_cases h1 : StarLine l
      · obtain ⟨c1, hc1⟩ := Option.isSome_iff_exists.1 ((Re.full_isSome _ _).2 ((starLine_lang l).2 h1))
        cases ls with
        | nil =>
          refine .inl ⟨{ st with rest := [] }, ?_, rfl, ?_, ?_⟩
          · simp [parseContextHunk, contextHunkHeader, e, hc1]
          · exact .lone _ _ h1 (by simp)
          · simp
        | cons l2 ls =>
          simp only [List.length_cons] at hn
          by_cases h2 : OldRange l2
          · obtain ⟨c2, hc2⟩ := Option.isSome_iff_exists.1 ((Re.full_isSome _ _).2 ((oldRange_lang l2).2 h2))
            have hp : parseContextHunk st = (match (contextLines ls).2 with
              | [] => Res.ub
              | l :: ls2 =>
                match reContextHunkHeader3.full l with
                | none => Res.ok (some { st with rest := (contextLines ls).2 }, st)
                | some c3 => (contextBodyLoop ((contextLines ls).1.length + (contextLines ls2).1.length + 1) (contextLines ls).1 (contextLines ls2).1
                    (toInt (c2.get 1)) (toInt (c3.get 1))) >>= fun r =>
                  Res.ok (some { (st.addHunk (toInt (c2.get 1)) (toInt (c3.get 1)) (c1.get 1) r.1) with rest := (contextLines ls2).2 }, st)) := by
              unfold parseContextHunk
              simp only [contextHunkHeader, e, hc1, hc2]
              cases (contextLines ls).2 with
              | nil => rfl
              | cons l ls2 => simp only; cases reContextHunkHeader3.full l <;> rfl
            obtain ⟨k1, k2, k3⟩ := contextLines_split ls
            cases eo : (contextLines ls).2 with
            | nil =>
              rw [hp, eo]
              refine .inr ⟨rfl, .truncated _ _ _ h1 h2 ?_⟩
              rw [k1, eo, List.append_nil]; exact k2
            | cons l3 more =>
              rw [eo] at k1 k3
              have k3 := k3 l3 rfl
              have hlen : more.length + 1 ≤ ls.length := by rw [k1]; simp
              have hs3 : AllShort (l3 :: more) := hs.suffix ⟨l :: l2 :: (contextLines ls).1, by simp [← k1]⟩
              have hsuf3 : l3 :: more <:+ l :: l2 :: ls := ⟨l :: l2 :: (contextLines ls).1, by simp [← k1]⟩
              have hsuf4 : more <:+ l :: l2 :: ls := (List.suffix_cons _ _).trans hsuf3
              by_cases h3 : NewRange l3
              · obtain ⟨c3, hc3⟩ := Option.isSome_iff_exists.1 ((Re.full_isSome _ _).2 ((newRange_lang l3).2 h3))
                rw [hp, eo]
                simp only [hc3]
                have ho : AllShort (contextLines ls).1 := by
                  intro x hx
                  exact hs x (by rw [k1]; simp [hx])
                obtain ⟨m1, m2, m3⟩ := contextLines_split more
                have hn' : AllShort (contextLines more).1 := by
                  intro x hx
                  exact hs3 x (by rw [m1]; simp [hx])
                cases hb : contextBodyLoop ((contextLines ls).1.length + (contextLines more).1.length + 1) (contextLines ls).1 (contextLines more).1
                    (toInt (c2.get 1)) (toInt (c3.get 1)) with
                | ub => exact absurd hb (contextBody_defined _ _ _ _ _ ho hn')
                | hang => exact absurd hb (contextBody_ends _ _ _ _ _ (by omega))
                | ok r =>
                  simp only [Res.bind_ok]
                  have hsuf5 : (contextLines more).2 <:+ more := ⟨(contextLines more).1, m1.symm⟩
                  have hm2 := hsuf5.length_le
                  rcases ih { (st.addHunk (toInt (c2.get 1)) (toInt (c3.get 1)) (c1.get 1) r.1) with rest := (contextLines more).2 }
                    (by simp only; omega) (hs3.suffix (hsuf5.trans (List.suffix_cons _ _))) with ⟨st', g1, g2, g3, g4⟩ | ⟨g1, g2⟩
                  · refine .inl ⟨st', g1, g2, ?_, g4.trans (hsuf5.trans hsuf4)⟩
                    have := ContextHunks.hunk l l2 l3 (contextLines ls).1 (contextLines more).1 (contextLines more).2 _ h1 h2 k2 k3 h3 m2 m3 g3
                    rw [← m1] at this
                    rw [k1]; exact this
                  · refine .inr ⟨g1, ?_⟩
                    have := ContextHunks.hunk l l2 l3 (contextLines ls).1 (contextLines more).1 (contextLines more).2 _ h1 h2 k2 k3 h3 m2 m3 g2
                    rw [← m1] at this
                    rw [k1]; exact this
              · rw [hp, eo]
                simp only [(Re.full_none _ _).2 (fun x => h3 ((newRange_lang l3).1 x)), Res.bind_ok]
                rcases ih { st with rest := l3 :: more } (by simp only [List.length_cons]; omega) hs3 with ⟨st', g1, g2, g3, g4⟩ | ⟨g1, g2⟩
                · refine .inl ⟨st', g1, g2, ?_, g4.trans hsuf3⟩
                  rw [k1]
                  exact .dropped l l2 l3 _ more _ h1 h2 k2 k3 h3 g3
                · refine .inr ⟨g1, ?_⟩
                  rw [k1]
                  exact .dropped l l2 l3 _ more _ h1 h2 k2 k3 h3 g2
          · refine .inl ⟨{ st with rest := l2 :: ls }, ?_, rfl, ?_, ?_⟩
            · simp [parseContextHunk, contextHunkHeader, e, hc1, (Re.full_none _ _).2 (fun x => h2 ((oldRange_lang l2).1 x))]
            · refine .lone _ _ h1 ?_
              intro x hx
              simp only [List.head?_cons, Option.some.injEq] at hx
              subst hx; exact h2
            · exact List.suffix_cons _ _
      · refine .inl ⟨{ st with rest := l :: ls }, ?_, rfl, ?_, ?_⟩
        · simp [parseContextHunk, contextHunkHeader, e, (Re.full_none _ _).2 (fun x => h1 ((starLine_lang l).1 x))]
        · refine .stop _ ?_
          intro x hx
          simp only [List.head?_cons, Option.some.injEq] at hx
          subst hx; exact h1
        · exact List.suffix_refl _

theorem contextHunks_reads : ReadsHunks contextHunks ContextHunks := fun st hs => contextHunkLoop_reads _ st (by omega) hs

/-- Two ways to split a list into lines with a property and a rest that begins with a line without it. -/
theorem split_unique {F : Str → Prop} {a b c d : List Str} (h : a ++ b = c ++ d) (ha : ∀ x ∈ a, F x) (hc : ∀ x ∈ c, F x)
    (hb : ∀ x, b.head? = some x → ¬ F x) (hd : ∀ x, d.head? = some x → ¬ F x) : a = c ∧ b = d := by
  induction a generalizing c with
  | nil =>
    cases c with
    | nil => exact ⟨rfl, h⟩
    | cons x c =>
      simp only [List.nil_append] at h
      subst h
      exact absurd (hc x (by simp)) (hb x rfl)
  | cons x a ih =>
    cases c with
    | nil =>
      simp only [List.nil_append] at h
      subst h
      exact absurd (ha x (by simp)) (hd x rfl)
    | cons y c =>
      simp only [List.cons_append, List.cons.injEq] at h
      obtain ⟨rfl, h⟩ := h
      obtain ⟨h1, h2⟩ := ih h (fun z hz => ha z (by simp [hz])) (fun z hz => hc z (by simp [hz]))
      exact ⟨by rw [h1], h2⟩

theorem head_not {F : Str → Prop} {l : Str} {ls : List Str} (h : ¬ F l) : ∀ x, (l :: ls).head? = some x → ¬ F x := by
  intro x hx
  simp only [List.head?_cons, Option.some.injEq] at hx
  subst hx; exact h

theorem contextHunks_det {ls : List Str} {r1 r2 : Option (List Str)} (h1 : ContextHunks ls r1) (h2 : ContextHunks ls r2) : r1 = r2 := by
  induction h1 generalizing r2 with
  | stop ls h =>
    generalize e : ls = ls' at h2
    cases h2 with
    | stop => rfl
    | lone l _ hl => exact absurd hl (h l (by rw [e]; rfl))
    | truncated l _ _ hl => exact absurd hl (h l (by rw [e]; rfl))
    | dropped l _ _ _ _ _ hl => exact absurd hl (h l (by rw [e]; rfl))
    | hunk l _ _ _ _ _ _ hl => exact absurd hl (h l (by rw [e]; rfl))
  | lone l ls hl h =>
    generalize e : l :: ls = ls' at h2
    cases h2 with
    | stop _ h' => exact absurd hl (h' l (by rw [← e]; rfl))
    | lone => simp only [List.cons.injEq] at e; rw [e.2]
    | truncated _ l2 _ _ hl2 => simp only [List.cons.injEq] at e; exact absurd hl2 (h l2 (by rw [e.2]; rfl))
    | dropped _ l2 _ _ _ _ _ hl2 => simp only [List.cons_append, List.cons.injEq] at e; exact absurd hl2 (h l2 (by rw [e.2]; rfl))
    | hunk _ l2 _ _ _ _ _ _ hl2 => simp only [List.cons_append, List.cons.injEq] at e; exact absurd hl2 (h l2 (by rw [e.2]; rfl))
  | truncated l l2 old hl hl2 ho =>
    generalize e : l :: l2 :: old = ls' at h2
    cases h2 with
    | stop _ h' => exact absurd hl (h' l (by rw [← e]; rfl))
    | lone _ _ _ h' => simp only [List.cons.injEq] at e; exact absurd hl2 (h' l2 (by rw [← e.2]; rfl))
    | truncated => rfl
    | dropped _ _ l3 _ _ _ _ _ _ hn3 =>
      simp only [List.cons_append, List.cons.injEq] at e
      exact absurd (ho l3 (by rw [e.2.2]; simp)) hn3
    | hunk _ _ l3 _ _ _ _ _ _ _ hn3 =>
      simp only [List.cons_append, List.cons.injEq] at e
      exact absurd (ho l3 (by rw [e.2.2]; simp)) hn3
  | dropped l l2 l3 old more r hl hl2 ho hn3 hnr _ ih =>
    generalize e : l :: l2 :: old ++ l3 :: more = ls' at h2
    simp only [List.cons_append] at e
    cases h2 with
    | stop _ h' => exact absurd hl (h' l (by rw [← e]; rfl))
    | lone _ _ _ h' => simp only [List.cons.injEq] at e; exact absurd hl2 (h' l2 (by rw [← e.2]; rfl))
    | truncated _ _ _ _ _ ho' =>
      simp only [List.cons.injEq] at e
      exact absurd (ho' l3 (by rw [← e.2.2]; simp)) hn3
    | dropped _ _ l3' old' more' _ _ _ ho' hn3' _ h =>
      simp only [List.cons_append, List.cons.injEq] at e
      obtain ⟨_, k⟩ := split_unique e.2.2 ho ho' (head_not hn3) (head_not hn3')
      rw [← k] at h
      exact ih h
    | hunk _ _ l3' _ _ _ _ _ _ ho' hn3' hnr' =>
      simp only [List.cons_append, List.cons.injEq] at e
      obtain ⟨_, k⟩ := split_unique e.2.2 ho ho' (head_not hn3) (head_not hn3')
      simp only [List.cons.injEq] at k
      exact absurd (k.1 ▸ hnr') hnr
  | hunk l l2 l3 old new rest r hl hl2 ho hn3 hnr hnew hrest _ ih =>
    generalize e : l :: l2 :: old ++ l3 :: (new ++ rest) = ls' at h2
    simp only [List.cons_append] at e
    cases h2 with
    | stop _ h' => exact absurd hl (h' l (by rw [← e]; rfl))
    | lone _ _ _ h' => simp only [List.cons.injEq] at e; exact absurd hl2 (h' l2 (by rw [← e.2]; rfl))
    | truncated _ _ _ _ _ ho' =>
      simp only [List.cons.injEq] at e
      exact absurd (ho' l3 (by rw [← e.2.2]; simp)) hn3
    | dropped _ _ l3' old' more' _ _ _ ho' hn3' hnr' h =>
      simp only [List.cons_append, List.cons.injEq] at e
      obtain ⟨_, k⟩ := split_unique e.2.2 ho ho' (head_not hn3) (head_not hn3')
      simp only [List.cons.injEq] at k
      exact absurd (k.1 ▸ hnr) hnr'
    | hunk _ _ l3' _ new' rest' _ _ _ ho' hn3' hnr' hnew' hrest' h =>
      simp only [List.cons_append, List.cons.injEq] at e
      obtain ⟨_, k⟩ := split_unique e.2.2 ho ho' (head_not hn3) (head_not hn3')
      simp only [List.cons.injEq] at k
      obtain ⟨_, k⟩ := split_unique k.2 hnew hnew' hrest hrest'
      rw [← k] at h
      exact ih h

theorem contextFiles_follows (win : Bool) (g : Generator) (st : PState) (hs : AllShort st.rest) {stops : List (List Str)} {out : Outcome}
    (hr : Reading (contextOpening g) ContextHunks st.rest stops out) : Follows (contextOpening g) st stops out (contextFiles win g st) :=
  fileLoop_reads (contextHeader_reads win g) contextHunks_reads (fun _ _ _ => contextHunks_det)
    (by cases g <;> first | exact contextHeader_lang _ | exact cvsHeader1_lang | exact p4Header_lang) hr _ st rfl hs (by omega)

/-! ### Normal -/

theorem normalHunkLoop_defined (n : Nat) (st : PState) : hunkLoop parseNormalHunk n st ≠ Res.ub := by
  induction n generalizing st with
  | zero => simp [hunkLoop]
  | succ n ih =>
    simp only [hunkLoop]
    have : ∃ r, parseNormalHunk st = Res.ok r := by
      unfold parseNormalHunk
      split
      · exact ⟨_, rfl⟩
      · split <;> exact ⟨_, rfl⟩
    obtain ⟨r, hr⟩ := this
    rw [hr]
    cases r with
    | none => simp
    | some st' => exact ih st'

theorem bind_defined {α β : Type} {x : Res α} {f : α → Res β} (h : x ≠ Res.ub) (hf : ∀ a, x = Res.ok a → f a ≠ Res.ub) : (x >>= f) ≠ Res.ub := by
  cases x with
  | ub => exact absurd rfl h
  | hang => simp
  | ok a => exact hf a rfl

theorem normalFileLoop_defined (header : PState → PState × Bool) (check : Re) (n : Nat) (st : PState) :
    fileLoop (fun st => Res.ok (header st)) normalHunks check n st ≠ Res.ub := by
  induction n generalizing st with
  | zero => simp [fileLoop]
  | succ n ih =>
    simp only [fileLoop, Res.bind_ok]
    split
    · simp
    · exact bind_defined (normalHunkLoop_defined _ _) (fun a _ => ih _)

theorem normalFiles_defined (win : Bool) (g : Generator) (st : PState) : normalFiles win g st ≠ Res.ub := by
  unfold normalFiles
  refine bind_defined (normalFileLoop_defined _ _ _ _) (fun a _ => ?_)
  split
  · exact bind_defined (normalHunkLoop_defined _ _) (fun a _ => by simp)
  · simp

end KompareDiff2
