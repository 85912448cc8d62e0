import Verif.Proofs.InlineParse
/-
`createListsOfMarkers` on lines that already have markers: it only prepends, and unless the old list begins with an `End` marker it
prepends the markers of a line without markers.
-/
namespace KompareDiff2
open Spec

theorem note_suffix (ms : List Marker) (n c p : Nat) : ms <:+ noteMarker ms n c p := by
  unfold noteMarker
  split
  · split
    · exact List.suffix_cons _ _
    · exact List.suffix_refl _
  · split
    · exact List.suffix_cons _ _
    · exact List.suffix_refl _

theorem walkStep_other {t : LTable} {ar : Bool} {s r : Walk} (h : walkStep t ar s = Res.ok r) (mf ms : List Marker) :
    ∃ mf' ms', walkStep t ar ⟨s.x, s.y, mf, ms⟩ = Res.ok ⟨r.x, r.y, mf', ms'⟩ ∧ mf <:+ mf' ∧ ms <:+ ms' := by
  unfold walkStep at h ⊢
  simp only [Res.bind_eq_ok] at h
  obtain ⟨cur, h1, n, h2, w, h3, nw, h4, h⟩ := h
  simp only [h1, h2, h3, h4, Res.bind_ok]
  revert h
  split
  · intro h
    cases h
    refine ⟨mf, _, rfl, List.suffix_refl _, ?_⟩
    split
    · exact (note_suffix _ _ _ _).trans (List.suffix_cons _ _)
    · exact note_suffix _ _ _ _
  · intro h
    cases h
    exact ⟨_, _, rfl, note_suffix _ _ _ _, note_suffix _ _ _ _⟩
  · intro h
    cases h
    refine ⟨_, ms, rfl, ?_, List.suffix_refl _⟩
    split
    · exact (note_suffix _ _ _ _).trans (List.suffix_cons _ _)
    · exact note_suffix _ _ _ _

theorem walkLoop_other {t : LTable} {ar : Bool} (n : Nat) {s r : Walk} (h : walkLoop t ar n s = Res.ok r) (mf ms : List Marker) :
    ∃ mf' ms', walkLoop t ar n ⟨s.x, s.y, mf, ms⟩ = Res.ok ⟨r.x, r.y, mf', ms'⟩ ∧ mf <:+ mf' ∧ ms <:+ ms' := by
  induction n generalizing s mf ms with
  | zero => simp [walkLoop] at h
  | succ n ih =>
    unfold walkLoop at h ⊢
    by_cases hc : s.x > 0 ∧ s.y > 0
    · rw [if_pos hc] at h
      rw [if_pos (by exact hc)]
      rw [Res.bind_eq_ok] at h
      obtain ⟨u, h1, h2⟩ := h
      obtain ⟨mf1, ms1, e1, f1, g1⟩ := walkStep_other h1 mf ms
      obtain ⟨mf2, ms2, e2, f2, g2⟩ := ih h2 mf1 ms1
      rw [e1, Res.bind_ok]
      exact ⟨mf2, ms2, e2, f1.trans f2, g1.trans g2⟩
    · rw [if_neg hc] at h
      rw [if_neg (by exact hc)]
      cases h
      exact ⟨mf, ms, rfl, List.suffix_refl _, List.suffix_refl _⟩

theorem lists_other {t : LTable} {a b : Str} (hf : t.Filled true a b) (mf ms : List Marker) :
    ∃ mf' ms', t.createListsOfMarkers (differenceStringPair ' ' a b mf ms) = Res.ok (mf', ms') ∧ mf <:+ mf' ∧ ms <:+ ms' := by
  obtain ⟨m1, m2, hm, _⟩ := inlineMarkers (p := differenceStringPair ' ' a b [] []) hf rfl rfl rfl
  unfold LTable.createListsOfMarkers at hm ⊢
  rw [Res.bind_eq_ok] at hm
  obtain ⟨d, h1, hm⟩ := hm
  simp only [h1, Res.bind_ok]
  have hn : (differenceStringPair ' ' a b [] []).needFine d = (differenceStringPair ' ' a b mf ms).needFine d := rfl
  rw [hn] at hm
  split
  · exact ⟨_, _, rfl, (List.suffix_cons _ _).trans (List.suffix_cons _ _), (List.suffix_cons _ _).trans (List.suffix_cons _ _)⟩
  · rename_i hc
    rw [if_neg hc, Res.bind_eq_ok] at hm
    obtain ⟨w, h2, _⟩ := hm
    obtain ⟨mf', ms', e, f, g⟩ := walkLoop_other _ h2 mf ms
    have e' : walkLoop t (differenceStringPair ' ' a b mf ms).allowReplace (t.width - 1 + (t.height - 1) + 1)
        ⟨t.width - 1, t.height - 1, (differenceStringPair ' ' a b mf ms).markersFirst, (differenceStringPair ' ' a b mf ms).markersSecond⟩ =
        Res.ok ⟨w.x, w.y, mf', ms'⟩ := e
    rw [e', Res.bind_ok]
    refine ⟨_, _, rfl, ?_, ?_⟩
    · split
      · exact f.trans ((List.suffix_cons _ _).trans (List.suffix_cons _ _))
      · exact f
    · split
      · exact g.trans ((List.suffix_cons _ _).trans (List.suffix_cons _ _))
      · exact g

/-- One pair of lines, whatever markers they have. -/
theorem pair_ok {t : LTable} (hv : t.Valid) {a b : Str} (ha : ShortLine a) (hb : ShortLine b) (mf ms : List Marker) :
    ∃ r, t.createTable (differenceStringPair ' ' a b mf ms) = Res.ok r ∧ r.2.Valid ∧ ∃ m,
      (if r.1 ≠ 0 then r.2.createListsOfMarkers (differenceStringPair ' ' a b mf ms) else Res.ok (mf, ms)) = Res.ok m ∧
        mf <:+ m.1 ∧ ms <:+ m.2 := by
  rcases createTable_short hv ha hb mf ms with ⟨t', e, hf, hv'⟩ | e
  · refine ⟨_, e, hv', ?_⟩
    split
    · obtain ⟨mf', ms', h1, h2, h3⟩ := lists_other hf mf ms
      exact ⟨(mf', ms'), h1, h2, h3⟩
    · exact ⟨_, rfl, List.suffix_refl _, List.suffix_refl _⟩
  · exact ⟨_, e, hv, by rw [if_neg (by simp)]; exact ⟨_, rfl, List.suffix_refl _, List.suffix_refl _⟩⟩

/-! ### The second time -/

/-- The list does not begin with an `End` marker. -/
def NoOpenEnd : List Marker → Prop
  | ⟨.End, _⟩ :: _ => False
  | _ => True

theorem note_append {old : List Marker} (h : NoOpenEnd old) (ms : List Marker) (n c p : Nat) :
    noteMarker (ms ++ old) n c p = noteMarker ms n c p ++ old := by
  cases ms with
  | cons x ms =>
    obtain ⟨ty, o⟩ := x
    cases ty <;> simp only [noteMarker, List.cons_append] <;> split <;> rfl
  | nil =>
    cases old with
    | nil => simp
    | cons x old =>
      obtain ⟨ty, o⟩ := x
      cases ty with
      | End => exact absurd h id
      | Start => simp only [noteMarker, List.nil_append]; split <;> rfl

theorem walkStep_append {o1 o2 : List Marker} (h1 : NoOpenEnd o1) (h2 : NoOpenEnd o2) {t : LTable} {ar : Bool} {s r : Walk}
    (h : walkStep t ar s = Res.ok r) : walkStep t ar ⟨s.x, s.y, s.mf ++ o1, s.ms ++ o2⟩ = Res.ok ⟨r.x, r.y, r.mf ++ o1, r.ms ++ o2⟩ := by
  unfold walkStep at h ⊢
  simp only [Res.bind_eq_ok] at h
  obtain ⟨cur, g1, n, g2, w, g3, nw, g4, h⟩ := h
  simp only [g1, g2, g3, g4, Res.bind_ok]
  revert h
  split
  · intro h
    cases h
    simp only [note_append h2]
    split <;> rfl
  · intro h
    cases h
    simp only [note_append h2, note_append h1]
  · intro h
    cases h
    simp only [note_append h1]
    split <;> rfl

theorem walkLoop_append {o1 o2 : List Marker} (h1 : NoOpenEnd o1) (h2 : NoOpenEnd o2) {t : LTable} {ar : Bool} (n : Nat) {s r : Walk}
    (h : walkLoop t ar n s = Res.ok r) : walkLoop t ar n ⟨s.x, s.y, s.mf ++ o1, s.ms ++ o2⟩ = Res.ok ⟨r.x, r.y, r.mf ++ o1, r.ms ++ o2⟩ := by
  induction n generalizing s with
  | zero => simp [walkLoop] at h
  | succ n ih =>
    unfold walkLoop at h ⊢
    by_cases hc : s.x > 0 ∧ s.y > 0
    · rw [if_pos hc, Res.bind_eq_ok] at h
      obtain ⟨u, e1, e2⟩ := h
      rw [if_pos (by exact hc), walkStep_append h1 h2 e1, Res.bind_ok]
      exact ih e2
    · rw [if_neg hc] at h
      rw [if_neg (by exact hc)]
      cases h
      rfl

theorem lists_append {t : LTable} {a b : Str} {o1 o2 : List Marker} (h1 : NoOpenEnd o1) (h2 : NoOpenEnd o2) {m : List Marker × List Marker}
    (h : t.createListsOfMarkers (differenceStringPair ' ' a b [] []) = Res.ok m) :
    t.createListsOfMarkers (differenceStringPair ' ' a b o1 o2) = Res.ok (m.1 ++ o1, m.2 ++ o2) := by
  unfold LTable.createListsOfMarkers at h ⊢
  rw [Res.bind_eq_ok] at h
  obtain ⟨d, e, h⟩ := h
  simp only [e, Res.bind_ok]
  have hn : (differenceStringPair ' ' a b [] []).needFine d = (differenceStringPair ' ' a b o1 o2).needFine d := rfl
  rw [hn] at h
  split
  · rename_i hc
    rw [if_pos hc] at h
    cases h
    rfl
  · rename_i hc
    rw [if_neg hc, Res.bind_eq_ok] at h
    obtain ⟨w, e2, h⟩ := h
    have e' : walkLoop t (differenceStringPair ' ' a b o1 o2).allowReplace (t.width - 1 + (t.height - 1) + 1)
        ⟨t.width - 1, t.height - 1, (differenceStringPair ' ' a b o1 o2).markersFirst, (differenceStringPair ' ' a b o1 o2).markersSecond⟩ =
        Res.ok ⟨w.x, w.y, w.mf ++ o1, w.ms ++ o2⟩ := walkLoop_append h1 h2 _ e2
    rw [e', Res.bind_ok]
    cases h
    simp only
    congr 2
    · split <;> rfl
    · split <;> rfl

theorem inlineLoop_cons (t : LTable) (sl dl : DStr) (ss ds : List DStr) : inlineLoop t (sl :: ss) (dl :: ds) =
    (t.createTable (differenceStringPair ' ' sl.string dl.string sl.markers dl.markers) >>= fun r =>
      (if r.1 ≠ 0 then r.2.createListsOfMarkers (differenceStringPair ' ' sl.string dl.string sl.markers dl.markers)
        else Res.ok (sl.markers, dl.markers)) >>= fun m =>
      inlineLoop r.2 ss ds >>= fun rest =>
      Res.ok ({ sl with markers := m.1 } :: rest.1, { dl with markers := m.2 } :: rest.2)) := by
  rw [inlineLoop]
  congr 1
  funext r
  split <;> rfl

/-- The markers once more in front. -/
def DStr.twice (d : DStr) : DStr := { d with markers := d.markers ++ d.markers }

theorem inlineLoop_again {t : LTable} (ss ds : List DStr) (h1 : ∀ x ∈ ss, x.markers = []) (h2 : ∀ x ∈ ds, x.markers = [])
    {ss' ds' : List DStr} (h : inlineLoop t ss ds = Res.ok (ss', ds')) (n1 : ∀ x ∈ ss', NoOpenEnd x.markers)
    (n2 : ∀ x ∈ ds', NoOpenEnd x.markers) : inlineLoop t ss' ds' = Res.ok (ss'.map DStr.twice, ds'.map DStr.twice) := by
  have plain : ∀ l : List DStr, (∀ x ∈ l, x.markers = []) → l.map DStr.twice = l := by
    intro l hl
    induction l with
    | nil => rfl
    | cons x l ih =>
      rw [List.map_cons, ih (fun y hy => hl y (by simp [hy]))]
      congr 1
      unfold DStr.twice
      rw [hl x (by simp)]
      exact congrArg (fun m => ({ x with markers := m } : DStr)) (hl x (by simp)).symm
  induction ss generalizing t ds ss' ds' with
  | nil =>
    simp only [inlineLoop, Res.ok.injEq, Prod.mk.injEq] at h
    obtain ⟨rfl, rfl⟩ := h
    simp only [inlineLoop, plain _ h2]
    rfl
  | cons sl ss ih =>
    cases ds with
    | nil =>
      simp only [inlineLoop, Res.ok.injEq, Prod.mk.injEq] at h
      obtain ⟨rfl, rfl⟩ := h
      simp only [inlineLoop, plain _ h1]
      rfl
    | cons dl ds =>
      rw [inlineLoop_cons] at h
      have a1 := h1 sl (by simp)
      have b1 := h2 dl (by simp)
      rw [Res.bind_eq_ok] at h
      obtain ⟨r, e1, h⟩ := h
      rw [Res.bind_eq_ok] at h
      obtain ⟨m, e2, h⟩ := h
      rw [Res.bind_eq_ok] at h
      obtain ⟨rest, e3, h⟩ := h
      simp only [Res.ok.injEq, Prod.mk.injEq] at h
      obtain ⟨rfl, rfl⟩ := h
      have ih' := ih ds (fun x hx => h1 x (by simp [hx])) (fun x hx => h2 x (by simp [hx])) (ss' := rest.1) (ds' := rest.2) e3
        (fun x hx => n1 x (by simp [hx])) (fun x hx => n2 x (by simp [hx]))
      have k1 : NoOpenEnd m.1 := n1 { sl with markers := m.1 } (by simp)
      have k2 : NoOpenEnd m.2 := n2 { dl with markers := m.2 } (by simp)
      rw [a1, b1] at e1 e2
      have e1' : t.createTable (differenceStringPair ' ' sl.string dl.string m.1 m.2) = Res.ok r := e1
      have e2' : (if r.1 ≠ 0 then r.2.createListsOfMarkers (differenceStringPair ' ' sl.string dl.string m.1 m.2) else Res.ok (m.1, m.2)) =
          Res.ok (m.1 ++ m.1, m.2 ++ m.2) := by
        by_cases hz : r.1 ≠ 0
        · rw [if_pos hz] at e2 ⊢
          exact lists_append k1 k2 e2
        · rw [if_neg hz] at e2 ⊢
          cases e2
          rfl
      rw [inlineLoop_cons]
      simp only [e1', Res.bind_ok]
      rw [e2']
      simp only [Res.bind_ok]
      rw [ih']
      rfl

end KompareDiff2
