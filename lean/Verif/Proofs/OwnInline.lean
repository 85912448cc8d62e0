import Verif.Proofs.OwnOps
/-
Ownership: `determineInlineDifferences` creates markers of its own and does with the values what Model/Difference.lean says.
-/
namespace KompareDiff2
open Spec

theorem newMarkers_ok (vs : List Marker) {s : Objs} (h : Sane s) :
    Sane (Objs.newMarkers vs s).2 ∧ (Objs.newMarkers vs s).2.string = s.string ∧ (Objs.newMarkers vs s).2.diff = s.diff ∧
    (Objs.newMarkers vs s).2.hunk = s.hunk ∧ (Objs.newMarkers vs s).2.model = s.model ∧ (Objs.newMarkers vs s).1.Nodup ∧
    (∀ x ∈ (Objs.newMarkers vs s).1, s.next ≤ x) ∧ (∀ y, y < s.next → (Objs.newMarkers vs s).2.marker y = s.marker y) ∧
    readAll (deref (Objs.newMarkers vs s).2.marker) (Objs.newMarkers vs s).1 = Res.ok vs := by
  induction vs generalizing s with
  | nil => exact ⟨h, rfl, rfl, rfl, rfl, List.nodup_nil, fun _ hx => by simp [Objs.newMarkers] at hx, fun _ _ => rfl, rfl⟩
  | cons v vs ih =>
    obtain ⟨h1, h2, h3, h4, h5, h6, h7, h8, h9⟩ := ih (sane_newMarker h v)
    have hlt : ∀ x ∈ (Objs.newMarkers vs (s.newMarker v)).1, s.next + 1 ≤ x := h7
    have hv : (Objs.newMarkers vs (s.newMarker v)).2.marker s.next = some v := by
      rw [h8 s.next (Nat.lt_succ_self _)]
      exact put_at_same _ _ _
    refine ⟨h1, h2, h3, h4, h5, ?_, ?_, ?_, ?_⟩
    · show (s.next :: _).Nodup
      rw [List.nodup_cons]
      exact ⟨fun hm => by have := hlt _ hm; omega, h6⟩
    · intro x hx
      have hx : x ∈ s.next :: (Objs.newMarkers vs (s.newMarker v)).1 := hx
      rcases List.mem_cons.1 hx with rfl | hx
      · exact Nat.le_refl _
      · have := hlt x hx; omega
    · intro y hy
      show (Objs.newMarkers vs (s.newMarker v)).2.marker y = _
      rw [h8 y (Nat.lt_succ_of_lt hy)]
      exact put_ne _ _ (by omega)
    · show readAll (deref (Objs.newMarkers vs (s.newMarker v)).2.marker) (s.next :: _) = _
      simp only [readAll, deref_some hv, Res.bind_ok, h9]

theorem line_some {s : Objs} {i : Nat} {o : OStr} (h : s.string i = some o) :
    s.line i = (readAll (deref s.marker) o.markers >>= fun ms => Res.ok { string := o.string, conflict := o.conflict, hash := o.hash, markers := ms }) := by
  simp only [Objs.line, deref_some h, Res.bind_ok]

theorem line_ok {s : Objs} {i : Nat} {o : OStr} {v : DStr} (h : s.string i = some o) (hv : s.line i = Res.ok v) :
    readAll (deref s.marker) o.markers = Res.ok v.markers ∧ v.string = o.string ∧ v.conflict = o.conflict ∧ v.hash = o.hash := by
  rw [line_some h, Res.bind_eq_ok] at hv
  obtain ⟨ms, h1, h2⟩ := hv
  cases h2
  exact ⟨h1, rfl, rfl, rfl⟩

theorem line_congr {s t : Objs} {i : Nat} (hs : t.string i = s.string i) (hm : ∀ m ∈ marksOf s i, t.marker m = s.marker m) : t.line i = s.line i := by
  unfold Objs.line
  rw [show deref t.string i = deref s.string i by unfold deref; rw [hs]]
  cases e : deref s.string i with
  | ub => rfl
  | hang => rfl
  | ok o =>
    simp only [Res.bind_ok]
    rw [readAll_congr (g := deref s.marker) (fun m hm' => by
      unfold deref
      rw [hm m (by rw [marksOf_some (deref_ok e)]; exact hm')])]

theorem difference_congr {s t : Objs} {i : Nat} (hd : t.diff i = s.diff i) (hl : ∀ l ∈ linesOf s i, t.line l = s.line l) :
    t.difference i = s.difference i := by
  unfold Objs.difference
  rw [show deref t.diff i = deref s.diff i by unfold deref; rw [hd]]
  cases e : deref s.diff i with
  | ub => rfl
  | hang => rfl
  | ok o =>
    have hl' : ∀ l ∈ o.source ++ o.dest, t.line l = s.line l := by
      rw [← linesOf_some (deref_ok e)]; exact hl
    simp only [Res.bind_ok]
    rw [readAll_congr (g := s.line) (fun l h => hl' l (List.mem_append_left _ h)),
      readAll_congr (g := s.line) (l := o.dest) (fun l h => hl' l (List.mem_append_right _ h))]

/-- Some strings got more markers, nothing else changed. -/
structure Grown (s t : Objs) (is : List Nat) : Prop where
  diff : t.diff = s.diff
  hunk : t.hunk = s.hunk
  model : t.model = s.model
  marker : ∀ x, (s.marker x).isSome → t.marker x = s.marker x
  others : ∀ x, x ∉ is → t.string x = s.string x
  texts : ∀ x o, s.string x = some o → ∃ l, t.string x = some { o with markers := l }
  back : ∀ x, (t.string x).isSome → (s.string x).isSome
  marks : ∀ x m, m ∈ marksOf t x → m ∈ marksOf s x ∨ s.marker m = none

theorem Grown.refl (s : Objs) : Grown s s [] :=
  ⟨rfl, rfl, rfl, fun _ _ => rfl, fun _ _ => rfl, fun x o h => ⟨o.markers, h⟩, fun _ h => h, fun _ _ h => .inl h⟩

theorem Grown.trans {s t u : Objs} {a b : List Nat} (h1 : Grown s t a) (h2 : Grown t u b) : Grown s u (a ++ b) := by
  refine ⟨h2.diff.trans h1.diff, h2.hunk.trans h1.hunk, h2.model.trans h1.model, fun x hx => ?_, fun x hx => ?_, fun x o h => ?_,
    fun x hx => h1.back x (h2.back x hx), fun x m hm => ?_⟩
  · rw [h2.marker x (by rw [h1.marker x hx]; exact hx), h1.marker x hx]
  · rw [List.mem_append, not_or] at hx
    rw [h2.others x hx.2, h1.others x hx.1]
  · obtain ⟨l, e⟩ := h1.texts x o h
    obtain ⟨l', e'⟩ := h2.texts x _ e
    exact ⟨l', e'⟩
  · rcases h2.marks x m hm with k | k
    · exact h1.marks x m k
    · right
      cases e : s.marker m with
      | none => rfl
      | some v => rw [h1.marker m (by rw [e]; rfl), e] at k; cases k

theorem Grown.line {s t : Objs} {is : List Nat} (h : Grown s t is) (hs : Sane s) {x : Nat} (hx : x ∉ is) : t.line x = s.line x :=
  line_congr (h.others x hx) (fun m hm => h.marker m (hs.marks.live x m hm))

/-- New markers in front of those of one string. -/
theorem grow_one {s : Objs} (h : Sane s) {i : Nat} {a : DStr} (ha : s.line i = Res.ok a) (vs : List Marker) :
    ∃ t, (Objs.newMarkers vs s).2.onString i (fun o => { o with markers := (Objs.newMarkers vs s).1 ++ o.markers }) = Res.ok t ∧ Sane t ∧
      Grown s t [i] ∧ t.line i = Res.ok { a with markers := vs ++ a.markers } := by
  obtain ⟨o, ho⟩ : ∃ o, s.string i = some o := by
    unfold Objs.line at ha
    rw [Res.bind_eq_ok] at ha
    obtain ⟨o, h1, _⟩ := ha
    exact ⟨o, deref_ok h1⟩
  obtain ⟨h1, h2, h3, h4, h5, h6, h7, h8, h9⟩ := newMarkers_ok vs h
  generalize hr : Objs.newMarkers vs s = r at *
  have hlive : ∀ x ∈ r.1, (r.2.marker x).isSome := by
    intro x hx
    have key : ∀ (l : List Nat) (ws : List Marker), readAll (deref r.2.marker) l = Res.ok ws → ∀ x ∈ l, (r.2.marker x).isSome := by
      intro l
      induction l with
      | nil => intro _ _ x hx; simp at hx
      | cons y l ih =>
        intro ws hw x hx
        simp only [readAll, Res.bind_eq_ok] at hw
        obtain ⟨v, e1, ws', e2, _⟩ := hw
        rcases List.mem_cons.1 hx with rfl | hx
        · rw [deref_ok e1]; rfl
        · exact ih ws' e2 x hx
    exact key _ _ h9 x hx
  have hold : ∀ x, (s.marker x).isSome → r.2.marker x = s.marker x := fun x hx => h8 x (live_lt h.freshM hx)
  have ho' : r.2.string i = some o := by rw [h2]; exact ho
  have hmk : ∀ p, marksOf r.2 p = marksOf s p := fun p => by unfold marksOf; rw [h2]
  obtain ⟨e1, e2⟩ := sane_onString h1 ho' (fun o => { o with markers := r.1 ++ o.markers }) (by
    show (r.1 ++ o.markers).Nodup
    rw [List.nodup_append]
    refine ⟨h6, by rw [← marksOf_some ho]; exact h.marks.nodup i, ?_⟩
    intro x hx y hy e
    subst e
    have := h7 x hx
    have := live_lt h.freshM (h.marks.live i x (by rw [marksOf_some ho]; exact hy))
    omega) (by
    intro m hm
    have hm : m ∈ r.1 ++ o.markers := hm
    rcases List.mem_append.1 hm with hm | hm
    · refine ⟨hlive m hm, fun p _ hp => ?_⟩
      rw [hmk p] at hp
      have := h7 m hm
      have := live_lt h.freshM (h.marks.live p m hp)
      omega
    · have hm' : m ∈ marksOf s i := by rw [marksOf_some ho]; exact hm
      refine ⟨by rw [hold m (h.marks.live i m hm')]; exact h.marks.live i m hm', fun p hp hp' => ?_⟩
      rw [hmk p] at hp'
      exact hp (h.marks.uniq p i m hp' hm'))
  refine ⟨_, e1, e2, ⟨h3, h4, h5, hold, ?_, ?_, ?_, ?_⟩, ?_⟩
  · intro x hx
    rw [List.mem_singleton] at hx
    show put r.2.string i _ x = _
    rw [put_ne _ _ hx, h2]
  · intro x p hp
    by_cases hx : x = i
    · subst hx
      rw [ho] at hp
      cases hp
      exact ⟨r.1 ++ o.markers, put_at_same _ _ _⟩
    · refine ⟨p.markers, ?_⟩
      show put r.2.string i _ x = _
      rw [put_ne _ _ hx, h2, hp]
  · intro x hx
    by_cases e : x = i
    · rw [e, ho]; rfl
    · have hx : (put r.2.string i (some { o with markers := r.1 ++ o.markers }) x).isSome := hx
      rw [put_ne _ _ e, h2] at hx
      exact hx
  · intro x m hm
    by_cases e : x = i
    · subst e
      rw [marksOf_some (o := { o with markers := r.1 ++ o.markers }) (put_at_same _ _ _)] at hm
      rcases List.mem_append.1 hm with hm | hm
      · exact .inr (h.freshM m (h7 m hm))
      · exact .inl (by rw [marksOf_some ho]; exact hm)
    · left
      rw [← hmk x]
      have hm : m ∈ ((put r.2.string i (some { o with markers := r.1 ++ o.markers }) x).map OStr.markers).getD [] := hm
      rw [put_ne _ _ e] at hm
      exact hm
  · obtain ⟨q1, q2, q3, q4⟩ := line_ok ho ha
    rw [line_some (o := { o with markers := r.1 ++ o.markers }) (put_at_same _ _ _)]
    have : readAll (deref r.2.marker) o.markers = Res.ok a.markers := by
      rw [← q1]
      refine readAll_congr (fun m hm => ?_)
      unfold deref
      rw [hold m (h.marks.live i m (by rw [marksOf_some ho]; exact hm))]
    show (readAll (deref r.2.marker) (r.1 ++ o.markers) >>= _) = _
    rw [readAll_append h9 this, Res.bind_ok]
    simp only [← q2, ← q3, ← q4]

theorem suffix_split {α : Type} {old l : List α} (h : old <:+ l) : l.take (l.length - old.length) ++ old = l := by
  obtain ⟨p, rfl⟩ := h
  simp

theorem markPair_eq (s : Objs) (t : LTable) (i j : Nat) : s.markPair t i j =
    (s.line i >>= fun a => s.line j >>= fun b =>
      t.createTable (differenceStringPair ' ' a.string b.string a.markers b.markers) >>= fun r =>
      (if r.1 ≠ 0 then r.2.createListsOfMarkers (differenceStringPair ' ' a.string b.string a.markers b.markers)
        else Res.ok (a.markers, b.markers)) >>= fun m =>
      (Objs.newMarkers (m.1.take (m.1.length - a.markers.length)) s).2.onString i
        (fun o => { o with markers := (Objs.newMarkers (m.1.take (m.1.length - a.markers.length)) s).1 ++ o.markers }) >>= fun s =>
      (Objs.newMarkers (m.2.take (m.2.length - b.markers.length)) s).2.onString j
        (fun o => { o with markers := (Objs.newMarkers (m.2.take (m.2.length - b.markers.length)) s).1 ++ o.markers }) >>= fun s =>
      Res.ok (r.2, s)) := by
  unfold Objs.markPair
  congr 1
  funext a
  congr 1
  funext b
  simp only
  congr 1
  funext r
  split <;> rfl

theorem markPair_ok {s : Objs} (h : Sane s) {t : LTable} (hv : t.Valid) {i j : Nat} (hij : i ≠ j) {a b : DStr} (ha : s.line i = Res.ok a)
    (hb : s.line j = Res.ok b) (la : ShortLine a.string) (lb : ShortLine b.string) :
    ∃ r m s', t.createTable (differenceStringPair ' ' a.string b.string a.markers b.markers) = Res.ok r ∧ r.2.Valid ∧
      (if r.1 ≠ 0 then r.2.createListsOfMarkers (differenceStringPair ' ' a.string b.string a.markers b.markers)
        else Res.ok (a.markers, b.markers)) = Res.ok m ∧
      s.markPair t i j = Res.ok (r.2, s') ∧ Sane s' ∧ Grown s s' [i, j] ∧ s'.line i = Res.ok { a with markers := m.1 } ∧
      s'.line j = Res.ok { b with markers := m.2 } := by
  obtain ⟨r, e1, hv', m, e2, f1, f2⟩ := pair_ok hv la lb a.markers b.markers
  obtain ⟨s1, e3, k1, g1, l1⟩ := grow_one h ha (m.1.take (m.1.length - a.markers.length))
  rw [suffix_split f1] at l1
  have hb1 : s1.line j = Res.ok b := by rw [g1.line h (by rw [List.mem_singleton]; exact fun e => hij e.symm)]; exact hb
  obtain ⟨s2, e4, k2, g2, l2⟩ := grow_one k1 hb1 (m.2.take (m.2.length - b.markers.length))
  rw [suffix_split f2] at l2
  refine ⟨r, m, s2, e1, hv', e2, ?_, k2, g1.trans g2, ?_, l2⟩
  · rw [markPair_eq, ha, Res.bind_ok, hb, Res.bind_ok, e1, Res.bind_ok, e2, Res.bind_ok, e3, Res.bind_ok, e4, Res.bind_ok]
  · rw [g2.line k1 (by rw [List.mem_singleton]; exact hij)]; exact l1

theorem markPairs_ok {s : Objs} (h : Sane s) {t : LTable} (hv : t.Valid) (is js : List Nat) (hn : (is ++ js).Nodup) {ss ds : List DStr}
    (hs : readAll s.line is = Res.ok ss) (hd : readAll s.line js = Res.ok ds) (ls : ∀ x ∈ ss, ShortLine x.string) (ld : ∀ x ∈ ds, ShortLine x.string) :
    ∃ s' ss' ds', Objs.markPairs t is js s = Res.ok s' ∧ Sane s' ∧ Grown s s' (is ++ js) ∧ inlineLoop t ss ds = Res.ok (ss', ds') ∧
      readAll s'.line is = Res.ok ss' ∧ readAll s'.line js = Res.ok ds' := by
  have weaken : ∀ {a b : Objs} {l l' : List Nat}, Grown a b l → (∀ x ∈ l, x ∈ l') → Grown a b l' := fun g hl =>
    ⟨g.diff, g.hunk, g.model, g.marker, fun x hx => g.others x (fun hx' => hx (hl x hx')), g.texts, g.back, g.marks⟩
  induction is generalizing s t js ss ds with
  | nil =>
    simp only [readAll] at hs
    cases hs
    exact ⟨s, [], ds, by simp [Objs.markPairs], h, weaken (Grown.refl s) (by simp), by simp [inlineLoop], rfl, hd⟩
  | cons i is ih =>
    cases js with
    | nil =>
      simp only [readAll] at hd
      cases hd
      exact ⟨s, ss, [], by simp [Objs.markPairs], h, weaken (Grown.refl s) (by simp), by cases ss <;> simp [inlineLoop], hs, rfl⟩
    | cons j js =>
      simp only [readAll, Res.bind_eq_ok] at hs hd
      obtain ⟨a, ha, ss, hss, q⟩ := hs
      cases q
      obtain ⟨b, hb, ds, hds, q⟩ := hd
      cases q
      simp only [List.cons_append, List.nodup_cons, List.mem_append, List.mem_cons, not_or] at hn
      have hp : (is ++ j :: js).Perm (j :: (is ++ js)) := List.perm_middle
      have hn2 : (j :: (is ++ js)).Nodup := hp.nodup_iff.1 hn.2
      simp only [List.nodup_cons, List.mem_append, not_or] at hn2
      obtain ⟨r, m, s1, e1, hv', e2, e3, k1, g1, l1, l2⟩ := markPair_ok h hv (Ne.intro hn.1.2.1) ha hb (ls a (by simp)) (ld b (by simp))
      have o1 : readAll s1.line is = Res.ok ss := by
        rw [← hss]
        exact readAll_congr (fun x hx => g1.line h (by
          simp only [List.mem_cons, List.not_mem_nil, or_false, not_or]
          exact ⟨fun e => hn.1.1 (e ▸ hx), fun e => hn2.1.1 (e ▸ hx)⟩))
      have o2 : readAll s1.line js = Res.ok ds := by
        rw [← hds]
        exact readAll_congr (fun x hx => g1.line h (by
          simp only [List.mem_cons, List.not_mem_nil, or_false, not_or]
          exact ⟨fun e => hn.1.2.2 (e ▸ hx), fun e => hn2.1.2 (e ▸ hx)⟩))
      obtain ⟨s2, ss', ds', f1, k2, g2, f2, f3, f4⟩ := ih k1 hv' js hn2.2 o1 o2 (fun x hx => ls x (by simp [hx])) (fun x hx => ld x (by simp [hx]))
      refine ⟨s2, { a with markers := m.1 } :: ss', { b with markers := m.2 } :: ds', ?_, k2, weaken (g1.trans g2) ?_, ?_, ?_, ?_⟩
      · simp only [Objs.markPairs, e3, Res.bind_ok, f1]
      · intro x hx
        simp only [List.mem_append, List.mem_cons, List.not_mem_nil, or_false] at hx ⊢
        grind
      · rw [inlineLoop_cons, e1, Res.bind_ok, e2, Res.bind_ok, f2, Res.bind_ok]
      · simp only [readAll]
        rw [g2.line k1 (by simp only [List.mem_append, not_or]; exact ⟨hn.1.1, hn.1.2.2⟩), l1, Res.bind_ok, f3, Res.bind_ok]
      · simp only [readAll]
        rw [g2.line k1 (by simp only [List.mem_append, not_or]; exact hn2.1), l2, Res.bind_ok, f4, Res.bind_ok]

theorem sane_determineInline {s : Objs} (h : Sane s) {i : Nat} (hi : (s.diff i).isSome) (hl : ShortLines s i) :
    ∃ s' d d', s.determineInline i = Res.ok s' ∧ Sane s' ∧ Grown s s' (linesOf s i) ∧ s.difference i = Res.ok d ∧
      d.determineInline = Res.ok d' ∧ s'.difference i = Res.ok d' := by
  obtain ⟨o, ho, hd⟩ := deref_isSome hi
  obtain ⟨d, hdd⟩ := sane_difference h hi
  have hdd' := hdd
  unfold Objs.difference at hdd
  rw [hd, Res.bind_ok, Res.bind_eq_ok] at hdd
  obtain ⟨ss, h1, hdd⟩ := hdd
  rw [Res.bind_eq_ok] at hdd
  obtain ⟨ds, h2, hdd⟩ := hdd
  cases hdd
  have weaken : Grown s s (linesOf s i) := by
    have g := Grown.refl s
    exact ⟨g.diff, g.hunk, g.model, g.marker, fun x _ => rfl, g.texts, g.back, g.marks⟩
  have short : ∀ (l : List Nat) (vs : List DStr), (∀ x ∈ l, x ∈ o.source ++ o.dest) → readAll s.line l = Res.ok vs → ∀ v ∈ vs, ShortLine v.string := by
    intro l
    induction l with
    | nil => intro vs _ hv v hvv; simp only [readAll] at hv; cases hv; simp at hvv
    | cons x l ih =>
      intro vs hx hv v hvv
      simp only [readAll, Res.bind_eq_ok] at hv
      obtain ⟨w, q1, ws, q2, q3⟩ := hv
      cases q3
      rcases List.mem_cons.1 hvv with rfl | hvv
      · have hm := hx x (by simp)
        obtain ⟨p, hp⟩ := Option.isSome_iff_exists.1 (h.lines.live i x (by rw [linesOf_some ho]; exact hm))
        have := hl o ho x hm p hp
        rw [← (line_ok hp q1).2.1] at this
        exact this
      · exact ih ws (fun y hy => hx y (by simp [hy])) q2 v hvv
  have same : ∀ s' ss' ds', Grown s s' (linesOf s i) → readAll s'.line o.source = Res.ok ss' → readAll s'.line o.dest = Res.ok ds' →
      s'.difference i = Res.ok { type := o.type, sourceLineNo := o.sourceLineNo, destLineNo := o.destLineNo, tracking := o.tracking, source := ss', dest := ds', applied := o.applied, conflicts := o.conflicts, unsaved := o.unsaved } := by
    intro s' ss' ds' g q1 q2
    unfold Objs.difference
    rw [g.diff, hd, Res.bind_ok, q1, Res.bind_ok, q2, Res.bind_ok]
  unfold Objs.determineInline
  rw [hd, Res.bind_ok]
  by_cases ht : o.type ≠ .Change
  · rw [if_pos ht]
    exact ⟨s, _, _, rfl, h, weaken, hdd', by unfold Diff.determineInline; rw [if_pos (by exact ht)], hdd'⟩
  · rw [if_neg ht]
    by_cases hlen : o.source.length ≠ o.dest.length
    · rw [if_pos hlen]
      exact ⟨s, _, _, rfl, h, weaken, hdd', by
        unfold Diff.determineInline
        rw [if_neg (by exact ht), if_pos (by
          show ss.length ≠ ds.length
          rw [readAll_length h1, readAll_length h2]; exact hlen)], hdd'⟩
    · rw [if_neg hlen]
      obtain ⟨s', ss', ds', f1, k, g, f2, f3, f4⟩ := markPairs_ok h LTable.init_valid o.source o.dest (sane_lines h ho).1 h1 h2
        (short _ _ (fun x hx => List.mem_append_left _ hx) h1) (short _ _ (fun x hx => List.mem_append_right _ hx) h2)
      rw [← linesOf_some ho] at g
      refine ⟨s', _, _, f1, k, g, hdd', ?_, same s' ss' ds' g f3 f4⟩
      unfold Diff.determineInline
      rw [if_neg (by exact ht), if_neg (by
        show ¬ ss.length ≠ ds.length
        rw [readAll_length h1, readAll_length h2]; exact hlen)]
      simp only
      rw [f2, Res.bind_ok]

end KompareDiff2
