import Verif.Proofs.OwnStep
/-
Property theorems about the ownership of markers, lines, differences and hunks: C59.
-/
namespace KompareDiff2
open Spec

/-- **C59, safe.** Whatever a client has done by the rules, the next call that follows them is defined (nothing is destroyed twice, nothing
destroyed is used), and afterwards every pointer that an accessor returns can be followed. -/
theorem C59_safe {s : Objs} (h : Ruled s) {op : OwnOp} (hl : Legal s op) : ∃ s', op.run s = Res.ok s' ∧ Ruled s' ∧ AllReadable s' := by
  obtain ⟨s', e, k, _⟩ := step_ok (ruled_sane h) hl
  exact ⟨s', e, .call h hl e, sane_readable k⟩

/-- **C59, destroyed.** A call destroys exactly the object it is asked to destroy and what that object owns: the markers of a string, the
lines of a difference, the hunks and the listed differences of a model. -/
theorem C59_destroys {s s' : Objs} (h : Ruled s) {op : OwnOp} (hl : Legal s op) (e : op.run s = Res.ok s') : GoneAre s s' (destroyed s op) := by
  obtain ⟨t, e', _, k, _⟩ := step_ok (ruled_sane h) hl
  rw [e] at e'
  cases e'
  exact k

/-- **C59, values.** A call does to the object it is made on what the value model says (so all the other theorems, which treat lines and
differences as values, apply), … -/
theorem C59_effect {s s' : Objs} (h : Ruled s) {op : OwnOp} (hl : Legal s op) (e : op.run s = Res.ok s') : Effect s s' op := by
  obtain ⟨t, e', _, _, k, _⟩ := step_ok (ruled_sane h) hl
  rw [e] at e'
  cases e'
  exact k

/-- … and nothing to any other object: no two objects share a part. -/
theorem C59_frame {s s' : Objs} (h : Ruled s) {op : OwnOp} (hl : Legal s op) (e : op.run s = Res.ok s') : OthersKept s s' op := by
  obtain ⟨t, e', _, _, _, k⟩ := step_ok (ruled_sane h) hl
  rw [e] at e'
  cases e'
  exact k

/-! ### What breaks when the rules are not followed -/

theorem deleteMarkers_cases (l : List Nat) (s : Objs) :
    deleteAll Objs.deleteMarker l s = Res.ub ∨ deleteAll Objs.deleteMarker l s = Res.ok { s with marker := wipe s.marker l } := by
  induction l generalizing s with
  | nil => right; simp only [deleteAll, wipe_nil]
  | cons i l ih =>
    simp only [deleteAll, Objs.deleteMarker]
    cases e : s.marker i with
    | none => left; simp [deref, e]
    | some v =>
      simp only [deref_some e, Res.bind_ok]
      rcases ih { s with marker := put s.marker i none } with k | k
      · exact .inl k
      · right; rw [k]; simp only [wipe_put]

theorem deleteMarkers_dead {l : List Nat} {s : Objs} {m : Nat} (hm : m ∈ l) (hd : s.marker m = none) : deleteAll Objs.deleteMarker l s = Res.ub := by
  induction l generalizing s with
  | nil => simp at hm
  | cons i l ih =>
    simp only [deleteAll, Objs.deleteMarker]
    cases e : s.marker i with
    | none => simp [deref, e]
    | some v =>
      simp only [deref_some e, Res.bind_ok]
      rcases List.mem_cons.1 hm with rfl | hm
      · rw [hd] at e; cases e
      · refine ih hm ?_
        show put s.marker i none m = none
        by_cases k : m = i
        · rw [k, put_at_same]
        · rw [put_ne _ _ k, hd]

/-- **C59, shared marker.** If two strings hold the same marker, destroying both is undefined, in any state. -/
theorem C59_shared_ub {s : Objs} {i j m : Nat} {o p : OStr} (hij : i ≠ j) (hi : s.string i = some o) (hj : s.string j = some p)
    (h1 : m ∈ o.markers) (h2 : m ∈ p.markers) : runOwn [.deleteString i, .deleteString j] s = Res.ub := by
  simp only [runOwn, OwnOp.run, Objs.deleteString, deref_some hi, Res.bind_ok]
  rcases deleteMarkers_cases o.markers s with e | e
  · rw [e]; rfl
  · rw [e]
    simp only [Res.bind_ok]
    have hj' : put s.string i none j = some p := by rw [put_ne _ _ (Ne.symm hij)]; exact hj
    simp only [deref_some hj', Res.bind_ok]
    rw [deleteMarkers_dead h2 (by show wipe s.marker o.markers m = none; exact wipe_in h1)]
    rfl

/-- **C59, copy.** Copying a string that has a marker makes a string that shares its markers: both can be read, but destroying the
original and the copy is undefined, in either order. -/
theorem C59_copy_ub {s : Objs} {i : Nat} {o : OStr} (h : Ruled s) (hi : s.string i = some o) (hm : o.markers ≠ []) :
    ∃ s', s.copyString i = Res.ok s' ∧ s'.line s.next = s.line i ∧ s'.line i = s.line i ∧
      runOwn [.deleteString i, .deleteString s.next] s' = Res.ub ∧ runOwn [.deleteString s.next, .deleteString i] s' = Res.ub := by
  have hs := ruled_sane h
  have hne : i ≠ s.next := by
    intro e
    rw [e, hs.freshS _ (Nat.le_refl _)] at hi
    cases hi
  obtain ⟨m, ms, hmm⟩ := List.exists_cons_of_ne_nil hm
  have hm' : m ∈ o.markers := by rw [hmm]; simp
  have hc : (s.allocString o).string s.next = some o := put_at_same _ _ _
  have hi' : (s.allocString o).string i = some o := by
    show put s.string s.next (some o) i = some o
    rw [put_ne _ _ hne]; exact hi
  refine ⟨s.allocString o, by simp only [Objs.copyString, deref_some hi, Res.bind_ok], ?_, ?_, C59_shared_ub hne hi' hc hm' hm',
    C59_shared_ub (Ne.symm hne) hc hi' hm' hm'⟩
  · rw [line_some hc, line_some hi]; rfl
  · rw [line_some hi', line_some hi]; rfl

/-- **C59, copy.** A marker moved through the copy moves in the original as well. -/
theorem C59_copy_alias_defect {s : Objs} {i m : Nat} {o : OStr} (h : Ruled s) (hi : s.string i = some o) (hm : m ∈ o.markers) (v : Marker) :
    ∃ s', runOwn [.copyString i, .setMarker m v] s = Res.ok s' ∧ s'.line s.next = s'.line i ∧
      ∀ w, s'.line i = Res.ok w → v ∈ w.markers := by
  have hs := ruled_sane h
  have hne : i ≠ s.next := by
    intro e
    rw [e, hs.freshS _ (Nat.le_refl _)] at hi
    cases hi
  have hml : (s.marker m).isSome := hs.marks.live i m (by rw [marksOf_some hi]; exact hm)
  obtain ⟨u, _, hu⟩ := deref_isSome hml
  have hu' : deref (s.allocString o).marker m = Res.ok u := hu
  refine ⟨{ s.allocString o with marker := put s.marker m (some v) }, ?_, ?_, ?_⟩
  · simp only [runOwn, OwnOp.run, Objs.copyString, deref_some hi, Res.bind_ok, Objs.setMarker, hu']
    rfl
  · rw [line_some (o := o) (put_at_same _ _ _), line_some (o := o) (by
      show put s.string s.next (some o) i = some o
      rw [put_ne _ _ hne]; exact hi)]
  · intro w hw
    have hi' : ({ s.allocString o with marker := put s.marker m (some v) } : Objs).string i = some o := by
      show put s.string s.next (some o) i = some o
      rw [put_ne _ _ hne]; exact hi
    have hr := (line_ok hi' hw).1
    have key : ∀ (l : List Nat) (ws : List Marker), m ∈ l → readAll (deref (put s.marker m (some v))) l = Res.ok ws → v ∈ ws := by
      intro l
      induction l with
      | nil => intro _ h; simp at h
      | cons x l ih =>
        intro ws hx hr
        simp only [readAll, Res.bind_eq_ok] at hr
        obtain ⟨y, e1, ys, e2, e3⟩ := hr
        cases e3
        rcases List.mem_cons.1 hx with rfl | hx
        · have := deref_ok e1
          rw [put_at_same] at this
          cases this
          simp
        · exact List.mem_cons_of_mem _ (ih ys hx e2)
    exact key _ _ hm hr

theorem deleteStrings_dead {l : List Nat} {s : Objs} {i : Nat} (hi : i ∈ l) (hd : s.string i = none) : deleteAll Objs.deleteString l s = Res.ub := by
  induction l generalizing s with
  | nil => simp at hi
  | cons j l ih =>
    simp only [deleteAll, Objs.deleteString]
    cases e : s.string j with
    | none => simp [deref, e]
    | some o =>
      simp only [deref_some e, Res.bind_ok]
      rcases deleteMarkers_cases o.markers s with k | k
      · rw [k]; rfl
      · rw [k]
        simp only [Res.bind_ok]
        rcases List.mem_cons.1 hi with rfl | hi
        · rw [hd] at e; cases e
        · refine ih hi ?_
          show put s.string j none i = none
          by_cases q : i = j
          · rw [q, put_at_same]
          · rw [put_ne _ _ q, hd]

/-- **C59, lines belong to the difference.** Destroying a line obtained from a difference, and then the difference, is undefined. -/
theorem C59_line_ub {s : Objs} {d i : Nat} {o : ODiff} (h : Ruled s) (hd : s.diff d = some o) (hi : i ∈ o.source ++ o.dest) :
    runOwn [.deleteString i, .deleteDiff d] s = Res.ub := by
  have hs := ruled_sane h
  have hl : (s.string i).isSome := hs.lines.live d i (by rw [linesOf_some hd]; exact hi)
  simp only [runOwn, OwnOp.run]
  rw [deleteString_eq hl (hs.marks.nodup i) (hs.marks.live i), Res.bind_ok]
  unfold Objs.deleteDiff
  rw [show deref ({ s with marker := wipe s.marker (marksOf s i), string := wipe s.string [i] } : Objs).diff d = Res.ok o from deref_some hd, Res.bind_ok,
    ← bind_assoc, ← deleteAll_append, deleteStrings_dead hi (by show wipe s.string [i] i = none; exact wipe_in (by simp))]
  rfl

/-- **C59, one model per difference.** Adding a difference to the list of a model twice makes the destruction of the model undefined. -/
theorem C59_twice_ub {s : Objs} {i d : Nat} (h : Ruled s) (hl : Legal s (.addDiff i d)) :
    runOwn [.addDiff i d, .addDiff i d, .deleteModel i] s = Res.ub := by
  have hs := ruled_sane h
  obtain ⟨o, ho⟩ := Option.isSome_iff_exists.1 hl.1
  obtain ⟨e1, k1⟩ := sane_addDiff hs ho hl.2
  obtain ⟨v, hv, hdv⟩ := deref_isSome hl.2.1
  generalize hu : ({ s with model := put s.model i (some { o with differences := o.differences ++ [d] }) } : Objs) = u at *
  have hm : u.model i = some { o with differences := o.differences ++ [d] } := by rw [← hu]; exact put_at_same _ _ _
  have hud : deref u.diff d = Res.ok v := by rw [← hu]; exact hdv
  have e2 : u.addDiff i d = Res.ok { u with model := put u.model i (some { o with differences := o.differences ++ [d] ++ [d] }) } := by
    simp only [Objs.addDiff, deref_some hm, hud, Res.bind_ok]
  simp only [runOwn, OwnOp.run]
  rw [e1, Res.bind_ok, e2, Res.bind_ok]
  generalize hw : ({ u with model := put u.model i (some { o with differences := o.differences ++ [d] ++ [d] }) } : Objs) = w
  have w1 : w.marker = u.marker := by rw [← hw]
  have w2 : w.string = u.string := by rw [← hw]
  have w3 : w.diff = u.diff := by rw [← hw]
  have w4 : w.hunk = u.hunk := by rw [← hw]
  have wm : marksOf w = marksOf u := by funext x; simp only [marksOf, w2]
  have wl : linesOf w = linesOf u := by funext x; simp only [linesOf, w3]
  have wo : w.model i = some { o with differences := o.differences ++ [d] ++ [d] } := by rw [← hw]; exact put_at_same _ _ _
  unfold Objs.deleteModel
  rw [deref_some wo, Res.bind_ok]
  have hh := hunksOf_some hm
  have hdl := diffsOf_some hm
  have q1 := k1.hunks.nodup i
  have q2 := k1.hunks.live i
  rw [hh] at q1 q2
  rw [deleteHunks_eq q1 (fun x hx => by rw [w4]; exact q2 x hx), Res.bind_ok, deleteAll_append]
  have p1 := k1.diffs.nodup i
  have p2 := k1.diffs.live i
  rw [hdl] at p1 p2
  have := deleteDiffs_eq (s := ({ w with hunk := wipe w.hunk o.hunks } : Objs)) (l := o.differences ++ [d]) p1
    (fun x hx => by show (w.diff x).isSome; rw [w3]; exact p2 x hx)
    (by show ((o.differences ++ [d]).flatMap (linesOf w)).Nodup; rw [wl]; exact k1.lines.flat_nodup p1)
    (by show ∀ x ∈ (o.differences ++ [d]).flatMap (linesOf w), (w.string x).isSome; rw [wl, w2]; exact k1.lines.flat_live _)
    (by show (((o.differences ++ [d]).flatMap (linesOf w)).flatMap (marksOf w)).Nodup
        rw [wl, wm]; exact k1.marks.flat_nodup (k1.lines.flat_nodup p1))
    (by show ∀ x ∈ ((o.differences ++ [d]).flatMap (linesOf w)).flatMap (marksOf w), (w.marker x).isSome
        rw [wl, wm, w1]; exact k1.marks.flat_live _)
  rw [this, Res.bind_ok]
  simp only [deleteAll, Objs.deleteDiff]
  rw [show deref (wipe w.diff (o.differences ++ [d])) d = Res.ub by unfold deref; rw [wipe_in (by simp)]]
  rfl

/-! ### What is never destroyed -/

/-- **C59, leak.** Destroying a model does not destroy the differences that only its hunks show (in parsed models those are the unchanged
ones): they still exist, with their lines, and if no other hunk shows them nothing refers to them any more. -/
theorem C59_hunk_leak_defect {s s' : Objs} {i k d : Nat} {o : OHunk} (h : Ruled s) (hl : Legal s (.deleteModel i)) (e : s.deleteModel i = Res.ok s')
    (hk : s.hunk k = some o) (hki : k ∈ hunksOf s i) (hd : d ∈ o.diffs) (hm : ∀ m p, s.model m = some p → d ∉ p.differences) :
    s'.difference d = s.difference d ∧ (∃ v, s'.difference d = Res.ok v) ∧ (∀ m p, s'.model m = some p → d ∉ p.differences) ∧
      ((∀ k' o', s.hunk k' = some o' → d ∈ o'.diffs → k' ∈ hunksOf s i) → ∀ k' o', s'.hunk k' = some o' → d ∉ o'.diffs) := by
  have hs := ruled_sane h
  obtain ⟨o', ho, hh⟩ := hl
  obtain ⟨e', hc⟩ := sane_deleteModel hs ho hh
  rw [e] at e'
  have e'' : s' = s.without (destroyed s (.deleteModel i)) := Res.ok.inj e'
  have hout : d ∉ diffsOf s i := by rw [diffsOf_some ho]; exact hm i o' ho
  have halive : (s.diff d).isSome := hs.shown k o hk d hd
  have hkept := C59_frame h (op := .deleteModel i) ⟨o', ho, hh⟩ e
  have hs'd : s'.diff d = s.diff d := by rw [e'']; exact wipe_out hout
  have hsame : s'.difference d = s.difference d := by
    refine hkept.2.2 d halive (by rw [hs'd]; exact halive) ?_
    rintro (q | ⟨x, _, q | ⟨y, _, q⟩⟩)
    · exact q
    · exact q
    · exact q
  refine ⟨hsame, by rw [hsame]; exact sane_difference hs halive, ?_, ?_⟩
  · intro m p hp
    refine hm m p ?_
    rw [e''] at hp
    have hp : wipe s.model [i] m = some p := hp
    by_cases q : m ∈ [i]
    · rw [wipe_in q] at hp; cases hp
    · rw [wipe_out q] at hp; exact hp
  · intro hall k' o2 hk' hd'
    rw [e''] at hk'
    have hk' : wipe s.hunk (hunksOf s i) k' = some o2 := hk'
    by_cases q : k' ∈ hunksOf s i
    · rw [wipe_in q] at hk'; cases hk'
    · rw [wipe_out q] at hk'
      exact q (hall k' o2 hk' hd')

theorem marks_from {s s' : Objs} (h : Sane s) {op : OwnOp} (hl : Legal s op) (e : op.run s = Res.ok s') {m : Nat} (hi : Ignores m op)
    (hm : FreeMarker s m) : FreeMarker s' m := by
  have alive : (s'.marker m).isSome := by
    obtain ⟨t, e', _, g, _⟩ := step_ok h hl
    rw [e] at e'
    cases e'
    refine (g.1 m hm.1).2 ?_
    have hf := free_marks hm
    have hff : ∀ l : List Nat, m ∉ l.flatMap (marksOf s) := by
      intro l hx
      obtain ⟨x, _, hx⟩ := List.mem_flatMap.1 hx
      exact hf x hx
    cases op <;> simp only [destroyed] <;> first | exact hff _ | exact hf _ | exact List.not_mem_nil | skip
    · rename_i k
      rw [List.mem_singleton]
      exact fun q => hi q.symm
  suffices key : ∀ x, m ∉ marksOf s' x by
    exact ⟨alive, fun x o ho hx => key x (by rw [marksOf_some ho]; exact hx)⟩
  intro x hx
  have hf := free_marks hm
  have same : s'.string = s.string → False := fun q => hf x (by unfold marksOf at hx ⊢; rw [← q]; exact hx)
  have upd : ∀ (j : Nat) (p : OStr), s'.string = put s.string j (some p) → m ∉ p.markers → False := by
    intro j p q hp
    by_cases hj : x = j
    · rw [hj] at hx
      exact hp (by rw [← marksOf_some (s := s') (i := j) (o := p) (by rw [q, put_at_same])]; exact hx)
    · exact hf x (by unfold marksOf at hx ⊢; rw [q, put_ne _ _ hj] at hx; exact hx)
  have wip : ∀ l : List Nat, s'.string = wipe s.string l → False := by
    intro l q
    by_cases hj : x ∈ l
    · unfold marksOf at hx; rw [q, wipe_in hj] at hx; simp at hx
    · exact hf x (by unfold marksOf at hx ⊢; rw [q, wipe_out hj] at hx; exact hx)
  have clos : ∀ {t : Objs}, op.run s = Res.ok t → t = s' := fun q => by rw [e] at q; exact (Res.ok.inj q).symm
  cases op with
  | newMarker v => cases e; exact same rfl
  | newEmptyString => cases e; exact upd _ {} rfl (by simp)
  | newString t ms => cases e; exact upd _ { string := t, hash := calculateHash t, markers := ms } rfl hi
  | copyString i =>
    obtain ⟨o, ho, hn⟩ := hl
    have := clos (t := s.allocString o) (by simp only [OwnOp.run, Objs.copyString, deref_some ho, Res.bind_ok])
    exact upd _ o (by rw [← this]; rfl) (by rw [hn]; simp)
  | newDiff a b ty => cases e; exact same rfl
  | newHunk => cases e; exact same rfl
  | newModel => cases e; exact same rfl
  | setMarker i v => exact same (by rw [← clos (sane_setMarker h hl v).1])
  | setString i t =>
    obtain ⟨o, ho⟩ := Option.isSome_iff_exists.1 hl
    have := clos (sane_onString h ho (fun o => { o with string := t, hash := calculateHash t }) (own_marks h ho).1 (own_marks h ho).2).1
    exact upd i { o with string := t, hash := calculateHash t } (by rw [← this]) (hm.2 i o ho)
  | setConflict i t =>
    obtain ⟨o, ho⟩ := Option.isSome_iff_exists.1 hl
    have := clos (sane_onString h ho (fun o => { o with conflict := t }) (own_marks h ho).1 (own_marks h ho).2).1
    exact upd i { o with conflict := t } (by rw [← this]) (hm.2 i o ho)
  | setMarkerList i ms =>
    obtain ⟨_, o, ho, _⟩ := hl
    have := clos (t := { s with string := put s.string i (some { o with markers := ms }) })
      (by simp only [OwnOp.run, Objs.setMarkerList, Objs.onString, deref_some ho, Res.bind_ok])
    exact upd i { o with markers := ms } (by rw [← this]) hi
  | prepend i k =>
    obtain ⟨o, ho⟩ := Option.isSome_iff_exists.1 hl.1
    have := clos (t := { s with string := put s.string i (some { o with markers := k :: o.markers }) })
      (by simp only [OwnOp.run, Objs.prepend, Objs.onString, deref_some ho, Res.bind_ok])
    refine upd i { o with markers := k :: o.markers } (by rw [← this]) (fun q => ?_)
    rcases List.mem_cons.1 q with q | q
    · exact hi q.symm
    · exact hm.2 i o ho q
  | addSource i l =>
    obtain ⟨o, ho⟩ := Option.isSome_iff_exists.1 hl
    have := clos (sane_addSource h ho l).1
    exact upd s.next { string := l, hash := calculateHash l } (by rw [← this]; rfl) (by simp)
  | addDest i l =>
    obtain ⟨o, ho⟩ := Option.isSome_iff_exists.1 hl
    have := clos (sane_addDest h ho l).1
    exact upd s.next { string := l, hash := calculateHash l } (by rw [← this]; rfl) (by simp)
  | setType i ty =>
    obtain ⟨o, ho⟩ := Option.isSome_iff_exists.1 hl
    exact same (by rw [← clos (sane_setType h ho ty).1])
  | determineInline i =>
    obtain ⟨t, d, d', e', _, g, _⟩ := sane_determineInline h hl.1 hl.2
    have := clos e'
    subst this
    rcases g.marks x m hx with q | q
    · exact hf x q
    · have := hm.1; rw [q] at this; cases this
  | hunkAdd i d =>
    obtain ⟨o, ho⟩ := Option.isSome_iff_exists.1 hl.1
    exact same (by rw [← clos (sane_hunkAdd h ho hl.2).1])
  | addHunk i k =>
    obtain ⟨o, ho⟩ := Option.isSome_iff_exists.1 hl.1
    exact same (by rw [← clos (sane_addHunk h ho hl.2).1])
  | addDiff i d =>
    obtain ⟨o, ho⟩ := Option.isSome_iff_exists.1 hl.1
    exact same (by rw [← clos (sane_addDiff h ho hl.2).1])
  | deleteMarker i => exact wip [] (by rw [← clos (sane_deleteMarker h hl).1]; rfl)
  | deleteString i => exact wip _ (by rw [← clos (sane_deleteString h hl).1]; rfl)
  | deleteDiff i => exact wip _ (by rw [← clos (sane_deleteDiff h hl.1 hl.2).1]; rfl)
  | deleteHunk i => exact wip [] (by rw [← clos (sane_deleteHunk h hl).1]; rfl)
  | deleteModel i =>
    obtain ⟨o, ho, hh⟩ := hl
    exact wip _ (by rw [← clos (sane_deleteModel h ho hh).1]; rfl)

/-- **C59, leak.** `setMarkerList` does not destroy the markers it replaces: unless the client keeps a pointer and names them again, they
exist for ever, held by no string, whatever is destroyed later. -/
theorem C59_replaced_leak_defect {s s' t : Objs} {i m : Nat} {o : OStr} {ms : List Nat} {ops : List OwnOp} (h : Ruled s)
    (hl : Legal s (.setMarkerList i ms)) (e : s.setMarkerList i ms = Res.ok s') (hi : s.string i = some o) (hm : m ∈ o.markers) (hn : m ∉ ms)
    (hf : Follows s' ops t) (hig : ∀ op ∈ ops, Ignores m op) : FreeMarker t m := by
  have hs := ruled_sane h
  have h' : Ruled s' := .call h hl e
  have first : FreeMarker s' m := by
    have hmi : m ∈ marksOf s i := by rw [marksOf_some hi]; exact hm
    have e' : s.setMarkerList i ms = Res.ok { s with string := put s.string i (some { o with markers := ms }) } := by
      simp only [Objs.setMarkerList, Objs.onString, deref_some hi, Res.bind_ok]
    rw [e] at e'
    have e'' : s' = { s with string := put s.string i (some { o with markers := ms }) } := Res.ok.inj e'
    refine ⟨by rw [e'']; exact hs.marks.live i m hmi, fun j p hp hmp => ?_⟩
    rw [e''] at hp
    have hp : put s.string i (some { o with markers := ms }) j = some p := hp
    by_cases hj : j = i
    · rw [hj, put_at_same] at hp; cases hp; exact hn hmp
    · rw [put_ne _ _ hj] at hp
      exact hj (hs.marks.uniq j i m (by rw [marksOf_some hp]; exact hmp) hmi)
  have run : ∀ {a b : Objs} {l : List OwnOp}, Follows a l b → Sane a → FreeMarker a m → (∀ op ∈ l, Ignores m op) → FreeMarker b m := by
    intro a b l hab
    induction hab with
    | nil => exact fun _ q _ => q
    | cons hleg hrun _ ih =>
      intro ha hq hal
      refine ih ?_ (marks_from ha hleg hrun (hal _ (by simp)) hq) (fun op ho => hal op (by simp [ho]))
      obtain ⟨u, e2, k, _⟩ := step_ok ha hleg
      rw [hrun] at e2
      cases e2
      exact k
  exact run hf (ruled_sane h') first hig

/-! ### The hypotheses can be met -/

/-- A client builds a string with a marker, and a model with a hunk of two differences of which only the first is in the list of the model
(which is how the parser builds models, parserbase.cpp:555-592). -/
def ownOps : List OwnOp :=
  [.newMarker { type := .Start, offset := 0 }, .newString (str "ab") [0], .newModel, .newHunk, .newDiff 1 1 .Change, .addSource 4 (str "a\n"),
   .addDest 4 (str "b\n"), .newDiff 2 2 .Unchanged, .hunkAdd 3 4, .hunkAdd 3 7, .addHunk 2 3, .addDiff 2 4]

/-- The memory then. -/
def ownDemo : Objs :=
  match runOwn ownOps {} with
  | .ok s => s
  | _ => {}

theorem put_some {α : Type} {i j : Nat} {v w : α} (h : put (fun _ => none) i (some v) j = some w) : j = i ∧ w = v := by
  unfold put at h
  split at h
  · next hj => exact ⟨hj, (Option.some.inj h).symm⟩
  · cases h

theorem ownDemo_ruled : Ruled ownDemo := by
  have h1 := Ruled.call .start (op := .newMarker { type := .Start, offset := 0 }) trivial rfl
  have h2 := Ruled.call h1 (op := .newString (str "ab") [0]) (by simp [Legal, FreeMarker, Objs.newMarker, put]) rfl
  have h3 := Ruled.call h2 (op := .newModel) trivial rfl
  have h4 := Ruled.call h3 (op := .newHunk) trivial rfl
  have h5 := Ruled.call h4 (op := .newDiff 1 1 .Change) trivial rfl
  have h6 := Ruled.call h5 (op := .addSource 4 (str "a\n")) (by rfl) rfl
  have h7 := Ruled.call h6 (op := .addDest 4 (str "b\n")) (by rfl) rfl
  have h8 := Ruled.call h7 (op := .newDiff 2 2 .Unchanged) trivial rfl
  have h9 := Ruled.call h8 (op := .hunkAdd 3 4) ⟨rfl, rfl⟩ rfl
  have h10 := Ruled.call h9 (op := .hunkAdd 3 7) ⟨rfl, rfl⟩ rfl
  have h11 := Ruled.call h10 (op := .addHunk 2 3) ⟨rfl, by rfl, by
    intro m o hm
    change put (fun _ => none) 2 (some ({} : OModel)) m = some o at hm
    have := (put_some hm).2
    rw [this]; simp⟩ rfl
  exact Ruled.call h11 (op := .addDiff 2 4) ⟨rfl, by rfl, by
    intro m o hm
    change put (put (fun _ => none) 2 (some {})) 2 (some { hunks := [3] }) m = some o at hm
    unfold put at hm
    split at hm
    · cases hm; simp
    · cases hm⟩ rfl

theorem ownDemo_string : ownDemo.string 1 = some { string := str "ab", hash := calculateHash (str "ab"), markers := [0] } := rfl

/-- Safety, destruction, effect and frame speak of reachable states and allowed calls: here, comparing two lines inside, and destroying the
model. -/
theorem ownDemo_inline : Legal ownDemo (.determineInline 4) := by
  refine ⟨rfl, fun o ho => ?_⟩
  have : o = { type := .Change, sourceLineNo := 1, destLineNo := 1, tracking := 1, source := [5], dest := [6] } := (Option.some.inj ho).symm
  subst this
  intro l hl t ht
  simp only [List.cons_append, List.nil_append, List.mem_cons, List.not_mem_nil, or_false] at hl
  rcases hl with rfl | rfl
  · rw [← Option.some.inj ht]; decide
  · rw [← Option.some.inj ht]; decide

theorem ownDemo_hunk {h : Nat} {k : OHunk} (e : ownDemo.hunk h = some k) : h = 3 ∧ k.diffs = [4, 7] := by
  change put (put (put (fun _ => none) 3 (some {})) 3 (some { diffs := [4] })) 3 (some { diffs := [4, 7] }) h = some k at e
  unfold put at e
  split at e
  · next q => exact ⟨q, by rw [← Option.some.inj e]⟩
  · simp_all

theorem ownDemo_model {h : Nat} {k : OModel} (e : ownDemo.model h = some k) : h = 2 ∧ k = { hunks := [3], differences := [4] } := by
  change put (put (put (fun _ => none) 2 (some {})) 2 (some { hunks := [3] })) 2 (some { hunks := [3], differences := [4] }) h = some k at e
  unfold put at e
  split at e
  · next q => exact ⟨q, by rw [← Option.some.inj e]⟩
  · simp_all

theorem ownDemo_delete : Legal ownDemo (.deleteModel 2) := by
  refine ⟨{ hunks := [3], differences := [4] }, rfl, fun h k e hn => ?_⟩
  have := (ownDemo_hunk e).1
  subst this
  simp at hn

example : ∃ s', (OwnOp.determineInline 4).run ownDemo = Res.ok s' ∧ Ruled s' ∧ AllReadable s' := C59_safe ownDemo_ruled ownDemo_inline

example : destroyed ownDemo (.deleteModel 2) = { models := [2], hunks := [3], diffs := [4], strings := [5, 6], markers := [] } := rfl

example : ∃ s', ownDemo.deleteModel 2 = Res.ok s' ∧ (s'.string 5).isSome = false ∧ (s'.string 1).isSome ∧ (s'.marker 0).isSome := ⟨_, rfl, rfl, rfl, rfl⟩

/-- The string of the demonstration, copied: both are readable, and destroying both is undefined. -/
example : ∃ s', ownDemo.copyString 1 = Res.ok s' ∧ runOwn [.deleteString 1, .deleteString 8] s' = Res.ub := by
  obtain ⟨s', e, _, _, h, _⟩ := C59_copy_ub ownDemo_ruled ownDemo_string (by simp)
  exact ⟨s', e, h⟩

/-- A second difference given twice. -/
example : runOwn [.addDiff 2 7, .addDiff 2 7, .deleteModel 2] ownDemo = Res.ub :=
  C59_twice_ub ownDemo_ruled ⟨rfl, rfl, fun m o e => by rw [(ownDemo_model e).2]; decide⟩

example : runOwn [.deleteString 5, .deleteDiff 4] ownDemo = Res.ub := C59_line_ub ownDemo_ruled (o := { type := .Change, sourceLineNo := 1, destLineNo := 1, tracking := 1, source := [5], dest := [6] }) rfl (by simp)

/-- The unchanged difference, shown only by the hunk, survives its model, and nothing shows it any more. -/
example : ∃ s', ownDemo.deleteModel 2 = Res.ok s' ∧ (∃ v, s'.difference 7 = Res.ok v) ∧ (∀ k' o', s'.hunk k' = some o' → 7 ∉ o'.diffs) := by
  obtain ⟨s', e, _, _⟩ := C59_safe ownDemo_ruled ownDemo_delete
  obtain ⟨_, a, _, b⟩ := C59_hunk_leak_defect ownDemo_ruled ownDemo_delete e (k := 3) (d := 7) rfl (by decide) (by decide)
    (fun m p q => by rw [(ownDemo_model q).2]; decide)
  exact ⟨s', e, a, b (fun k' o' q _ => by rw [(ownDemo_hunk q).1]; decide)⟩

/-- A marker taken out of its string stays for ever, also when the string is destroyed. -/
example : ∃ s' t, ownDemo.setMarkerList 1 [] = Res.ok s' ∧ Follows s' [.deleteString 1] t ∧ FreeMarker t 0 := by
  have hl : Legal ownDemo (.setMarkerList 1 []) := ⟨by simp, _, ownDemo_string, by simp⟩
  obtain ⟨s', e, hr, _⟩ := C59_safe ownDemo_ruled hl
  have e0 : ownDemo.setMarkerList 1 [] = Res.ok _ := rfl
  have es : s' = _ := Res.ok.inj (Eq.trans e.symm e0)
  have hd : Legal s' (.deleteString 1) := by
    subst es
    refine ⟨rfl, fun d o q => ?_⟩
    change put (put (put (put (fun _ => none) 4 _) 4 _) 4 _) 7 _ d = some o at q
    unfold put at q
    split at q
    · cases q; simp [ODiff.source]
    · split at q
      · cases q; decide
      · simp_all
  obtain ⟨t, e2, _, _⟩ := C59_safe hr hd
  have hf : Follows s' [.deleteString 1] t := .cons hd e2 (.nil _)
  exact ⟨s', t, e, hf, C59_replaced_leak_defect ownDemo_ruled hl e ownDemo_string (by simp) (by simp) hf (by simp [Ignores])⟩
end KompareDiff2
