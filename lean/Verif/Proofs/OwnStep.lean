import Verif.Proofs.OwnInline
/-
Ownership: every call that follows the rules, with its effect.
-/
namespace KompareDiff2
open Spec

theorem others_kept {s s' : Objs} {op : OwnOp} (hs : Sane s) (hs' : Sane s')
    (hm : ∀ m, (s.marker m).isSome → (s'.marker m).isSome → ¬ ChangesMarker m op → s'.marker m = s.marker m)
    (hi : ∀ i, (s.string i).isSome → (s'.string i).isSome → ¬ ChangesString s i op → s'.string i = s.string i)
    (hd : ∀ d, (s.diff d).isSome → (s'.diff d).isSome → ¬ ChangesDifference s d op → s'.diff d = s.diff d) : OthersKept s s' op := by
  have hline : ∀ i, (s.string i).isSome → (s'.string i).isSome → ¬ ChangesLine s i op → s'.line i = s.line i := by
    intro i h1 h2 h3
    have e := hi i h1 h2 (fun k => h3 (.inl k))
    refine line_congr e (fun m hmm => hm m (hs.marks.live i m hmm) (hs'.marks.live i m ?_) (fun k => h3 (.inr ⟨m, hmm, k⟩)))
    unfold marksOf at hmm ⊢
    rw [e]; exact hmm
  refine ⟨hm, hline, fun d h1 h2 h3 => ?_⟩
  have e := hd d h1 h2 h3
  refine difference_congr e (fun i hii => hline i (hs.lines.live d i hii) (hs'.lines.live d i ?_) (fun k => h3 (.inr ⟨i, hii, k⟩)))
  unfold linesOf at hii ⊢
  rw [e]; exact hii

theorem gone_none {s s' : Objs} {d : Destroyed} (hd : d = {}) (h1 : ∀ i, (s.marker i).isSome → (s'.marker i).isSome) (h2 : ∀ i, (s.string i).isSome → (s'.string i).isSome)
    (h3 : ∀ i, (s.diff i).isSome → (s'.diff i).isSome) (h4 : ∀ i, (s.hunk i).isSome → (s'.hunk i).isSome)
    (h5 : ∀ i, (s.model i).isSome → (s'.model i).isSome) : GoneAre s s' d := by
  subst hd
  exact ⟨fun i h => by simp [h1 i h], fun i h => by simp [h2 i h], fun i h => by simp [h3 i h], fun i h => by simp [h4 i h], fun i h => by simp [h5 i h]⟩

/-- What is known of every call that follows the rules. -/
def StepOk (s : Objs) (op : OwnOp) : Prop := ∃ s', op.run s = Res.ok s' ∧ Sane s' ∧ GoneAre s s' (destroyed s op) ∧ Effect s s' op ∧ OthersKept s s' op

theorem put_old {α : Type} {f : Nat → Option α} {n x : Nat} {v : Option α} (h : ∀ x, n ≤ x → f x = none) (hx : (f x).isSome) : put f n v x = f x :=
  put_ne _ _ (by have := live_lt h hx; omega)

theorem step_newMarker {s : Objs} (h : Sane s) (v : Marker) : StepOk s (.newMarker v) := by
  refine ⟨_, rfl, sane_newMarker h v, ?_, put_at_same _ _ _, others_kept h (sane_newMarker h v) ?_ ?_ ?_⟩
  · exact gone_none rfl (fun _ k => put_isSome k) (fun _ k => k) (fun _ k => k) (fun _ k => k) (fun _ k => k)
  · exact fun m hm _ _ => put_old h.freshM hm
  · exact fun _ _ _ _ => rfl
  · exact fun _ _ _ _ => rfl

theorem alloc_kept {s : Objs} (h : Sane s) {o : OStr} (h' : Sane (s.allocString o)) (op : OwnOp) : OthersKept s (s.allocString o) op :=
  others_kept h h' (fun _ _ _ _ => rfl) (fun _ hi _ _ => put_old h.freshS hi) (fun _ _ _ _ => rfl)

theorem alloc_gone (s : Objs) (o : OStr) : GoneAre s (s.allocString o) {} :=
  gone_none rfl (fun _ k => k) (fun _ k => put_isSome k) (fun _ k => k) (fun _ k => k) (fun _ k => k)

theorem step_newEmptyString {s : Objs} (h : Sane s) : StepOk s .newEmptyString := by
  have h' : Sane s.newEmptyString := sane_allocString h {} List.nodup_nil (fun _ hm => by simp at hm)
  refine ⟨_, rfl, h', alloc_gone s _, ?_, alloc_kept h h' _⟩
  show s.newEmptyString.line s.next = _
  rw [line_some (o := {}) (put_at_same _ _ _)]
  rfl

theorem step_newString {s : Objs} (h : Sane s) {t : Str} {ms : List Nat} (hl : Legal s (.newString t ms)) : StepOk s (.newString t ms) := by
  have h' : Sane (s.newString t ms) := sane_allocString h _ hl.1 hl.2
  refine ⟨_, rfl, h', alloc_gone s _, ?_, alloc_kept h h' _⟩
  obtain ⟨vs, hv⟩ := readAll_ok (f := deref s.marker) (l := ms) (fun m hm => by
    obtain ⟨w, _, e⟩ := deref_isSome (hl.2 m hm).1
    exact ⟨w, e⟩)
  refine ⟨vs, hv, ?_⟩
  rw [line_some (o := { string := t, hash := calculateHash t, markers := ms }) (put_at_same _ _ _)]
  show (readAll (deref s.marker) ms >>= _) = _
  rw [hv]
  rfl

theorem step_copyString {s : Objs} (h : Sane s) {i : Nat} (hl : Legal s (.copyString i)) : StepOk s (.copyString i) := by
  obtain ⟨o, ho, hm⟩ := hl
  have h' : Sane (s.allocString o) := sane_allocString h _ (by rw [hm]; exact List.nodup_nil) (by rw [hm]; intro _ k; simp at k)
  refine ⟨s.allocString o, ?_, h', alloc_gone s _, ?_, alloc_kept h h' _⟩
  · simp only [OwnOp.run, Objs.copyString, deref_some ho, Res.bind_ok]
  · show (s.allocString o).line s.next = s.line i
    rw [line_some (put_at_same _ _ _), line_some ho, hm]
    rfl

theorem step_newDiff {s : Objs} (h : Sane s) (a b : Int) (ty : DiffType) : StepOk s (.newDiff a b ty) := by
  refine ⟨_, rfl, sane_newDiff h a b ty, ?_, ?_, others_kept h (sane_newDiff h a b ty) ?_ ?_ ?_⟩
  · exact gone_none rfl (fun _ k => k) (fun _ k => k) (fun _ k => put_isSome k) (fun _ k => k) (fun _ k => k)
  · show (s.newDiff a b ty).difference s.next = _
    unfold Objs.difference
    rw [show deref (s.newDiff a b ty).diff s.next = Res.ok { type := ty, sourceLineNo := a, destLineNo := b, tracking := a } from
      deref_some (put_at_same _ _ _)]
    rfl
  · exact fun _ _ _ _ => rfl
  · exact fun _ _ _ _ => rfl
  · exact fun d hd _ _ => put_old h.freshD hd

theorem step_newHunk {s : Objs} (h : Sane s) : StepOk s .newHunk := by
  refine ⟨_, rfl, sane_newHunk h, ?_, ?_, others_kept h (sane_newHunk h) (fun _ _ _ _ => rfl) (fun _ _ _ _ => rfl) (fun _ _ _ _ => rfl)⟩
  · exact gone_none rfl (fun _ k => k) (fun _ k => k) (fun _ k => k) (fun _ k => put_isSome k) (fun _ k => k)
  · show s.newHunk.hunkDifferences s.next = _
    unfold Objs.hunkDifferences
    rw [show deref s.newHunk.hunk s.next = Res.ok {} from deref_some (put_at_same _ _ _)]
    rfl

theorem step_newModel {s : Objs} (h : Sane s) : StepOk s .newModel := by
  refine ⟨_, rfl, sane_newModel h, ?_, ?_, others_kept h (sane_newModel h) (fun _ _ _ _ => rfl) (fun _ _ _ _ => rfl) (fun _ _ _ _ => rfl)⟩
  · exact gone_none rfl (fun _ k => k) (fun _ k => k) (fun _ k => k) (fun _ k => k) (fun _ k => put_isSome k)
  · show s.newModel.modelDifferences s.next = _ ∧ s.newModel.modelHunks s.next = _
    unfold Objs.modelDifferences Objs.modelHunks
    rw [show deref s.newModel.model s.next = Res.ok {} from deref_some (put_at_same _ _ _)]
    exact ⟨rfl, rfl⟩

theorem step_setMarker {s : Objs} (h : Sane s) {i : Nat} {v : Marker} (hl : Legal s (.setMarker i v)) : StepOk s (.setMarker i v) := by
  obtain ⟨e, h'⟩ := sane_setMarker h hl v
  refine ⟨_, e, h', ?_, put_at_same _ _ _, others_kept h h' ?_ (fun _ _ _ _ => rfl) (fun _ _ _ _ => rfl)⟩
  · exact gone_none rfl (fun _ k => put_isSome k) (fun _ k => k) (fun _ k => k) (fun _ k => k) (fun _ k => k)
  · exact fun m _ _ hm => put_ne _ _ hm

/-- Changing one string. -/
theorem step_onString {s : Objs} (h : Sane s) {i : Nat} {o : OStr} (hi : s.string i = some o) (f : OStr → OStr) (hn : (f o).markers.Nodup)
    (hm : ∀ m ∈ (f o).markers, (s.marker m).isSome ∧ ∀ p, p ≠ i → m ∉ marksOf s p) {op : OwnOp} (hd : destroyed s op = {})
    (hci : ChangesString s i op)
    (hrun : op.run s = s.onString i f)
    (heff : ∀ s', s'.string i = some (f o) → s'.marker = s.marker → Effect s s' op) : StepOk s op := by
  obtain ⟨e, h'⟩ := sane_onString h hi f hn hm
  refine ⟨_, hrun.trans e, h', ?_, heff _ (put_at_same _ _ _) rfl, others_kept h h' (fun _ _ _ _ => rfl) ?_ (fun _ _ _ _ => rfl)⟩
  · exact gone_none hd (fun _ k => k) (fun _ k => put_isSome k) (fun _ k => k) (fun _ k => k) (fun _ k => k)
  · intro j _ _ hj
    exact put_ne _ _ (fun e => hj (e ▸ hci))

theorem own_marks {s : Objs} (h : Sane s) {i : Nat} {o : OStr} (hi : s.string i = some o) :
    o.markers.Nodup ∧ ∀ m ∈ o.markers, (s.marker m).isSome ∧ ∀ p, p ≠ i → m ∉ marksOf s p := by
  rw [← marksOf_some hi]
  exact ⟨h.marks.nodup i, fun m hm => ⟨h.marks.live i m hm, fun p hp hm' => hp (h.marks.uniq p i m hm' hm)⟩⟩

theorem line_with {s s' : Objs} {i : Nat} {o o' : OStr} {v : DStr} (hm : s'.marker = s.marker) (hi : s.string i = some o) (hv : s.line i = Res.ok v)
    (hi' : s'.string i = some o') (e : o'.markers = o.markers) :
    s'.line i = Res.ok { string := o'.string, conflict := o'.conflict, hash := o'.hash, markers := v.markers } := by
  rw [line_some hi', hm, e, (line_ok hi hv).1]
  rfl

theorem step_setString {s : Objs} (h : Sane s) {i : Nat} {t : Str} (hl : Legal s (.setString i t)) : StepOk s (.setString i t) := by
  obtain ⟨o, ho⟩ := Option.isSome_iff_exists.1 hl
  obtain ⟨v, hv⟩ := sane_line h hl
  obtain ⟨n1, n2⟩ := own_marks h ho
  refine step_onString h ho (fun o => { o with string := t, hash := calculateHash t }) n1 n2 rfl rfl rfl ?_
  intro s' h1 h2
  obtain ⟨q1, q2, q3, q4⟩ := line_ok ho hv
  refine ⟨v, hv, ?_⟩
  rw [line_with h2 ho hv h1 rfl]
  simp only [DStr.setString, q3]

theorem step_setConflict {s : Objs} (h : Sane s) {i : Nat} {t : Str} (hl : Legal s (.setConflict i t)) : StepOk s (.setConflict i t) := by
  obtain ⟨o, ho⟩ := Option.isSome_iff_exists.1 hl
  obtain ⟨v, hv⟩ := sane_line h hl
  obtain ⟨n1, n2⟩ := own_marks h ho
  refine step_onString h ho (fun o => { o with conflict := t }) n1 n2 rfl rfl rfl ?_
  intro s' h1 h2
  obtain ⟨q1, q2, q3, q4⟩ := line_ok ho hv
  refine ⟨v, hv, ?_⟩
  rw [line_with h2 ho hv h1 rfl]
  simp only [DStr.setConflictString, q2, q4]

theorem step_setMarkerList {s : Objs} (h : Sane s) {i : Nat} {ms : List Nat} (hl : Legal s (.setMarkerList i ms)) :
    StepOk s (.setMarkerList i ms) := by
  obtain ⟨hn, o, ho, hf⟩ := hl
  obtain ⟨v, hv⟩ := sane_line h (i := i) (by rw [ho]; rfl)
  obtain ⟨n1, n2⟩ := own_marks h ho
  have hms : ∀ m ∈ ms, (s.marker m).isSome ∧ ∀ p, p ≠ i → m ∉ marksOf s p := by
    intro m hm
    rcases hf m hm with k | k
    · exact ⟨k.1, fun p _ => free_marks k p⟩
    · exact n2 m k
  refine step_onString h ho (fun o => { o with markers := ms }) hn hms rfl rfl rfl ?_
  intro s' h1 h2
  obtain ⟨q1, q2, q3, q4⟩ := line_ok ho hv
  obtain ⟨vs, hvs⟩ := readAll_ok (f := deref s.marker) (l := ms) (fun m hm => by
    obtain ⟨w, _, e⟩ := deref_isSome (hms m hm).1
    exact ⟨w, e⟩)
  refine ⟨v, vs, hv, hvs, ?_⟩
  rw [line_some h1, h2]
  simp only [hvs, Res.bind_ok, DStr.setMarkerList, q2, q3, q4]

theorem step_prepend {s : Objs} (h : Sane s) {i m : Nat} (hl : Legal s (.prepend i m)) : StepOk s (.prepend i m) := by
  obtain ⟨hi, hf⟩ := hl
  obtain ⟨o, ho⟩ := Option.isSome_iff_exists.1 hi
  obtain ⟨v, hv⟩ := sane_line h hi
  obtain ⟨n1, n2⟩ := own_marks h ho
  obtain ⟨w, hw⟩ := Option.isSome_iff_exists.1 hf.1
  refine step_onString h ho (fun o => { o with markers := m :: o.markers }) ?_ ?_ rfl rfl rfl ?_
  · show (m :: o.markers).Nodup
    rw [List.nodup_cons]
    exact ⟨hf.2 i o ho, n1⟩
  · intro x hx
    rcases List.mem_cons.1 hx with rfl | hx
    · exact ⟨hf.1, fun p _ => free_marks hf p⟩
    · exact n2 x hx
  · intro s' h1 h2
    obtain ⟨q1, q2, q3, q4⟩ := line_ok ho hv
    refine ⟨v, w, hv, hw, ?_⟩
    rw [line_some h1, h2]
    simp only [readAll, deref_some hw, q1, Res.bind_ok, DStr.prepend, q2, q3, q4]

theorem difference_ok {s : Objs} {i : Nat} {o : ODiff} {d : Diff} (h : s.diff i = some o) (hd : s.difference i = Res.ok d) :
    readAll s.line o.source = Res.ok d.source ∧ readAll s.line o.dest = Res.ok d.dest ∧
    d = { type := o.type, sourceLineNo := o.sourceLineNo, destLineNo := o.destLineNo, tracking := o.tracking, source := d.source, dest := d.dest, applied := o.applied, conflicts := o.conflicts, unsaved := o.unsaved } := by
  unfold Objs.difference at hd
  rw [deref_some h, Res.bind_ok, Res.bind_eq_ok] at hd
  obtain ⟨a, h1, hd⟩ := hd
  rw [Res.bind_eq_ok] at hd
  obtain ⟨b, h2, hd⟩ := hd
  cases hd
  exact ⟨h1, h2, rfl⟩

theorem difference_some {s : Objs} {i : Nat} {o : ODiff} {a b : List DStr} (h : s.diff i = some o) (h1 : readAll s.line o.source = Res.ok a)
    (h2 : readAll s.line o.dest = Res.ok b) : s.difference i = Res.ok { type := o.type, sourceLineNo := o.sourceLineNo, destLineNo := o.destLineNo, tracking := o.tracking, source := a, dest := b, applied := o.applied, conflicts := o.conflicts, unsaved := o.unsaved } := by
  unfold Objs.difference
  rw [deref_some h, Res.bind_ok, h1, Res.bind_ok, h2, Res.bind_ok]

theorem step_setType {s : Objs} (h : Sane s) {i : Nat} {ty : DiffType} (hl : Legal s (.setType i ty)) : StepOk s (.setType i ty) := by
  obtain ⟨o, ho⟩ := Option.isSome_iff_exists.1 hl
  obtain ⟨d, hd⟩ := sane_difference h hl
  obtain ⟨e, h'⟩ := sane_setType h ho ty
  obtain ⟨q1, q2, q3⟩ := difference_ok ho hd
  refine ⟨_, e, h', ?_, ⟨d, hd, ?_⟩, others_kept h h' (fun _ _ _ _ => rfl) (fun _ _ _ _ => rfl) ?_⟩
  · exact gone_none rfl (fun _ k => k) (fun _ k => k) (fun _ k => put_isSome k) (fun _ k => k) (fun _ k => k)
  · have := difference_some (s := ({ s with diff := put s.diff i (some { o with type := ty }) } : Objs)) (i := i) (o := { o with type := ty })
      (put_at_same _ _ _) (by exact q1) (by exact q2)
    rw [this, q3]
  · exact fun j _ _ hj => put_ne _ _ (fun k => hj (.inl k))

theorem withLine_line {s : Objs} (h : Sane s) (i : Nat) (l : Str) (o : ODiff) :
    (s.withLine i l o).line s.next = Res.ok (DStr.ofStr l) ∧ ∀ j, (s.string j).isSome → (s.withLine i l o).line j = s.line j := by
  refine ⟨?_, fun j hj => line_congr (put_old h.freshS hj) (fun _ _ => rfl)⟩
  rw [line_some (o := { string := l, hash := calculateHash l }) (put_at_same _ _ _)]
  rfl

theorem withLine_kept {s : Objs} (h : Sane s) {i : Nat} {l : Str} {o : ODiff} (h' : Sane (s.withLine i l o)) {op : OwnOp}
    (hi : ChangesDifference s i op) : OthersKept s (s.withLine i l o) op :=
  others_kept h h' (fun _ _ _ _ => rfl) (fun _ hj _ _ => put_old h.freshS hj) (fun _ _ _ hj => put_ne _ _ (fun e => hj (e ▸ hi)))

theorem withLine_gone (s : Objs) (i : Nat) (l : Str) (o : ODiff) : GoneAre s (s.withLine i l o) {} :=
  gone_none rfl (fun _ k => k) (fun _ k => put_isSome k) (fun _ k => put_isSome k) (fun _ k => k) (fun _ k => k)

theorem step_addSource {s : Objs} (h : Sane s) {i : Nat} {l : Str} (hl : Legal s (.addSource i l)) : StepOk s (.addSource i l) := by
  obtain ⟨o, ho⟩ := Option.isSome_iff_exists.1 hl
  obtain ⟨d, hd⟩ := sane_difference h hl
  obtain ⟨e, h'⟩ := sane_addSource h ho l
  obtain ⟨q1, q2, q3⟩ := difference_ok ho hd
  have hlive := (sane_lines h ho).2
  refine ⟨_, e, h', withLine_gone _ _ _ _, ⟨d, hd, ?_⟩, withLine_kept h h' (.inl rfl)⟩
  obtain ⟨w1, w2⟩ := withLine_line h i l { o with source := o.source ++ [s.next] }
  generalize hu : s.withLine i l { o with source := o.source ++ [s.next] } = u at *
  have hui : u.diff i = some { o with source := o.source ++ [s.next] } := by rw [← hu]; exact put_at_same _ _ _
  have r1 : readAll u.line o.source = Res.ok d.source := by
    rw [← q1]; exact readAll_congr (fun x hx => w2 x (hlive x (List.mem_append_left _ hx)).1)
  have r2 : readAll u.line o.dest = Res.ok d.dest := by
    rw [← q2]; exact readAll_congr (fun x hx => w2 x (hlive x (List.mem_append_right _ hx)).1)
  have r3 : readAll u.line [s.next] = Res.ok [DStr.ofStr l] := by simp only [readAll, w1, Res.bind_ok]
  rw [difference_some hui (readAll_append r1 r3) r2]
  rw [q3]
  rfl

theorem step_addDest {s : Objs} (h : Sane s) {i : Nat} {l : Str} (hl : Legal s (.addDest i l)) : StepOk s (.addDest i l) := by
  obtain ⟨o, ho⟩ := Option.isSome_iff_exists.1 hl
  obtain ⟨d, hd⟩ := sane_difference h hl
  obtain ⟨e, h'⟩ := sane_addDest h ho l
  obtain ⟨q1, q2, q3⟩ := difference_ok ho hd
  have hlive := (sane_lines h ho).2
  refine ⟨_, e, h', withLine_gone _ _ _ _, ⟨d, hd, ?_⟩, withLine_kept h h' (.inl rfl)⟩
  obtain ⟨w1, w2⟩ := withLine_line h i l { o with dest := o.dest ++ [s.next] }
  generalize hu : s.withLine i l { o with dest := o.dest ++ [s.next] } = u at *
  have hui : u.diff i = some { o with dest := o.dest ++ [s.next] } := by rw [← hu]; exact put_at_same _ _ _
  have r1 : readAll u.line o.source = Res.ok d.source := by
    rw [← q1]; exact readAll_congr (fun x hx => w2 x (hlive x (List.mem_append_left _ hx)).1)
  have r2 : readAll u.line o.dest = Res.ok d.dest := by
    rw [← q2]; exact readAll_congr (fun x hx => w2 x (hlive x (List.mem_append_right _ hx)).1)
  have r3 : readAll u.line [s.next] = Res.ok [DStr.ofStr l] := by simp only [readAll, w1, Res.bind_ok]
  rw [difference_some hui r1 (readAll_append r2 r3)]
  rw [q3]
  rfl

theorem step_determineInline {s : Objs} (h : Sane s) {i : Nat} (hl : Legal s (.determineInline i)) : StepOk s (.determineInline i) := by
  obtain ⟨s', d, d', e, h', g, e1, e2, e3⟩ := sane_determineInline h hl.1 hl.2
  refine ⟨s', e, h', ?_, ⟨d, d', e1, e2, e3⟩, others_kept h h' ?_ ?_ ?_⟩
  · refine gone_none rfl (fun x k => by rw [g.marker x k]; exact k) (fun x k => ?_) (fun x k => by rw [g.diff]; exact k)
      (fun x k => by rw [g.hunk]; exact k) (fun x k => by rw [g.model]; exact k)
    obtain ⟨o, ho⟩ := Option.isSome_iff_exists.1 k
    obtain ⟨l, hl⟩ := g.texts x o ho
    rw [hl]; rfl
  · exact fun m hm _ _ => g.marker m hm
  · exact fun j _ _ hj => g.others j hj
  · exact fun j _ _ _ => by rw [g.diff]

theorem same_difference {s t : Objs} (h1 : t.marker = s.marker) (h2 : t.string = s.string) (h3 : t.diff = s.diff) : t.difference = s.difference := by
  have : t.line = s.line := by
    funext i
    unfold Objs.line
    rw [h1, h2]
  funext i
  unfold Objs.difference
  rw [h3, this]

theorem step_hunkAdd {s : Objs} (h : Sane s) {i d : Nat} (hl : Legal s (.hunkAdd i d)) : StepOk s (.hunkAdd i d) := by
  obtain ⟨o, ho⟩ := Option.isSome_iff_exists.1 hl.1
  obtain ⟨e, h'⟩ := sane_hunkAdd h ho hl.2
  obtain ⟨v, hv⟩ := sane_difference h hl.2
  obtain ⟨ds, hds⟩ := (sane_readable h).2.2.1 i hl.1
  refine ⟨_, e, h', ?_, ⟨ds, v, hds, hv, ?_⟩, others_kept h h' (fun _ _ _ _ => rfl) (fun _ _ _ _ => rfl) (fun _ _ _ _ => rfl)⟩
  · exact gone_none rfl (fun _ k => k) (fun _ k => k) (fun _ k => k) (fun _ k => put_isSome k) (fun _ k => k)
  · unfold Objs.hunkDifferences at hds ⊢
    rw [deref_some ho, Res.bind_ok] at hds
    rw [show deref (put s.hunk i (some { o with diffs := o.diffs ++ [d] })) i = Res.ok { o with diffs := o.diffs ++ [d] } from deref_some (put_at_same _ _ _),
      Res.bind_ok]
    rw [same_difference (s := s) (by rfl) (by rfl) (by rfl)]
    exact readAll_append hds (by simp only [readAll, hv, Res.bind_ok])

theorem step_addHunk {s : Objs} (h : Sane s) {i k : Nat} (hl : Legal s (.addHunk i k)) : StepOk s (.addHunk i k) := by
  obtain ⟨o, ho⟩ := Option.isSome_iff_exists.1 hl.1
  obtain ⟨e, h'⟩ := sane_addHunk h ho hl.2
  obtain ⟨v, hv⟩ := (sane_readable h).2.2.1 k hl.2.1
  obtain ⟨ds, hds⟩ := ((sane_readable h).2.2.2 i hl.1).2
  refine ⟨_, e, h', ?_, ⟨ds, v, hds, hv, ?_⟩, others_kept h h' (fun _ _ _ _ => rfl) (fun _ _ _ _ => rfl) (fun _ _ _ _ => rfl)⟩
  · exact gone_none rfl (fun _ k => k) (fun _ k => k) (fun _ k => k) (fun _ k => k) (fun _ k => put_isSome k)
  · unfold Objs.modelHunks at hds ⊢
    rw [deref_some ho, Res.bind_ok] at hds
    rw [show deref (put s.model i (some { o with hunks := o.hunks ++ [k] })) i = Res.ok { o with hunks := o.hunks ++ [k] } from deref_some (put_at_same _ _ _),
      Res.bind_ok]
    have : Objs.hunkDifferences { s with model := put s.model i (some { o with hunks := o.hunks ++ [k] }) } = s.hunkDifferences := rfl
    rw [this]
    exact readAll_append hds (by simp only [readAll, hv, Res.bind_ok])

theorem step_addDiff {s : Objs} (h : Sane s) {i k : Nat} (hl : Legal s (.addDiff i k)) : StepOk s (.addDiff i k) := by
  obtain ⟨o, ho⟩ := Option.isSome_iff_exists.1 hl.1
  obtain ⟨e, h'⟩ := sane_addDiff h ho hl.2
  obtain ⟨v, hv⟩ := sane_difference h hl.2.1
  obtain ⟨ds, hds⟩ := ((sane_readable h).2.2.2 i hl.1).1
  refine ⟨_, e, h', ?_, ⟨ds, v, hds, hv, ?_⟩, others_kept h h' (fun _ _ _ _ => rfl) (fun _ _ _ _ => rfl) (fun _ _ _ _ => rfl)⟩
  · exact gone_none rfl (fun _ k => k) (fun _ k => k) (fun _ k => k) (fun _ k => k) (fun _ k => put_isSome k)
  · unfold Objs.modelDifferences at hds ⊢
    rw [deref_some ho, Res.bind_ok] at hds
    rw [show deref (put s.model i (some { o with differences := o.differences ++ [k] })) i = Res.ok { o with differences := o.differences ++ [k] } from deref_some (put_at_same _ _ _),
      Res.bind_ok]
    have : Objs.difference { s with model := put s.model i (some { o with differences := o.differences ++ [k] }) } = s.difference := rfl
    rw [this]
    exact readAll_append hds (by simp only [readAll, hv, Res.bind_ok])

theorem step_without {s : Objs} (h : Sane s) {op : OwnOp} (e : op.run s = Res.ok (s.without (destroyed s op))) (hc : Closed s (destroyed s op))
    (he : ∀ s', Effect s s' op) : StepOk s op := by
  have h' := sane_without h hc
  refine ⟨_, e, h', gone_without _ _, he _, others_kept h h' ?_ ?_ ?_⟩
  · exact fun m hm hm' _ => wipe_out ((wipe_isSome hm).1 hm')
  · exact fun m hm hm' _ => wipe_out ((wipe_isSome hm).1 hm')
  · exact fun m hm hm' _ => wipe_out ((wipe_isSome hm).1 hm')

/-- Every call that follows the rules is defined, with the effect specified. -/
theorem step_ok {s : Objs} (h : Sane s) {op : OwnOp} (hl : Legal s op) : StepOk s op := by
  cases op with
  | newMarker v => exact step_newMarker h v
  | newEmptyString => exact step_newEmptyString h
  | newString t ms => exact step_newString h hl
  | copyString i => exact step_copyString h hl
  | newDiff a b ty => exact step_newDiff h a b ty
  | newHunk => exact step_newHunk h
  | newModel => exact step_newModel h
  | setMarker i v => exact step_setMarker h hl
  | setString i t => exact step_setString h hl
  | setConflict i t => exact step_setConflict h hl
  | setMarkerList i ms => exact step_setMarkerList h hl
  | prepend i m => exact step_prepend h hl
  | addSource i l => exact step_addSource h hl
  | addDest i l => exact step_addDest h hl
  | setType i ty => exact step_setType h hl
  | determineInline i => exact step_determineInline h hl
  | hunkAdd i d => exact step_hunkAdd h hl
  | addHunk i k => exact step_addHunk h hl
  | addDiff i d => exact step_addDiff h hl
  | deleteMarker i => exact step_without h (sane_deleteMarker h hl).1 (sane_deleteMarker h hl).2 (fun _ => trivial)
  | deleteString i => exact step_without h (sane_deleteString h hl).1 (sane_deleteString h hl).2 (fun _ => trivial)
  | deleteDiff i => exact step_without h (sane_deleteDiff h hl.1 hl.2).1 (sane_deleteDiff h hl.1 hl.2).2 (fun _ => trivial)
  | deleteHunk i => exact step_without h (sane_deleteHunk h hl).1 (sane_deleteHunk h hl).2 (fun _ => trivial)
  | deleteModel i =>
    obtain ⟨o, ho, hh⟩ := hl
    exact step_without h (sane_deleteModel h ho hh).1 (sane_deleteModel h ho hh).2 (fun _ => trivial)

theorem ruled_sane {s : Objs} (h : Ruled s) : Sane s := by
  induction h with
  | start => exact sane_start
  | call _ hl e ih =>
    obtain ⟨t, e', k, _⟩ := step_ok ih hl
    rw [e] at e'
    cases e'
    exact k

end KompareDiff2
