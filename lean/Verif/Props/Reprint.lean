import Verif.Props.Names
import Verif.Props.Edit
import Verif.Props.Recreate
/-
C60: the diff text that is recreated while a diff is open.
-/
namespace KompareDiff2
open Spec

/-! ### What the recreated text depends on -/

/-- The hunks of a model that a recreated diff shows. -/
def DModel.own (m : DModel) : List (Hunk Nat) := m.hunks.filter (fun k => k.type ≠ .AddedByBlend)

theorem recreate_same {d e : Diff} (h : Diff.Same d e) : e.recreate = d.recreate ∧ e.headerSlc = d.headerSlc ∧ e.headerDlc = d.headerDlc := by
  unfold Diff.recreate Diff.recreateSource Diff.recreateDest Diff.srcText Diff.dstText Diff.headerSlc Diff.headerDlc Diff.slc Diff.dlc
  rw [h.type, h.source, h.dest]
  exact ⟨rfl, rfl, rfl⟩

/-- What the file header shows. -/
def DModel.shown (m : DModel) : Str × Str × Str × Str × Str × Str :=
  (m.source, m.destination, m.sourceTimestamp, m.sourceRevision, m.destinationTimestamp, m.destinationRevision)

theorem shown_of_head {m m' : DModel} (h : m.head = m'.head) : m.shown = m'.shown := by
  unfold DModel.head at h
  simp only [Prod.mk.injEq] at h
  unfold DModel.shown
  rw [h.1, h.2.1, h.2.2.1, h.2.2.2.1, h.2.2.2.2.1, h.2.2.2.2.2.1]

theorem recreate_congr (win : Bool) {m m' : DModel} {h h' : Heap} (hh : m'.shown = m.shown) (ho : m'.own = m.own)
    (hc : ∀ i ∈ m.hunkIds, Diff.Same (h.cell i) (h'.cell i)) : m'.recreateDiff win h' = m.recreateDiff win h := by
  unfold DModel.shown at hh
  simp only [Prod.mk.injEq] at hh
  obtain ⟨h1, h2, h3, h4, h5, h6⟩ := hh
  unfold DModel.own at ho
  unfold DModel.recreateDiff
  rw [h1, h2, h3, h4, h5, h6, ho]
  congr 2
  refine List.map_congr_left (fun k hk => ?_)
  have hk' : ∀ i ∈ k.diffs, Diff.Same (h.cell i) (h'.cell i) := fun i hi =>
    hc i (List.mem_flatMap.2 ⟨k, (List.mem_filter.1 hk).1, hi⟩)
  have e1 : k.diffs.map (fun i => (h'.cell i).recreate) = k.diffs.map (fun i => (h.cell i).recreate) :=
    List.map_congr_left (fun i hi => (recreate_same (hk' i hi)).1)
  have e2 : k.diffs.map (fun i => (h'.cell i).headerSlc) = k.diffs.map (fun i => (h.cell i).headerSlc) :=
    List.map_congr_left (fun i hi => (recreate_same (hk' i hi)).2.1)
  have e3 : k.diffs.map (fun i => (h'.cell i).headerDlc) = k.diffs.map (fun i => (h.cell i).headerDlc) :=
    List.map_congr_left (fun i hi => (recreate_same (hk' i hi)).2.2)
  simp only [Hunk.recreate, Hunk.header, Hunk.headerSlc, Hunk.headerDlc, List.map_map, Function.comp_def, e1, e2, e3]

theorem recreateDiff_eq {s : MLState} {ms : List Nat} (h : s.models = some ms) (e : Env) :
    s.recreateDiff e = Res.ok (ms.flatMap (fun m => (s.store m).recreateDiff e.win s.heap)) := by
  unfold MLState.recreateDiff MLState.list
  rw [h]
  rfl

theorem recreateDiff_stays {ms : List Nat} {s1 s2 : MLState} (l1 : Loose s1 ms) (l2 : Loose s2 ms) (st : Stays ms s1 s2) (e : Env) :
    s2.recreateDiff e = s1.recreateDiff e := by
  rw [recreateDiff_eq l1.models, recreateDiff_eq l2.models]
  refine congrArg Res.ok ?_
  simp only [List.flatMap_def]
  refine congrArg List.flatten ?_
  refine List.map_congr_left (fun m hm => ?_)
  refine recreate_congr _ (shown_of_head (st.head m)) ?_ (fun i hi => st.cells i (l1.hunks m hm i hi))
  unfold DModel.own
  rw [st.hunks m]

/-- **C60.**  After a diff was opened, by whatever call, the text that `recreateDiff` gives is defined and stays the same, whatever the user
applies, unapplies, saves and selects, and however the client edits the models. -/
theorem C60_stable {s s1 s2 : MLState} {op : MLOp} (hs : Reachable s) (ho : OpensDiff op s s1) (h : EditedFrom s1 s2) (e : Env) :
    ∃ t, s1.recreateDiff e = Res.ok t ∧ s2.recreateDiff e = Res.ok t := by
  obtain ⟨ms, l1, l2, _, st⟩ := edited_inv hs ho h
  exact ⟨_, recreateDiff_eq l1.models e, (recreateDiff_stays l1 l2 st e).trans (recreateDiff_eq l1.models e)⟩

/-! ### What it is right after opening -/

/-- Nothing that the recreated text shows is changed. -/
structure Prints (s s' : MLState) : Prop where
  head : ∀ x, (s'.store x).head = (s.store x).head
  own : ∀ x, (s'.store x).own = (s.store x).own
  heap : s.heap.Ext s'.heap

theorem Prints.refl (s : MLState) : Prints s s := ⟨fun _ => rfl, fun _ => rfl, .refl _⟩
theorem Prints.trans {a b c : MLState} (h1 : Prints a b) (h2 : Prints b c) : Prints a c :=
  ⟨fun x => (h2.head x).trans (h1.head x), fun x => (h2.own x).trans (h1.own x), h1.heap.trans h2.heap⟩

theorem prints_setModel (s : MLState) (i : Nat) (m : DModel) (h1 : m.head = (s.store i).head) (h2 : m.own = (s.store i).own) :
    Prints s (s.setModel i m) := by
  refine ⟨fun x => ?_, fun x => ?_, .refl _⟩
  · show (if x = i then m else s.store x).head = _
    split
    · rename_i q; subst q; exact h1
    · rfl
  · show (if x = i then m else s.store x).own = _
    split
    · rename_i q; subst q; exact h2
    · rfl

theorem prints_firstModel {s s' : MLState} (h : s.firstModel = Res.ok s') : Prints s s' := by
  unfold MLState.firstModel at h
  obtain ⟨l, _, h⟩ := Res.bind_eq_ok.1 h
  obtain ⟨m, _, h⟩ := Res.bind_eq_ok.1 h
  cases h; exact ⟨fun _ => rfl, fun _ => rfl, .refl _⟩

theorem firstDifference_prints {m : DModel} {r : DModel × Option Nat} (h : m.firstDifference = Res.ok r) :
    r.1.head = m.head ∧ r.1.own = m.own := by
  simp only [DModel.firstDifference] at h
  repeat' first | (split at h) | (obtain ⟨_, _, h⟩ := Res.bind_eq_ok.1 h)
  all_goals first | (cases h; exact ⟨rfl, rfl⟩) | skip

theorem prints_selectFirst {s s' : MLState} (h : s.selectFirst = Res.ok s') : Prints s s' := by
  unfold MLState.selectFirst at h
  obtain ⟨m, _, h⟩ := Res.bind_eq_ok.1 h
  unfold MLState.selectWith at h
  obtain ⟨r, hr, h⟩ := Res.bind_eq_ok.1 h
  obtain ⟨h1, h2⟩ := firstDifference_prints hr
  cases h
  exact (prints_setModel s m r.1 h1 h2).trans ⟨fun _ => rfl, fun _ => rfl, .refl _⟩

theorem blendBefore_own (k : Hunk Nat) (s : BlendState) :
    (blendBefore k s).hunks.filter (fun k => k.type ≠ .AddedByBlend) = s.hunks.filter (fun k => k.type ≠ .AddedByBlend) := by
  unfold blendBefore
  split
  · simp
  · rfl

theorem blendLoop_own (ks : List (Hunk Nat)) (s : BlendState) :
    (blendLoop ks s).hunks.filter (fun k => k.type ≠ .AddedByBlend) = (s.hunks ++ ks).filter (fun k => k.type ≠ .AddedByBlend) := by
  induction ks generalizing s with
  | nil => simp [blendLoop]
  | cons k ks ih =>
    simp only [blendLoop]
    rw [ih]
    dsimp only
    rw [List.append_assoc, List.filter_append, blendBefore_own, ← List.filter_append]
    rfl

theorem blendTail_own (s : BlendState) :
    (blendTail s).hunks.filter (fun k => k.type ≠ .AddedByBlend) = s.hunks.filter (fun k => k.type ≠ .AddedByBlend) := by
  unfold blendTail
  split
  · rfl
  · simp

theorem blend_own (m : DModel) (h : Heap) (c : Str) : (m.blend h c).1.own = m.own := by
  unfold DModel.blend DModel.own
  dsimp only
  rw [blendTail_own, blendLoop_own]
  rfl

theorem prints_blendFile {s s' : MLState} {m : Nat} {c : Str} (h : s.blendFile m c = Res.ok s') : Prints s s' := by
  unfold MLState.blendFile at h
  obtain ⟨i, _, h⟩ := Res.bind_eq_ok.1 h
  obtain ⟨t, h1, h⟩ := Res.bind_eq_ok.1 h
  have k : Prints s ({ (s.setModel i ((s.store i).blend s.heap c).1) with heap := ((s.store i).blend s.heap c).2 } : MLState) := by
    have := prints_setModel s i ((s.store i).blend s.heap c).1 rfl (blend_own _ _ _)
    exact ⟨this.head, this.own, blend_ext _ _ _⟩
  exact (k.trans (prints_firstModel h1)).trans (prints_selectFirst h)

theorem prints_blendDirLoop {e : Env} {dir : Str} (l : List Nat) : ∀ {s : MLState} {b : Bool} {r : MLState × Bool},
    MLState.blendDirLoop e dir l s b = Res.ok r → Prints s r.1 := by
  induction l with
  | nil => intro s b r h; cases h; exact .refl s
  | cons m l ih =>
    intro s b r h
    simp only [MLState.blendDirLoop] at h
    obtain ⟨i, _, h⟩ := Res.bind_eq_ok.1 h
    obtain ⟨t, h1, h⟩ := Res.bind_eq_ok.1 h
    exact (prints_blendFile h1).trans (ih h)

theorem prints_blendOriginal {e : Env} {url : Str} {s : MLState} {r : MLState × Bool} (h : s.blendOriginal e url = Res.ok r) : Prints s r.1 := by
  unfold MLState.blendOriginal at h
  split at h
  · obtain ⟨l, _, h⟩ := Res.bind_eq_ok.mp h
    exact prints_blendDirLoop l h
  · split at h
    · obtain ⟨l, _, h⟩ := Res.bind_eq_ok.mp h
      obtain ⟨m, _, h⟩ := Res.bind_eq_ok.mp h
      obtain ⟨t, h1, h⟩ := Res.bind_eq_ok.mp h
      rw [← Res.ok.inj h]
      exact prints_blendFile h1
    · rw [← Res.ok.inj h]; exact .refl s

/-- The text of opened models from that of the parsed ones. -/
theorem text_of {v : MLState} {n : Nat} {xs : List DModel} {h : Heap} (f : DModel → DModel) (e : Env)
    (hm : v.models = some (List.range' n xs.length))
    (hst : ∀ (i : Nat) (x : DModel), xs[i]? = some x → (v.store (n + i)).shown = (f x).shown ∧ (v.store (n + i)).own = (f x).own ∧
      ∀ j ∈ (f x).hunkIds, Diff.Same (h.cell j) (v.heap.cell j)) :
    v.recreateDiff e = Res.ok (xs.flatMap (fun x => (f x).recreateDiff e.win h)) := by
  rw [recreateDiff_eq hm]
  refine congrArg Res.ok ?_
  simp only [List.flatMap_def]
  refine congrArg List.flatten ?_
  refine List.ext_getElem? (fun i => ?_)
  simp only [List.getElem?_map]
  rcases Nat.lt_or_ge i xs.length with hi | hi
  · rw [List.getElem?_eq_getElem hi, List.getElem?_eq_getElem (by simpa using hi)]
    simp only [Option.map_some, Option.some.injEq, List.getElem_range', Nat.one_mul]
    obtain ⟨a1, a2, a3⟩ := hst i _ (List.getElem?_eq_getElem hi)
    exact recreate_congr _ a1 a2 a3
  · rw [List.getElem?_eq_none hi, List.getElem?_eq_none (by simpa using hi)]
    rfl

/-- What `parseDiffOutput` leaves, as needed for the recreated text. -/
theorem text_parsed {e : Env} {s t : MLState} {text : Str} (w : WF s) (h : s.parseDiffOutput e text = Res.ok (t, true)) :
    ∃ r xs m d, parse e.win e.cmp s.heap (split text) = Res.ok r ∧ r.models = some xs ∧ WF t ∧ t.heap = r.heap ∧
      Opened t (List.range' s.nextModel xs.length) ∧ At t (List.range' s.nextModel xs.length) 0 0 m d ∧
      ∀ (i : Nat) (x : DModel), xs[i]? = some x → (t.store (s.nextModel + i)).hunks = x.hunks ∧ (t.store (s.nextModel + i)).head = x.head := by
  obtain ⟨wt, _, _, r, hr, hh, _, ht⟩ := parseDiffOutput_heads w h
  obtain ⟨xs, m, d, hx, ho, ha, hst⟩ := ht rfl
  refine ⟨r, xs, m, d, hr, hx, wt, hh, ho, ha, fun i x hxi => ?_⟩
  obtain ⟨q1, _, _, _, _, q6⟩ := hst i x hxi
  exact ⟨q1, q6⟩

/-- The text after steps that print the same. -/
theorem text_prints {t v : MLState} {n : Nat} {xs : List DModel} (wt : WF t) (hm : t.models = some (List.range' n xs.length))
    (hst : ∀ (i : Nat) (x : DModel), xs[i]? = some x → (t.store (n + i)).hunks = x.hunks ∧ (t.store (n + i)).head = x.head)
    (hp : Prints t v) (hv : v.models = t.models) (e : Env) :
    v.recreateDiff e = Res.ok (xs.flatMap (fun x => x.recreateDiff e.win t.heap)) := by
  refine text_of (fun x => x) e (hv.trans hm) (fun i x hx => ?_)
  obtain ⟨q1, q2⟩ := hst i x hx
  have hi : n + i ∈ t.models.getD [] := by
    rw [hm]
    have : i < xs.length := (List.getElem?_eq_some_iff.1 hx).1
    simp only [Option.getD_some, List.mem_range'_1]
    omega
  refine ⟨shown_of_head ((hp.head _).trans q2), (hp.own _).trans (by unfold DModel.own; rw [q1]), fun j hj => ?_⟩
  have hj' : j ∈ (t.store (n + i)).hunkIds := by unfold DModel.hunkIds; rw [q1]; exact hj
  rw [hp.heap.2 j (wt.hunks _ (wt.models _ hi) j hj')]
  exact .refl _

/-- **C60.**  Right after a comparison `recreateDiff` gives the text of the models as parsed from the output of the diff program: the contents
of the original files that were blended into the models are not shown. -/
theorem C60_compare {e : Env} {s s1 : MLState} {q : ProcessResult} (hs : Reachable s) (hq : q.finishedNormally = true)
    (h : s.slotDiffProcessFinished e q = Res.ok s1) {r : ParseResult} {xs : List DModel}
    (hr : parse e.win e.cmp s.heap (split q.stdout) = Res.ok r) (hx : r.models = some xs) (e' : Env) :
    s1.recreateDiff e' = Res.ok (xs.flatMap (fun x => x.recreateDiff e'.win r.heap)) := by
  unfold MLState.slotDiffProcessFinished at h
  dsimp only at h
  rw [if_pos hq] at h
  obtain ⟨⟨t, ok⟩, h1, h⟩ := Res.bind_eq_ok.1 h
  obtain ⟨wt, _, _, r', hr', hh, hf, _⟩ := parseDiffOutput_spec (hs.wf.keep (keep_emit s _)) h1
  have er : r' = r := Res.ok.inj (hr'.symm.trans hr)
  subst er
  cases ok with
  | false => rw [(hf rfl).1] at hx; cases hx
  | true =>
    obtain ⟨r2, xs', m, d, hr2, hx', _, hh', ho, ha, hst⟩ := text_parsed (hs.wf.keep (keep_emit s _)) h1
    have er : r2 = r' := Res.ok.inj (hr2.symm.trans hr)
    subst er
    have : xs' = xs := Option.some.inj (hx'.symm.trans hx)
    subst this
    rw [← hh]
    simp only [Bool.true_eq_false, if_false] at h
    split at h
    · cases h
    · rename_i i hi
      split at h
      · obtain ⟨⟨v, b⟩, hv, h⟩ := Res.bind_eq_ok.1 h
        obtain ⟨v0, hv0, h⟩ := Res.bind_eq_ok.1 h
        cases hv0
        obtain ⟨v', b', hv', ov, wv, kv, _⟩ := blendOriginal_ok e ho wt i.localSource ⟨0, 0, m, d, ha⟩
        have e1 := Res.ok.inj (hv.symm.trans hv')
        cases e1
        have nv := prints_blendOriginal hv
        dsimp only at h nv
        obtain ⟨w, hw, h⟩ := Res.bind_eq_ok.1 h
        obtain ⟨w1, hw1, h⟩ := Res.bind_eq_ok.1 h
        cases hw1
        obtain ⟨w2, hw2, h⟩ := Res.bind_eq_ok.1 h
        cases hw2
        cases h
        obtain ⟨a1, a2, a3⟩ := named_update hw
        have nw : Prints t w := ⟨fun x => by rw [a1]; exact nv.head x, fun x => by rw [a1]; exact nv.own x, by rw [a2]; exact nv.heap⟩
        exact text_prints wt ho.models hst ⟨nw.head, nw.own, nw.heap⟩ ((a3.trans ov.models).trans ho.models.symm) e'
      · obtain ⟨v0, hv0, h⟩ := Res.bind_eq_ok.1 h
        cases hv0
        obtain ⟨w, hw, h⟩ := Res.bind_eq_ok.1 h
        obtain ⟨w1, hw1, h⟩ := Res.bind_eq_ok.1 h
        cases hw1
        obtain ⟨w2, hw2, h⟩ := Res.bind_eq_ok.1 h
        cases hw2
        cases h
        obtain ⟨a1, a2, a3⟩ := named_update hw
        have nw : Prints t w := ⟨fun x => by rw [a1], fun x => by rw [a1], by rw [a2]; exact .refl _⟩
        exact text_prints wt ho.models hst ⟨nw.head, nw.own, nw.heap⟩ a3 e'

/-- **C60.**  The same right after opening a diff from its text. -/
theorem C60_text {e : Env} {s s1 : MLState} {text : Str} (hs : Reachable s) (h : s.parseAndOpenDiff e text = Res.ok (s1, true)) (e' : Env) :
    ∃ r xs, parse e.win e.cmp s.heap (split text) = Res.ok r ∧ r.models = some xs ∧
      s1.recreateDiff e' = Res.ok (xs.flatMap (fun x => x.recreateDiff e'.win r.heap)) := by
  unfold MLState.parseAndOpenDiff at h
  obtain ⟨⟨t, ok⟩, h1, h⟩ := Res.bind_eq_ok.1 h
  dsimp only at h
  split at h
  · cases h
  · rename_i hok
    have hok : ok = true := by simpa using hok
    subst hok
    obtain ⟨r, xs, m, d, hr, hx, wt, hh, ho, ha, hst⟩ := text_parsed ((hs.wf.keep (keep_clear s)).keep (keep_emit _ _)) h1
    obtain ⟨w, hw, h⟩ := Res.bind_eq_ok.1 h
    cases h
    obtain ⟨a1, a2, a3⟩ := named_update hw
    have nw : Prints t w := ⟨fun x => by rw [a1], fun x => by rw [a1], by rw [a2]; exact .refl _⟩
    refine ⟨r, xs, hr, hx, ?_⟩
    rw [← hh]
    exact text_prints wt ho.models hst ⟨nw.head, nw.own, nw.heap⟩ a3 e'

/-- **C60.**  The same right after opening a diff from a file. -/
theorem C60_file {e : Env} {s s1 : MLState} {file : Str} (hs : Reachable s) (h : s.openDiff e file = Res.ok (s1, true)) (e' : Env) :
    ∃ r xs, parse e.win e.cmp s.heap (split (e.contents file)) = Res.ok r ∧ r.models = some xs ∧
      s1.recreateDiff e' = Res.ok (xs.flatMap (fun x => x.recreateDiff e'.win r.heap)) := by
  refine C60_text (text := e.contents file) hs ?_ e'
  unfold MLState.openDiff at h
  split at h
  · cases h
  · exact h

/-- A model under the names that `patch -p`-like stripping of leading components gives. -/
def Spec.stripped (depth : Nat) (x : DModel) : DModel :=
  { x with source := lstripSeparators x.source depth, destination := lstripSeparators x.destination depth }

/-- **C60.**  Right after opening a patch for a file or a directory `recreateDiff` gives the text of the models as parsed from the patch,
under the *stripped* names. -/
theorem C60_patch {e : Env} {s s1 : MLState} {i : Info} (hs : Reachable s) (hi : s.info = some i) (h : s.openAndDiff e = Res.ok (s1, true))
    (e' : Env) :
    ∃ r xs, parse e.win e.cmp s.heap (split (e.contents i.localDestination)) = Res.ok r ∧ r.models = some xs ∧
      s1.recreateDiff e' = Res.ok (xs.flatMap (fun x => (stripped i.depth x).recreateDiff e'.win r.heap)) := by
  unfold MLState.openAndDiff at h
  rw [hi] at h
  obtain ⟨⟨t, ok⟩, h1, h⟩ := Res.bind_eq_ok.1 h
  obtain ⟨_, ⟨j, i', hj, hi', hso⟩, _⟩ := parseDiffOutput_events h1
  have hj : s.info = some j := hj
  have hij : j = i := Option.some.inj (hj.symm.trans hi)
  subst hij
  have hdp : i'.depth = j.depth := by
    unfold Info.SameOperands at hso
    have q := congrArg Info.depth hso
    exact q
  dsimp only at h
  split at h
  · cases h
  · rename_i hok
    have hok : ok = true := by simpa using hok
    subst hok
    obtain ⟨r, xs, m, d, hr, hx, wt, hh, ho, ha, hst⟩ := text_parsed (hs.wf.keep (keep_clear s)) h1
    obtain ⟨u, hu, ou, wu, ku, su, iu, dep⟩ := setDepth_ready ho wt ⟨0, 0, m, d, ha⟩ hi'
    rw [hu, Res.bind_ok] at h
    obtain ⟨⟨v, b⟩, hv, h⟩ := Res.bind_eq_ok.1 h
    have nv := prints_blendOriginal hv
    obtain ⟨v', b', hv', ov, wv, kv, _⟩ := blendOriginal_ok e ou wu j.localSource su
    have e1 := Res.ok.inj (hv.symm.trans hv')
    cases e1
    dsimp only at h nv
    split at h
    · cases h
    · obtain ⟨w, hw, h⟩ := Res.bind_eq_ok.1 h
      cases h
      obtain ⟨a1, a2, a3⟩ := named_update hw
      have b1 : w.show_.store = v.store := a1
      have b2 : w.show_.heap = v.heap := a2
      have b3 : w.show_.models = v.models := a3
      refine ⟨r, xs, hr, hx, text_of (stripped j.depth) e' (b3.trans ov.models) (fun k x hk => ?_)⟩
      rw [b1, b2]
      obtain ⟨q1, q2⟩ := hst k x hk
      have hmem : s.clear.nextModel + k ∈ List.range' s.clear.nextModel xs.length := by
        have : k < xs.length := (List.getElem?_eq_some_iff.1 hk).1
        simp only [List.mem_range'_1]
        omega
      refine ⟨(shown_of_head (nv.head _)).trans ?_, (nv.own _).trans ?_, fun x hx => ?_⟩
      · have p1 := dep.source (s.clear.nextModel + k)
        have p2 := dep.destination (s.clear.nextModel + k)
        have p3 := dep.marks (s.clear.nextModel + k)
        rw [if_pos hmem] at p1 p2
        have q2 := shown_of_head q2
        unfold DModel.shown at q2 ⊢
        unfold DModel.marks at p3
        simp only [Prod.mk.injEq] at q2 p3 ⊢
        obtain ⟨c1, c2, c3, c4, c5, c6⟩ := q2
        obtain ⟨d1, d2, d3, d4⟩ := p3
        refine ⟨?_, ?_, d1.trans c3, d2.trans c4, d3.trans c5, d4.trans c6⟩
        · rw [p1, c1, hdp]; rfl
        · rw [p2, c2, hdp]; rfl
      · unfold DModel.own
        rw [dep.hunks, q1]; rfl
      · have hx' : x ∈ (u.store (s.clear.nextModel + k)).hunkIds := by
          unfold DModel.hunkIds; rw [dep.hunks, q1]; exact hx
        rw [nv.heap.2 x (wu.hunks _ (wu.models _ (by rw [ou.models]; exact hmem)) x hx'), ← hh]
        exact dep.cells x

/-! ### The whole session -/

/-- The state `s1` was reached from `s` by opening the diff `text`: from the text, from a file, or as the output of the diff program. -/
def Spec.OpensText (e : Env) (text : Str) (s s1 : MLState) : Prop :=
  s.parseAndOpenDiff e text = Res.ok (s1, true) ∨ (∃ file, e.contents file = text ∧ s.openDiff e file = Res.ok (s1, true)) ∨
    ∃ q : ProcessResult, q.finishedNormally = true ∧ q.stdout = text ∧ s.slotDiffProcessFinished e q = Res.ok s1

/-- **C60.**  At every time of a session, `recreateDiff` gives the text of the models as they were parsed from the diff. -/
theorem C60_session {e : Env} {s s1 s2 : MLState} {text : Str} (hs : Reachable s) (ho : OpensText e text s s1) (h : EditedFrom s1 s2)
    {r : ParseResult} {xs : List DModel} (hr : parse e.win e.cmp s.heap (split text) = Res.ok r) (hx : r.models = some xs) (e' : Env) :
    s2.recreateDiff e' = Res.ok (xs.flatMap (fun x => x.recreateDiff e'.win r.heap)) := by
  have key : ∀ op, OpensDiff op s s1 → s1.recreateDiff e' = Res.ok (xs.flatMap (fun x => x.recreateDiff e'.win r.heap)) →
      s2.recreateDiff e' = Res.ok (xs.flatMap (fun x => x.recreateDiff e'.win r.heap)) := by
    intro op h1 h2
    obtain ⟨t, a, b⟩ := C60_stable hs h1 h e'
    rw [b, ← h2, a]
  rcases ho with ho | ⟨file, hf, ho⟩ | ⟨q, hq, hq', ho⟩
  · obtain ⟨r', xs', h1, h2, h3⟩ := C60_text hs ho e'
    have er : r' = r := Res.ok.inj (h1.symm.trans hr)
    subst er
    have ex : xs' = xs := Option.some.inj (h2.symm.trans hx)
    subst ex
    exact key (.parseAndOpenDiff e text) ho h3
  · obtain ⟨r', xs', h1, h2, h3⟩ := C60_file hs ho e'
    rw [hf] at h1
    have er : r' = r := Res.ok.inj (h1.symm.trans hr)
    subst er
    have ex : xs' = xs := Option.some.inj (h2.symm.trans hx)
    subst ex
    exact key (.openDiff e file) ho h3
  · subst hq'
    obtain ⟨ms, hm, _⟩ := C43_compare_names hs hq ho hr hx
    exact key (.diffFinished e q) ⟨ho, hq, by rw [hm]; simp⟩ (C60_compare hs hq ho hr hx e')

/-- **C60.**  When a well-formed unified diff whose lines are all complete was opened, then at every time of the session the recreated text
can be parsed, without an error, and gives the same models as the diff itself. -/
theorem C60_reread {e : Env} {s s1 s2 : MLState} (hs : Reachable s) (d : UDiff) (ok : d.Ok) (full : ∀ f ∈ d.files, f.Full (unescapePath e.win))
    (hc : ∃ f ∈ d.files, f.changes = true) (ho : OpensText e d.render.flatten s s1) (h : EditedFrom s1 s2) (cmp : Str → Str → Int) (heap : Heap) :
    ∃ t xs h1 ms h2, s2.recreateDiff e = Res.ok t ∧
      parse e.win e.cmp s.heap (split d.render.flatten) = Res.ok { models := some xs, malformed := false, heap := h1 } ∧
      parse e.win cmp heap (split t) = Res.ok { models := some ms, malformed := false, heap := h2 } ∧
      (ms.map (DModel.view h2)).Perm (xs.map (DModel.view h1)) := by
  obtain ⟨xs, h1, ms, h2, p1, p2, p3⟩ := C20_parse_recreate_parse d ok e.win full hc e.cmp cmp s.heap heap
  exact ⟨_, xs, h1, ms, h2, C60_session hs ho h p1 rfl e, p1, p2, p3⟩

/-- **C60.**  When a diff of one file in the form in which the library writes was opened, then at every time of the session the recreated
text is this diff, character by character. -/
theorem C60_exact {e : Env} {s s1 s2 : MLState} (hs : Reachable s) (f : UFile) (ok : f.Ok) (full : f.Full (unescapePath e.win))
    (can : f.Canonical e.win) (hc : f.changes = true) (ho : OpensText e f.render.flatten s s1) (h : EditedFrom s1 s2) :
    s2.recreateDiff e = Res.ok f.render.flatten := by
  obtain ⟨m, h1, p1, p2⟩ := C20_text_reproduced f e.win ok full can hc e.cmp s.heap
  rw [C60_session hs ho h p1 rfl e]
  simp only [List.flatMap_cons, List.flatMap_nil, List.append_nil, p2]

/-! ### A patch: the names -/

theorem tab_split {a b c d : Str} (ha : '\t' ∉ a) (hb : '\t' ∉ b) (h : a ++ '\t' :: c = b ++ '\t' :: d) : a = b := by
  induction a generalizing b with
  | nil =>
    cases b with
    | nil => rfl
    | cons y b => simp only [List.nil_append, List.cons_append, List.cons.injEq] at h; simp [← h.1] at hb
  | cons x a ih =>
    cases b with
    | nil => simp only [List.nil_append, List.cons_append, List.cons.injEq] at h; simp [h.1] at ha
    | cons y b =>
      simp only [List.cons_append, List.cons.injEq] at h
      rw [h.1, ih (fun q => ha (by simp [q])) (fun q => hb (by simp [q])) h.2]

theorem lstrip_mem {s : Str} {n : Nat} {x : Char} (h : x ∈ lstripSeparators s n) : x ∈ s := by
  unfold lstripSeparators at h
  repeat' split at h
  all_goals first | exact List.mem_of_mem_drop h | exact h | cases h

theorem lstrip_shorter {s : Str} (h : s ≠ []) (n : Nat) : (lstripSeparators s n).length < s.length := by
  have := List.length_pos_iff.2 h
  unfold lstripSeparators
  split
  · simpa using this
  · rw [List.length_drop]; omega

theorem escape_inj {win : Bool} {p q : Str} (h : escapePath win p = escapePath win q) : p = q := by
  rw [← unescape_escape win p, h, unescape_escape]

/-- **C60, defect.**  When a patch of one file, in the form in which the library writes, was opened for a file or directory, then at no time
of the session the recreated text is the patch that was opened: it names other files, because stripping always changes a name (C43). -/
theorem C60_patch_defect {e : Env} {s s1 s2 : MLState} {i : Info} (hs : Reachable s) (hi : s.info = some i)
    (h : s.openAndDiff e = Res.ok (s1, true)) (f : UFile) (ok : f.Ok) (full : f.Full (unescapePath e.win)) (can : f.Canonical e.win)
    (hc : f.changes = true) (ht : e.contents i.localDestination = f.render.flatten) (h2 : EditedFrom s1 s2) :
    ∃ t rest, s2.recreateDiff e = Res.ok t ∧ t ≠ e.contents i.localDestination ∧
      t = str "--- " ++ escapePath e.win (lstripSeparators (unescapePath e.win f.src.name) i.depth) ++ str "\t" ++ rest := by
  obtain ⟨r, xs, hr, hx, hp⟩ := C60_patch hs hi h e
  obtain ⟨t, a, b⟩ := C60_stable (op := .openFileAndDiff e) hs h h2 e
  obtain ⟨m, h1, p1, p2⟩ := C20_text_reproduced f e.win ok full can hc e.cmp s.heap
  rw [ht, p1] at hr
  have er := Res.ok.inj hr
  subst er
  have ex : [m] = xs := Option.some.inj hx
  subst ex
  have et : t = (stripped i.depth m).recreateDiff e.win h1 := by
    rw [a] at hp
    have := Res.ok.inj hp
    simpa using this
  have hname : m.source = unescapePath e.win f.src.name := by
    have okd : UDiff.Ok { files := [f] } := by
      refine ⟨by simpa using ok, ?_, ?_, by simp⟩
      · intro g gs e
        simp only [List.cons.injEq] at e
        rw [← e.1]
        exact ⟨by simp [can.noPreamble], fun _ => full.stamps.1⟩
      · intro g gs e k hk
        simp only [List.cons.injEq] at e
        rw [← e.2] at hk
        simp at hk
    obtain ⟨m', h', q1, q2⟩ := C26_unified_single { files := [f] } okd f rfl hc e.win e.cmp s.heap
    have q1 : parse e.win e.cmp s.heap (split f.render.flatten) = Res.ok { models := some [m'], malformed := false, heap := h' } := by
      simpa [UDiff.render] using q1
    rw [p1] at q1
    simp only [Res.ok.injEq, ParseResult.mk.injEq, Option.some.injEq, List.cons.injEq, and_true, true_and] at q1
    rw [q1.1]
    exact congrArg MView.source q2
  have hsh : ∀ x : DModel, ∃ rest, x.recreateDiff e.win h1 = str "--- " ++ escapePath e.win x.source ++ str "\t" ++ rest := by
    intro x
    unfold DModel.recreateDiff
    simp only [List.append_assoc]
    exact ⟨_, rfl⟩
  obtain ⟨rest, hrest⟩ := hsh (stripped i.depth m)
  obtain ⟨rest', hrest'⟩ := hsh m
  have hsrc : (stripped i.depth m).source = lstripSeparators (unescapePath e.win f.src.name) i.depth := by
    show lstripSeparators m.source i.depth = _
    rw [hname]
  rw [hsrc] at hrest
  refine ⟨t, rest, b, fun hc' => ?_, et.trans hrest⟩
  have tabs : '\t' ∉ unescapePath e.win f.src.name := fun q => by
    rcases unescape_mem q with q | q | q
    · exact ok.src.name.2.1 q
    · cases q
    · cases q
  have tabs' : '\t' ∉ lstripSeparators (unescapePath e.win f.src.name) i.depth := fun q => tabs (lstrip_mem q)
  have esc : ∀ p : Str, '\t' ∉ p → '\t' ∉ escapePath e.win p := fun p hp q => by
    rcases escape_mem q with q | q | q
    · exact hp q
    · cases q
    · cases q
  rw [et, ht, ← p2, hrest, hrest', hname] at hc'
  simp only [List.append_assoc] at hc'
  have hc' := List.append_cancel_left hc'
  have q := escape_inj (tab_split (esc _ tabs') (esc _ tabs) hc')
  have := congrArg List.length q
  have := lstrip_shorter full.names.1 i.depth
  omega

/-! ### Other formats: lines without their ends -/

/-- No text of the model contains a newline: neither the names, nor the lines. -/
structure Spec.MView.Bare (v : MView) : Prop where
  head : '\n' ∉ v.source ∧ '\n' ∉ v.destination ∧ '\n' ∉ v.sourceTimestamp ∧ '\n' ∉ v.destinationTimestamp ∧
    '\n' ∉ v.sourceRevision ∧ '\n' ∉ v.destinationRevision
  hunks : ∀ k ∈ v.ownHunks, '\n' ∉ k.function ∧ ∀ d ∈ k.diffs, ∀ l ∈ d.src ++ d.dst, '\n' ∉ l

theorem count_zero {s : Str} (h : '\n' ∉ s) : s.count '\n' = 0 := List.count_eq_zero.2 h

theorem decInt_noNewline (n : Int) : '\n' ∉ decInt n := by
  unfold decInt
  split
  · intro h
    simp only [List.mem_cons] at h
    rcases h with h | h
    · cases h
    · exact decNat_noNewline _ h
  · exact decNat_noNewline _

theorem flatten_noNewline {ls : List Str} (h : ∀ l ∈ ls, '\n' ∉ l) : '\n' ∉ ls.flatten := by
  intro q
  obtain ⟨l, hl, q⟩ := List.mem_flatten.1 q
  exact h l hl q

theorem recreate_noNewline {d : Diff} (h : ∀ l ∈ d.view.src ++ d.view.dst, '\n' ∉ l) : '\n' ∉ d.recreate := by
  have h1 : ∀ l ∈ d.srcText, '\n' ∉ l := fun l hl => h l (List.mem_append.2 (.inl hl))
  have h2 : ∀ l ∈ d.dstText, '\n' ∉ l := fun l hl => h l (List.mem_append.2 (.inr hl))
  unfold Diff.recreate Diff.recreateSource Diff.recreateDest
  rw [List.mem_append]
  rintro (q | q)
  · refine flatten_noNewline (fun l hl => ?_) q
    obtain ⟨x, hx, rfl⟩ := List.mem_map.1 hl
    split <;> simp [h1 x hx]
  · refine flatten_noNewline (fun l hl => ?_) q
    obtain ⟨x, hx, rfl⟩ := List.mem_map.1 hl
    split <;> simp [h2 x hx]

theorem hunk_newlines {k : Hunk Diff} (hf : '\n' ∉ k.function) (hd : ∀ d ∈ k.diffs, ∀ l ∈ d.view.src ++ d.view.dst, '\n' ∉ l) :
    k.recreate.count '\n' = 1 := by
  have e1 : ((k.diffs.map Diff.recreate).flatten).count '\n' = 0 := by
    refine count_zero (flatten_noNewline (fun l hl => ?_))
    obtain ⟨x, hx, rfl⟩ := List.mem_map.1 hl
    exact recreate_noNewline (hd x hx)
  have e2 : (if k.function ≠ [] then ' ' :: k.function else []).count '\n' = 0 := by
    split
    · exact count_zero (by simp [hf])
    · rfl
  unfold Hunk.recreate Hunk.header
  simp only [List.count_append, e1, e2, count_zero (decInt_noNewline _)]
  decide

theorem escape_noNewline {win : Bool} {p : Str} (h : '\n' ∉ p) : '\n' ∉ escapePath win p := fun q => by
  rcases escape_mem q with q | q | q
  · exact h q
  · cases q
  · cases q

theorem model_newlines {m : DModel} {h : Heap} (win : Bool) (hb : (m.view h).Bare) :
    (m.recreateDiff win h).count '\n' = 2 + (m.view h).ownHunks.length := by
  obtain ⟨⟨h1, h2, h3, h4, h5, h6⟩, hk⟩ := hb
  have rev : ∀ r : Str, '\n' ∉ r → (if r ≠ [] then '\t' :: r else []).count '\n' = 0 := by
    intro r hr
    split
    · exact count_zero (by simp [hr])
    · rfl
  have own : (m.view h).ownHunks = (m.hunks.filter (fun k => k.type ≠ .AddedByBlend)).map (Hunk.view h) := by
    unfold MView.ownHunks DModel.view
    rw [List.filter_map]
    rfl
  rw [own] at hk ⊢
  have each : ∀ ks : List (Hunk Nat), (∀ k ∈ ks.map (Hunk.view h), '\n' ∉ k.function ∧ ∀ d ∈ k.diffs, ∀ l ∈ d.src ++ d.dst, '\n' ∉ l) →
      ((ks.map (fun k => (k.load h).recreate)).flatten).count '\n' = ks.length := by
    intro ks hks
    induction ks with
    | nil => rfl
    | cons k ks ih =>
      have q := hks _ (List.mem_map_of_mem (List.mem_cons_self ..))
      rw [List.map_cons, List.flatten_cons, List.count_append, ih (fun k' hk' => hks k' (by
        rw [List.map_cons]; exact List.mem_cons_of_mem _ hk')), hunk_newlines]
      · rw [List.length_cons, Nat.add_comm]
      · exact q.1
      · intro d hd
        obtain ⟨i, hi, rfl⟩ := List.mem_map.1 hd
        exact q.2 _ (List.mem_map_of_mem (f := fun i => (h.cell i).view) hi)
  have each' := each _ hk
  unfold Hunk.load at each'
  unfold DModel.recreateDiff
  have r1 := rev m.sourceRevision h5
  have r2 := rev m.destinationRevision h6
  have n1 := count_zero (escape_noNewline (win := win) (p := m.source) h1)
  have n2 := count_zero (escape_noNewline (win := win) (p := m.destination) h2)
  have t1 := count_zero (s := m.sourceTimestamp) h3
  have t2 := count_zero (s := m.destinationTimestamp) h4
  simp only [List.count_append, each', r1, r2, n1, n2, t1, t2, List.length_map]
  have c1 : (str "--- ").count '\n' = 0 := by decide
  have c2 : (str "+++ ").count '\n' = 0 := by decide
  have c3 : (str "\t").count '\n' = 0 := by decide
  have c4 : (str "\n").count '\n' = 1 := by decide
  rw [c1, c2, c3, c4]

/-- The newlines in the text of several models. -/
theorem models_newlines {h : Heap} (win : Bool) (xs : List DModel) (hb : ∀ x ∈ xs, (x.view h).Bare) :
    (xs.flatMap (fun x => x.recreateDiff win h)).count '\n' = ((xs.map (DModel.view h)).map (fun v => 2 + v.ownHunks.length)).sum := by
  induction xs with
  | nil => rfl
  | cons x xs ih =>
    rw [List.flatMap_cons, List.count_append, model_newlines win (hb x (by simp)), ih (fun y hy => hb y (by simp [hy]))]
    rfl

/-- **C60, defect.**  When a well-formed diff in the normal format was opened, then at every time of the session the recreated text has only
two lines for the file names and one for each hunk: the lines of the files are written one after the other *without* newlines between them,
so that the text is no diff. -/
theorem C60_normal_defect {e : Env} {s s1 s2 : MLState} (hs : Reachable s) (cs : List NCmd) (ok : ∀ c ∈ cs, c.Ok) (hne : cs ≠ [])
    (ho : OpensText e (cs.flatMap NCmd.render).flatten s s1) (h : EditedFrom s1 s2) :
    ∃ t, s2.recreateDiff e = Res.ok t ∧ t.count '\n' = 2 + cs.length := by
  obtain ⟨m, h', p1, p2⟩ := C32_normal cs ok hne e.win e.cmp s.heap
  refine ⟨_, C60_session hs ho h p1 rfl e, ?_⟩
  have hb : (m.view h').Bare := by
    rw [p2]
    refine ⟨by simp [normalView], fun k hk => ?_⟩
    obtain ⟨c, hc, rfl⟩ := List.mem_map.1 (List.mem_filter.1 hk).1
    refine ⟨by simp [NCmd.view], fun d hd l hl => ?_⟩
    simp only [NCmd.view, List.mem_singleton] at hd
    subst hd
    exact (ok c hc).lines l hl
  rw [models_newlines e.win [m] (by simpa using hb)]
  simp only [List.map_cons, List.map_nil, List.sum_cons, List.sum_nil, Nat.add_zero, p2]
  congr 1
  unfold MView.ownHunks normalView
  simp only
  rw [List.filter_eq_self.2, List.length_map]
  intro k hk
  obtain ⟨c, _, rfl⟩ := List.mem_map.1 hk
  rfl

theorem mem_cblockViews {a b : Nat} {ks : List CBlock} {d : DView} (h : d ∈ cblockViews a b ks) : ∃ k ∈ ks, d.src = k.old ∧ d.dst = k.new := by
  induction ks generalizing a b with
  | nil => cases h
  | cons k ks ih =>
    simp only [cblockViews, List.mem_cons] at h
    rcases h with rfl | h
    · exact ⟨k, by simp, rfl, rfl⟩
    · obtain ⟨k', hk, q⟩ := ih h
      exact ⟨k', by simp [hk], q⟩

/-- **C60, defect.**  The same for a diff in the context format: two lines for each file and one for each hunk. -/
theorem C60_context_defect {e : Env} {s s1 s2 : MLState} (hs : Reachable s) (d : CDiff) (ok : d.Ok) (hne : ∃ f ∈ d.files, f.hunks ≠ [])
    (ho : OpensText e d.render.flatten s s1) (h : EditedFrom s1 s2) :
    ∃ t, s2.recreateDiff e = Res.ok t ∧
      t.count '\n' = ((d.files.filter (fun f => decide (f.hunks ≠ []))).map (fun f => 2 + f.hunks.length)).sum := by
  obtain ⟨f0, hf0, hh0⟩ := hne
  obtain ⟨r, hr, _, hv⟩ := C33_context d ok (List.ne_nil_of_mem hf0) e.win e.cmp s.heap
  cases hm : r.models with
  | none => rw [hm] at hv; exact absurd (hv f0 hf0) hh0
  | some xs =>
    rw [hm] at hv
    obtain ⟨_, hp⟩ := hv
    refine ⟨_, C60_session hs ho h hr hm e, ?_⟩
    have own : ∀ f : CFile, (f.view (unescapePath e.win) d.cvs).ownHunks = f.hunks.map CHunk.view := by
      intro f
      unfold MView.ownHunks CFile.view
      simp only
      rw [List.filter_eq_self]
      intro k hk
      obtain ⟨c, _, rfl⟩ := List.mem_map.1 hk
      rfl
    have un : ∀ p : Str, '\n' ∉ p → '\n' ∉ unescapePath e.win p := fun p hp q => by
      rcases unescape_mem q with q | q | q
      · exact hp q
      · cases q
      · cases q
    have opt : ∀ o : Option Str, (∀ x, o = some x → '\n' ∉ x) → '\n' ∉ o.getD [] := by
      intro o ho
      cases o with
      | none => simp
      | some x => exact ho x rfl
    have hb : ∀ f ∈ d.files, (f.view (unescapePath e.win) d.cvs).Bare := by
      intro f hf
      have okf := ok.files f hf
      refine ⟨⟨un _ okf.src.name.2.2, un _ okf.dst.name.2.2, ?_, ?_, by simp [CFile.view], by simp [CFile.view]⟩, fun k hk => ?_⟩
      · show '\n' ∉ (shownStamps d.cvs f.src f.dst).1
        unfold shownStamps
        split
        · exact opt _ okf.src.extra
        · exact opt _ (fun x hx => (okf.src.stamp x hx).2.2)
      · show '\n' ∉ (shownStamps d.cvs f.src f.dst).2
        unfold shownStamps
        split
        · have := okf.dst.extra
          dsimp only
          split
          · simp
          · rename_i x hx
            simp [this x hx]
        · exact opt _ (fun x hx => (okf.dst.stamp x hx).2.2)
      · rw [own] at hk
        obtain ⟨c, hc, rfl⟩ := List.mem_map.1 hk
        have okc := okf.hunks c hc
        refine ⟨opt _ okc.function, fun x hx l hl => ?_⟩
        obtain ⟨b, hb, e1, e2⟩ := mem_cblockViews hx
        rw [e1, e2] at hl
        exact (okc.lines b hb l hl).1
    rw [models_newlines e.win xs (fun x hx => by
      obtain ⟨f, hf, q⟩ := List.mem_map.1 (hp.subset (List.mem_map_of_mem hx))
      rw [← q]
      exact hb f (List.mem_filter.1 hf).1)]
    rw [(hp.map _).sum_nat]
    rw [List.map_map]
    congr 1
    refine List.map_congr_left (fun f _ => ?_)
    simp only [Function.comp_apply, own, List.length_map]

/-! ### Non-vacuity -/

/-- Whatever can be parsed can be opened in a new list. -/
theorem opens_parsed {text : Str} {r : ParseResult} (e : Env) (hr : parse e.win e.cmp exampleStart.heap (split text) = Res.ok r) (hm : r.models ≠ none) :
    ∃ s1, OpensText e text exampleStart s1 := by
  obtain ⟨s1, h⟩ := parseAndOpenDiff_total (text := text) exampleStart_reachable.wf (by simp [exampleStart, MLState.setInfo]) hr
  refine ⟨s1, .inl ?_⟩
  rw [h]
  cases hx : r.models with
  | none => exact absurd hx hm
  | some _ => rfl

/-- A diff in the form in which the library writes: after applying a difference and saving, the recreated text is that diff. -/
example : ∃ s1 s2, OpensText emptyEnv recreateFile.render.flatten exampleStart s1 ∧
    runUser [.apply, .saveAll (fun _ => {})] s1 = Res.ok s2 ∧ s2.recreateDiff emptyEnv = Res.ok recreateFile.render.flatten := by
  obtain ⟨m, h, p1, _⟩ := C20_text_reproduced recreateFile false recreateFile_ok.1 recreateFile_ok.2.1 recreateFile_ok.2.2.1 recreateFile_ok.2.2.2
    emptyEnv.cmp exampleStart.heap
  obtain ⟨s1, h1⟩ := parseAndOpenDiff_total (e := emptyEnv) (text := recreateFile.render.flatten) exampleStart_reachable.wf (by simp [exampleStart, MLState.setInfo]) p1
  have ho : OpensDiff (.parseAndOpenDiff emptyEnv recreateFile.render.flatten) exampleStart s1 := h1
  obtain ⟨s2, a2, e2⟩ := (C58_safe exampleStart_reachable ho .opened).2 .apply trivial
  obtain ⟨s3, a3, e3⟩ := (C58_safe exampleStart_reachable ho e2).2 (.saveAll (fun _ => {})) trivial
  refine ⟨s1, s3, .inl h1, ?_, C60_exact exampleStart_reachable recreateFile recreateFile_ok.1 recreateFile_ok.2.1 recreateFile_ok.2.2.1
    recreateFile_ok.2.2.2 (.inl h1) e3⟩
  show (UserOp.apply.run s1 >>= fun s => runUser [.saveAll (fun _ => {})] s) = _
  rw [a2, Res.bind_ok]
  show ((UserOp.saveAll (fun _ => {})).run s2 >>= fun s => runUser [] s) = _
  rw [a3]
  rfl

/-- A normal diff of three commands with eight lines: five newlines are left. -/
example : ∃ s1 t, OpensText emptyEnv (exampleNormal.flatMap NCmd.render).flatten exampleStart s1 ∧ s1.recreateDiff emptyEnv = Res.ok t ∧ t.count '\n' = 5 := by
  obtain ⟨m, h', p1, _⟩ := C32_normal exampleNormal exampleNormal_ok (by decide) emptyEnv.win emptyEnv.cmp exampleStart.heap
  obtain ⟨s1, h1⟩ := opens_parsed emptyEnv p1 (by simp)
  obtain ⟨t, ht, hc⟩ := C60_normal_defect exampleStart_reachable exampleNormal exampleNormal_ok (by decide) h1 .opened
  exact ⟨s1, t, h1, ht, hc⟩

/-- A context diff of two files with one hunk each. -/
example : ∃ s1 t, OpensText emptyEnv exampleContext.render.flatten exampleStart s1 ∧ s1.recreateDiff emptyEnv = Res.ok t ∧ t.count '\n' = 6 := by
  obtain ⟨r, hr, _, hv⟩ := C33_context exampleContext exampleContext_ok (by decide) emptyEnv.win emptyEnv.cmp exampleStart.heap
  have hm : r.models ≠ none := by
    intro hm
    rw [hm] at hv
    exact absurd hv (show ¬ ∀ f ∈ exampleContext.files, f.hunks = [] by decide)
  obtain ⟨s1, h1⟩ := opens_parsed emptyEnv hr hm
  obtain ⟨t, ht, hc⟩ := C60_context_defect exampleStart_reachable exampleContext exampleContext_ok (by decide) h1 .opened
  exact ⟨s1, t, h1, ht, hc⟩

/-- A file system with a file and a patch for it. -/
def reprintEnv : Env :=
  { emptyEnv with
    isFile := fun _ => true
    contents := fun p => if p = str "p.diff" then recreateFile.render.flatten else str "1\n2\n3\n4\n5\n6\nx\nold\n\n" }

/-- The patch is opened; the recreated text begins with a name without its first character. -/
example : ∃ s s1 t rest, Reachable s ∧ s.openAndDiff reprintEnv = Res.ok (s1, true) ∧ s1.recreateDiff reprintEnv = Res.ok t ∧
    t ≠ recreateFile.render.flatten ∧ t = str "--- \" b\"\t" ++ rest := by
  have hr : Reachable ((MLState.init none true ⟨fun _ => Diff.new 0 0 .Unchanged, 0⟩).setInfo
      (some { mode := .BlendingFile, localSource := str "b.txt", localDestination := str "p.diff" })) :=
    ⟨none, true, ⟨fun _ => Diff.new 0 0 .Unchanged, 0⟩, [.setInfo (some { mode := .BlendingFile, localSource := str "b.txt", localDestination := str "p.diff" })], rfl⟩
  have hc : reprintEnv.contents (str "p.diff") = recreateFile.render.flatten :=
    show (if str "p.diff" = str "p.diff" then recreateFile.render.flatten else str "1\n2\n3\n4\n5\n6\nx\nold\n\n") = _ from if_pos rfl
  have okd : UDiff.Ok { files := [recreateFile] } := by
    refine ⟨by simpa using recreateFile_ok.1, ?_, ?_, by simp⟩
    · intro g gs e
      simp only [List.cons.injEq] at e
      rw [← e.1]
      exact ⟨by simp [recreateFile], fun _ => by simp [recreateFile]⟩
    · intro g gs e k hk
      simp only [List.cons.injEq] at e
      rw [← e.2] at hk
      simp at hk
  obtain ⟨s1, ms, fs, h1, _⟩ := C48_patch (e := reprintEnv) hr rfl { files := [recreateFile] } (by
      rw [show (({ mode := .BlendingFile, localSource := str "b.txt", localDestination := str "p.diff" } : Info).localDestination) = str "p.diff" from rfl, hc]
      simp [UDiff.render]) okd
    ⟨recreateFile, by simp, by decide⟩ (.inr ⟨rfl, rfl, by decide⟩)
    (fun _ => [str "1\n", str "2\n", str "3\n", str "4\n", str "5\n", str "6\n", str "x\n", str "new\n", str "\n", str "y\n"]) (by
      intro f hf _
      simp only [List.mem_singleton] at hf
      subst hf
      show Patches 0 (recreateFile.hunks.map UHunk.edit) (split (str "1\n2\n3\n4\n5\n6\nx\nold\n\n")) _
      have e1 : split (str "1\n2\n3\n4\n5\n6\nx\nold\n\n") =
        [str "1\n", str "2\n", str "3\n", str "4\n", str "5\n", str "6\n"] ++ [str "x\n", str "old\n", str "\n"] ++ [] := by decide
      rw [e1]
      exact .edit 0 ⟨7, [str "x\n", str "old\n", str "\n"], [str "x\n", str "new\n", str "\n", str "y\n"]⟩ []
        [str "1\n", str "2\n", str "3\n", str "4\n", str "5\n", str "6\n"] [] [] (by decide) (.done _ _))
  obtain ⟨t, rest, a, b, c⟩ := C60_patch_defect hr rfl h1 recreateFile recreateFile_ok.1 recreateFile_ok.2.1 recreateFile_ok.2.2.1
    recreateFile_ok.2.2.2 hc .opened
  exact ⟨_, s1, t, rest, hr, h1, a, by rw [← hc]; exact b, c⟩

end KompareDiff2
