import Verif.Spec.ReentrantPatch
import Verif.Props.ReentrantCompare
/-
Property theorem C84: receivers that call back while a patch is opened for a file or directory.
-/
namespace KompareDiff2
open Spec

/-- What follows when something was read. -/
def patchRest (call : MLState → Res MLState) (e : Env) (t : MLState) : Res (MLState × Bool) := do
  let u ← call t
  let u ← u.setDepthAndApplied
  match u.info with
  | none => Res.ub
  | some i => do
    let b ← u.blendOriginal e i.localSource
    if b.2 = false then do
      let s ← call (b.1.emit (.error .blendProblem))
      Res.ok (s, false)
    else do
      let s ← b.1.updateActions
      let s ← s.showR call
      Res.ok (s, true)

theorem patchR_patient {call : MLState → Res MLState} (hp : Patient call) {e : Env} {s t : MLState} {i : Info} (hi : s.info = some i)
    (ht : s.clear.parseDiffOutput e (e.contents i.localDestination) = Res.ok (t, true)) :
    s.openAndDiffR call e = patchRest call e t := by
  unfold MLState.openAndDiffR patchRest
  rw [clearR_patient hp, Res.bind_ok]
  rw [show s.clear.info = some i from hi]
  dsimp only
  rw [parseDiffOutputR_patient hp, ht, Res.bind_ok]
  dsimp only
  rw [if_pos rfl]
  cases call t <;> rfl

theorem patchR_failed {call : MLState → Res MLState} (hp : Patient call) {e : Env} {s t : MLState} {i : Info} (hi : s.info = some i)
    (ht : s.clear.parseDiffOutput e (e.contents i.localDestination) = Res.ok (t, false)) :
    s.openAndDiffR call e = (call (t.emit (.error .notADiff)) >>= fun s => Res.ok (s, false)) := by
  unfold MLState.openAndDiffR
  rw [clearR_patient hp, Res.bind_ok]
  rw [show s.clear.info = some i from hi]
  dsimp only
  rw [parseDiffOutputR_patient hp, ht, Res.bind_ok]
  rfl

theorem blendDirLoop_bool {e : Env} {dir : Str} {l : List Nat} {s s' : MLState} {b b' : Bool} (h : MLState.blendDirLoop e dir l s b = Res.ok (s', b'))
    (hb : l ≠ [] ∨ b = true) : b' = true := by
  induction l generalizing s b with
  | nil =>
    cases h
    rcases hb with hb | hb
    · exact absurd rfl hb
    · exact hb
  | cons m l ih =>
    unfold MLState.blendDirLoop at h
    obtain ⟨i, _, h⟩ := Res.bind_eq_ok.1 h
    dsimp only at h
    obtain ⟨s1, _, h⟩ := Res.bind_eq_ok.1 h
    exact ih h (.inr rfl)

/-- Whether blending works does not depend on what was marked. -/
theorem blendOriginal_bool {e : Env} {s s' : MLState} {ms : List Nat} {url : Str} {b : Bool} (h : Opened s ms) (hb : s.blendOriginal e url = Res.ok (s', b)) :
    b = (e.isDir url || e.isFile url) := by
  unfold MLState.blendOriginal at hb
  split at hb
  · rename_i q
    rw [h.list, Res.bind_ok] at hb
    rw [q, blendDirLoop_bool hb (.inl h.ne)]; rfl
  · rename_i q
    split at hb
    · rename_i q'
      rw [h.list, Res.bind_ok] at hb
      obtain ⟨m, _, hb⟩ := Res.bind_eq_ok.1 hb
      obtain ⟨x, _, hb⟩ := Res.bind_eq_ok.1 hb
      cases hb
      rw [q']; simp
    · rename_i q'
      cases hb
      simp only [Bool.not_eq_true] at q q'
      rw [q, q']; rfl

theorem statusBar_silent {f : Receivers} (hf : OnlyAtStatusBar f) (n : Nat) (s : MLState) (x : Event) (hx : ∀ a b c d y, x ≠ .statusBar a b c d y) :
    f.react n (s.emit x) = Res.ok (s.emit x) := by
  have : f (s.emit x).log = [] := hf s.log x hx
  cases n with
  | zero => unfold Receivers.react; rw [if_pos this]
  | succ n => unfold Receivers.react; rw [this]; rfl

/-- The way from the end of parsing to the end of the slot. -/
theorem patchRest_fine {e : Env} {t : MLState} {ms : List Nat} {i : Info} {f : Receivers} (o : Opened t ms) (w : WF t) (sel : Selected t ms) (hi : t.info = some i)
    (hf : ∀ log, ∀ op ∈ f log, op.Ok t) (n : Nat) :
    patchRest (f.react n) e t = Res.hang ∨ ∃ u u' v s', patchRest (f.react n) e t = Res.ok (s', e.isDir i.localSource || e.isFile i.localSource) ∧ Midway ms t u ∧
      Opened u' ms ∧ WF u' ∧ Keep u u' ∧ Selected u' ms ∧ Depth i ms u u' ∧ u'.blendOriginal e i.localSource = Res.ok (v, e.isDir i.localSource || e.isFile i.localSource) ∧
      Opened v ms ∧ Keep u' v ∧ Selected v ms ∧ Midway ms v s' ∧ ((e.isDir i.localSource || e.isFile i.localSource) = true → NavigationRight s') ∧
      (OnlyAtStatusBar f → s'.heap = v.heap) := by
  unfold patchRest
  rcases react_fine hf n t ⟨o, sel, .refl t⟩ with g | ⟨u, g, hu⟩
  · left; rw [g]; rfl
  rw [g]
  simp only [Res.bind_ok]
  have hiu : u.info = some i := hu.frame.info.trans hi
  obtain ⟨u', d1, d2, d3, d4, d5, d6, d7⟩ := setDepth_ready hu.opened (w.frame hu.frame) hu.atIt hiu
  rw [d1]
  simp only [Res.bind_ok]
  rw [d6, hiu]
  dsimp only
  obtain ⟨v, b, h1, h2, _, h4, h5, _⟩ := blendOriginal_ok e d2 d3 i.localSource d5
  have hb := blendOriginal_bool d2 h1
  rw [h1]
  simp only [Res.bind_ok]
  have hf' : ∀ log, ∀ op ∈ f log, op.Ok v := fun log op ho =>
    ok_same (by rw [h2.models, o.models]) (by rw [h4.deadDiffs, d4.deadDiffs, hu.frame.deadDiffs]) (hf log op ho)
  have hv : Midway ms v v := ⟨h2, h5, .refl v⟩
  cases b with
  | false =>
    rw [if_pos rfl]
    rcases react_fine hf' n _ (hv.emit (.error .blendProblem)) with g' | ⟨z, g', hz⟩
    · left; rw [g']; rfl
    · right
      rw [g']
      refine ⟨u, u', v, z, by rw [← hb]; rfl, hu, d2, d3, d4, d5, d7, by rw [← hb]; exact h1, h2, h4, h5, hz, fun q => ?_, fun q => ?_⟩
      · rw [← hb] at q; cases q
      · rw [statusBar_silent q n _ _ (by simp)] at g'
        cases g'; rfl
  | true =>
    rw [if_neg (by simp)]
    rcases hv.update with g' | ⟨x, g', hx, hr⟩
    · left; rw [g']; rfl
    · rw [g']
      simp only [Res.bind_ok]
      have key : Fine ms v (x.showR (f.react n)) := by
        unfold MLState.showR
        exact (react_fine hf' n _ (hx.emit _)).bind (fun w hw => react_fine hf' n _ (hw.emit _))
      rcases key with g'' | ⟨y, g'', hy⟩
      · left; rw [g'']; rfl
      · right
        obtain ⟨_, k⟩ := showR_navs (react_fine hf' n) (react_navs hf' n) hx g''
        rw [g'']
        refine ⟨u, u', v, y, by rw [← hb]; rfl, hu, d2, d3, d4, d5, d7, by rw [← hb]; exact h1, h2, h4, h5, hy, fun _ => k hr.1, fun q => ?_⟩
        unfold MLState.showR at g''
        rw [statusBar_silent q n _ _ (by simp), Res.bind_ok, statusBar_silent q n _ _ (by simp)] at g''
        cases g''
        obtain ⟨k0, j0, m0, d0, a⟩ := h5
        obtain ⟨ac, hac, _⟩ := updateActions_ok h2 a
        rw [hac] at g'
        cases g'; rfl

theorem patchR_plain (e : Env) {s : MLState} {i : Info} (hs : Reachable s) (hi : s.info = some i) : s.openAndDiffR Res.ok e = s.openAndDiff e := by
  have w0 : WF s.clear := hs.wf.keep (keep_clear _)
  have hp : Patient Res.ok := fun _ _ _ => rfl
  unfold MLState.openAndDiff
  rw [hi]
  dsimp only
  cases ht : s.clear.parseDiffOutput e (e.contents i.localDestination) with
  | ub =>
    unfold MLState.openAndDiffR
    rw [clearR_patient hp, Res.bind_ok]
    rw [show s.clear.info = some i from hi]
    dsimp only
    rw [parseDiffOutputR_patient hp, ht]
    rfl
  | hang =>
    unfold MLState.openAndDiffR
    rw [clearR_patient hp, Res.bind_ok]
    rw [show s.clear.info = some i from hi]
    dsimp only
    rw [parseDiffOutputR_patient hp, ht]
    rfl
  | ok x =>
    obtain ⟨t, b⟩ := x
    cases b with
    | false => rw [patchR_failed hp hi ht]; rfl
    | true =>
      obtain ⟨w1, _, hinfo, r', _, _, _, ho⟩ := parseDiffOutput_spec w0 ht
      obtain ⟨xs, m, d, _, hop, hat, _⟩ := ho rfl
      obtain ⟨_, ⟨j, j', hj1, hj2, hso⟩, _⟩ := parseDiffOutput_events ht
      have hij : j = i := Option.some.inj (hj1.symm.trans hi)
      subst hij
      obtain ⟨u', d1, _, _, _, _, d6, _⟩ := setDepth_ready hop w1 ⟨0, 0, m, d, hat⟩ hj2
      rw [patchR_patient hp hi ht]
      unfold patchRest
      simp only [Res.bind_ok, Bool.true_eq_false, if_false]
      rw [d1]
      simp only [Res.bind_ok]
      rw [d6, hj2]
      dsimp only
      rw [(Info.SameOperands.fields hso).2.2.1]
      cases u'.blendOriginal e j.localSource with
      | ub => rfl
      | hang => rfl
      | ok y =>
        obtain ⟨v, b⟩ := y
        cases b <;> rfl

/-- Nobody is connected. -/
def nobody : Receivers := fun _ => []

theorem nobody_react : nobody.react 0 = Res.ok := by
  funext s
  unfold Receivers.react nobody
  rw [if_pos rfl]

/-- What the plain opening does when something was read. -/
theorem patch_opened {e : Env} {s s1 : MLState} {i : Info} {b : Bool} (hs : Reachable s) (hi : s.info = some i)
    (h : s.openAndDiff e = Res.ok (s1, b)) (hm : s1.models ≠ none) :
    ∃ t ms i1, s.clear.parseDiffOutput e (e.contents i.localDestination) = Res.ok (t, true) ∧ Opened t ms ∧ WF t ∧ Selected t ms ∧ t.info = some i1 ∧
      Info.SameOperands i i1 ∧ b = (e.isDir i.localSource || e.isFile i.localSource) ∧ s1.models = some ms ∧ s1.deadDiffs = t.deadDiffs ∧
      ∀ m, (s1.store m).differences = (t.store m).differences := by
  have w0 : WF s.clear := hs.wf.keep (keep_clear _)
  have hp : Patient Res.ok := fun _ _ _ => rfl
  have h' := h
  rw [← patchR_plain e hs hi] at h'
  cases ht : s.clear.parseDiffOutput e (e.contents i.localDestination) with
  | ub => unfold MLState.openAndDiff at h; rw [hi] at h; dsimp only at h; rw [ht] at h; cases h
  | hang => unfold MLState.openAndDiff at h; rw [hi] at h; dsimp only at h; rw [ht] at h; cases h
  | ok x =>
    obtain ⟨t, b'⟩ := x
    obtain ⟨w1, _, _, r', _, _, hbf, ho⟩ := parseDiffOutput_spec w0 ht
    cases b' with
    | false =>
      exfalso
      rw [patchR_failed hp hi ht] at h'
      cases h'
      exact hm (hbf rfl).2.1
    | true =>
      obtain ⟨xs, m, d, _, hop, hat, _⟩ := ho rfl
      obtain ⟨_, ⟨j, j', hj1, hj2, hso⟩, _⟩ := parseDiffOutput_events ht
      have hij : j = i := Option.some.inj (hj1.symm.trans hi)
      subst hij
      rw [patchR_patient hp hi ht, ← nobody_react] at h'
      rcases patchRest_fine (e := e) (f := nobody) hop w1 ⟨0, 0, m, d, hat⟩ hj2 (fun _ _ q => by cases q) 0 with g | ⟨u, u', v, s', g, hu, d2, d3, d4, d5, d7, _, h2, h4, _, hz, _, _⟩
      · rw [g] at h'; cases h'
      · rw [g] at h'
        cases h'
        refine ⟨t, _, j', rfl, hop, w1, ⟨0, 0, m, d, hat⟩, hj2, hso, by rw [(Info.SameOperands.fields hso).2.2.1], hz.opened.models, ?_, fun m => ?_⟩
        · rw [hz.frame.deadDiffs, h4.deadDiffs, d4.deadDiffs, hu.frame.deadDiffs]
        · rw [hz.frame.differences, h4.differences, d4.differences, hu.frame.differences]

/-- **C84.** A patch is opened for a file or a directory, with receivers that wait for something to select and may then call any slots whenever something is
signalled, to any depth: no undefined behaviour; unless they go on for ever, the answer is the same as without them, the same files and differences are
there, one of them is selected, and if it worked the navigation actions are right. -/
theorem C84_safe {e : Env} {s s1 : MLState} {i : Info} {b : Bool} {f : Receivers} (hs : Reachable s) (hi : s.info = some i) (h : s.openAndDiff e = Res.ok (s1, b))
    (hm : s1.models ≠ none) (hw : f.Waits) (hf : ∀ log, ∀ op ∈ f log, op.Ok s1) (n : Nat) :
    s.openAndDiffR (f.react n) e = Res.hang ∨ ∃ s' ms k j m d, s.openAndDiffR (f.react n) e = Res.ok (s', b) ∧ SelectionValid s' ms k j m d ∧
      (b = true → NavigationRight s') ∧ s'.models = s1.models ∧ ∀ m, (s'.store m).differences = (s1.store m).differences := by
  obtain ⟨t, ms, i1, ht, o, w, sel, hti, hso, hb, q1, q2, q3⟩ := patch_opened hs hi h hm
  rw [patchR_patient (react_patient hw n) hi ht]
  have hls := (Info.SameOperands.fields hso).2.2.1
  rcases patchRest_fine (e := e) o w sel hti (fun log op ho => ok_same (by rw [o.models, q1]) q2.symm (hf log op ho)) n with
    g | ⟨u, u', v, s', g, hu, d2, d3, d4, d5, d7, _, h2, h4, _, hz, nr, _⟩
  · exact .inl g
  · right
    obtain ⟨k, j, m, d, a⟩ := hz.atIt
    rw [hls, ← hb] at g nr
    refine ⟨s', ms, k, j, m, d, g, a.valid hz.opened, nr, by rw [hz.opened.models, q1], fun m => ?_⟩
    rw [hz.frame.differences, h4.differences, d4.differences, hu.frame.differences, q3]

/-- **C84.** If the patch cannot be read, receivers that wait and ignore errors make no difference. -/
theorem C84_fails {e : Env} {s s1 : MLState} {i : Info} {b : Bool} {f : Receivers} (hs : Reachable s) (hi : s.info = some i) (h : s.openAndDiff e = Res.ok (s1, b))
    (hm : s1.models = none) (hw : f.Waits) (hf : SilentOnErrors f) (n : Nat) : s.openAndDiffR (f.react n) e = s.openAndDiff e := by
  have w0 : WF s.clear := hs.wf.keep (keep_clear _)
  have h' := h
  rw [← patchR_plain e hs hi] at h'
  rw [← patchR_plain e hs hi]
  cases ht : s.clear.parseDiffOutput e (e.contents i.localDestination) with
  | ub => unfold MLState.openAndDiff at h; rw [hi] at h; dsimp only at h; rw [ht] at h; cases h
  | hang => unfold MLState.openAndDiff at h; rw [hi] at h; dsimp only at h; rw [ht] at h; cases h
  | ok x =>
    obtain ⟨t, b'⟩ := x
    cases b' with
    | false =>
      rw [patchR_failed (react_patient hw n) hi ht, patchR_failed (fun _ _ _ => rfl) hi ht]
      have : f (t.emit (.error .notADiff)).log = [] := hf t.log _
      have e1 : f.react n (t.emit (.error .notADiff)) = Res.ok (t.emit (.error .notADiff)) := by
        cases n with
        | zero => unfold Receivers.react; rw [if_pos this]
        | succ n => unfold Receivers.react; rw [this]; rfl
      rw [e1]
    | true =>
      exfalso
      obtain ⟨w1, _, _, r', _, _, hbf, ho⟩ := parseDiffOutput_spec w0 ht
      obtain ⟨xs, m, d, _, hop, hat, _⟩ := ho rfl
      obtain ⟨_, ⟨j, j', hj1, hj2, hso⟩, _⟩ := parseDiffOutput_events ht
      rw [patchR_patient (fun _ _ _ => rfl) hi ht, ← nobody_react] at h'
      rcases patchRest_fine (e := e) (f := nobody) hop w1 ⟨0, 0, m, d, hat⟩ hj2 (fun _ _ q => by cases q) 0 with g | ⟨u, u', v, s', g, hu, d2, d3, d4, d5, d7, _, h2, h4, _, hz, _, _⟩
      · rw [g] at h'; cases h'
      · rw [g] at h'
        cases h'
        have := hz.opened.models
        rw [hm] at this
        cases this

/-- Opening a patch with receivers: all files are whole, and only user actions happen to them then. -/
theorem patch_whole {e : Env} {s s1 : MLState} {i : Info} {b : Bool} {p : ParseResult} {xs : List DModel} {f : Receivers} (hs : Reachable s) (hi : s.info = some i)
    (hp : parse e.win e.cmp s.heap (split (e.contents i.localDestination)) = Res.ok p) (hx : p.models = some xs)
    (hu : e.isDir i.localSource = true ∨ (e.isDir i.localSource = false ∧ e.isFile i.localSource = true ∧ xs.length = 1))
    (h : s.openAndDiff e = Res.ok (s1, b)) (hw : f.Waits) (hf : ∀ log, ∀ op ∈ f log, op.Ok s1) (n : Nat) :
    s.openAndDiffR (f.react n) e = Res.hang ∨ ∃ v s', s.openAndDiffR (f.react n) e = Res.ok (s', true) ∧
      Midway (List.range' s.nextModel xs.length) v s' ∧ NavigationRight s' ∧ (∀ op, UserOp.Ok s1 op → UserOp.Ok v op) ∧
      ∀ (k : Nat) (x : DModel), xs[k]? = some x →
        WholeSince v (List.range' s.nextModel xs.length) (s.nextModel + k) (lstripSeparators x.source i.depth) x.hunks (x.hunks.map (Hunk.view p.heap))
          (original e i.localSource (lstripSeparators x.source i.depth)) ∧
        (OnlyAtStatusBar f → ∀ d ∈ (s'.store (s.nextModel + k)).differences, (s'.heap.cell d).applied = i.applied) := by
  have w0 : WF s.clear := hs.wf.keep (keep_clear _)
  obtain ⟨t, ht, o, sel, w, hheap, hinfo, hst⟩ := opens_raw (e := e) (s := s.clear) (text := e.contents i.localDestination) w0
    (by show s.info ≠ none; rw [hi]; simp) hp hx
  have hn : s.clear.nextModel = s.nextModel := rfl
  rw [hn] at o sel hst
  obtain ⟨i1, hi1, hso⟩ := hinfo i hi
  have f3 := (Info.SameOperands.fields hso).2.2.1
  have hdp : i1.depth = i.depth := by
    unfold Info.SameOperands at hso
    have q := congrArg Info.depth hso
    exact q
  have hap : i1.applied = i.applied := by
    unfold Info.SameOperands at hso
    have q := congrArg Info.applied hso
    exact q
  have hm : s1.models ≠ none := by
    obtain ⟨s1', g1, g2, _⟩ := C57_patch hs hi hp hx hu
    rw [h] at g1; cases g1; rw [g2]; simp
  obtain ⟨t', ms, _, ht', o', _, _, _, _, hb, q1, q2, _⟩ := patch_opened hs hi h hm
  have et : t' = t := by rw [ht] at ht'; cases ht'; rfl
  subst et
  have ems : ms = List.range' s.nextModel xs.length := by
    have := o'.models; rw [o.models] at this; cases this; rfl
  subst ems
  have hbt : (e.isDir i.localSource || e.isFile i.localSource) = true := by
    rcases hu with hu | ⟨_, hu, _⟩ <;> simp [hu]
  rw [patchR_patient (react_patient hw n) hi ht]
  rcases patchRest_fine (e := e) o w sel hi1 (fun log op ho => ok_same (by rw [o.models, q1]) q2.symm (hf log op ho)) n with
    g | ⟨u, u', v, s', g, hu1, d2, d3, d4, d5, dep, hbl, b2, b3, b4, hz, nr, heq⟩
  · exact .inl g
  right
  rw [f3, hbt] at g
  rw [f3, hbt] at nr
  refine ⟨v, s', g, hz, nr rfl, fun op ho => ok_same (by rw [b2.models, q1]) (by rw [b3.deadDiffs, d4.deadDiffs, hu1.frame.deadDiffs, q2]) ho, fun k x hk => ?_⟩
  have hmem : s.nextModel + k ∈ List.range' s.nextModel xs.length := by
    have := (List.getElem?_eq_some_iff.1 hk).1
    rw [List.mem_range'_1]; omega
  have hraw : ∀ m ∈ List.range' s.nextModel xs.length, Raw u'.heap (u'.store m) := by
    intro m hm
    obtain ⟨k, x, rfl, hk⟩ := mem_range_model hm
    exact ((hst k x hk).2.2.2.frame (hu1.frame.hunks _) (hu1.frame.differences _) hu1.frame.cells (Nat.le_of_eq hu1.frame.heapNext.symm)).frame
      (dep.hunks _) (dep.differences _) dep.cells (Nat.le_of_eq dep.next.symm)
  obtain ⟨v', h2, o2, w2, k2, sel2, e2, so2, rd2⟩ := blendOriginal_overlaid e d2 d3 d5 i.localSource
    (by
      rcases hu with hu | ⟨hu1, hu2, hu3⟩
      · exact .inl hu
      · exact .inr ⟨hu1, hu2, by rw [List.length_range', hu3]⟩) hraw
  have ev : v' = v := by
    rw [f3, h2, hbt] at hbl
    cases hbl; rfl
  subst ev
  obtain ⟨q1, q2, _, q4⟩ := hst k x hk
  have hsrc : ∀ m, (u.store m).source = (t'.store m).source := by
    intro m
    have := hu1.frame.head m
    unfold DModel.head at this
    simp only [Prod.mk.injEq] at this
    exact this.1
  have hsd := dep.source (s.nextModel + k)
  rw [if_pos hmem, hdp, hsrc, q1] at hsd
  have hrd := rd2 _ hmem
  rw [hsd, dep.hunks, hu1.frame.hunks, q2] at hrd
  refine ⟨⟨by rw [so2, hsd], hrd, ?_⟩, fun q d hd => ?_⟩
  · have hal : ∀ k' ∈ x.hunks, ∀ i' ∈ k'.diffs, i' < u'.heap.next := by
      intro k' hk' i' hi'
      rw [dep.next, hu1.frame.heapNext]
      exact q4.alloc i' (List.mem_flatMap.2 ⟨k', by rw [q2]; exact hk', hi'⟩)
    have e3 : x.hunks.map (Hunk.view v'.heap) = x.hunks.map (Hunk.view u'.heap) := hunks_view_ext e2 hal
    have e4 : ∀ {a b : Heap}, (∀ j, Diff.Same (a.cell j) (b.cell j)) → (x.hunks.map (Hunk.view b)).map HView.unmarked = (x.hunks.map (Hunk.view a)).map HView.unmarked := by
      intro a b hab
      simp only [List.map_map]
      exact List.map_congr_left (fun k _ => unmarked_same hab k)
    rw [e3, e4 dep.cells, e4 hu1.frame.cells, hheap]
  · rw [heq q]
    rw [hz.frame.differences, k2.differences] at hd
    rw [e2.2 d (d3.diffs _ (d3.models _ (by rw [d2.models]; exact hmem)) d hd), ← hap]
    exact dep.applied _ hmem d (by rw [← dep.differences]; exact hd)

/-- **C84.** Whatever those receivers do in between, marking or saving included, afterwards every file is shown whole: whatever the user does then, saving it
writes the original with the hunks of the patch laid over it, each difference with its old lines if it is marked, else with its new ones.  If the receivers
only answer the number of files and differences, all marks they made are undone: every difference has the mark asked for. -/
theorem C84_saved {e : Env} {s s1 : MLState} {i : Info} {b : Bool} {p : ParseResult} {xs : List DModel} {f : Receivers} (hs : Reachable s) (hi : s.info = some i)
    (hp : parse e.win e.cmp s.heap (split (e.contents i.localDestination)) = Res.ok p) (hx : p.models = some xs)
    (hu : e.isDir i.localSource = true ∨ (e.isDir i.localSource = false ∧ e.isFile i.localSource = true ∧ xs.length = 1))
    (h : s.openAndDiff e = Res.ok (s1, b)) (hw : f.Waits) (hf : ∀ log, ∀ op ∈ f log, op.Ok s1) (n : Nat) :
    s.openAndDiffR (f.react n) e = Res.hang ∨ ∃ s', s.openAndDiffR (f.react n) e = Res.ok (s', true) ∧
      s'.models = some (List.range' s.nextModel xs.length) ∧
      ∀ (k : Nat) (x : DModel), xs[k]? = some x → (s'.store (s.nextModel + k)).source = lstripSeparators x.source i.depth ∧
        SavesOverlay s' (s.nextModel + k) (x.hunks.map (Hunk.view p.heap)) (original e i.localSource (lstripSeparators x.source i.depth)) ∧
        (OnlyAtStatusBar f → ∀ d ∈ (s'.store (s.nextModel + k)).differences, (s'.heap.cell d).applied = i.applied) := by
  rcases patch_whole hs hi hp hx hu h hw hf n with g | ⟨v, s', g, hz, _, _, q⟩
  · exact .inl g
  · refine .inr ⟨s', g, hz.opened.models, fun k x hk => ?_⟩
    obtain ⟨q1, q2⟩ := (q k x hk).1.saves hz (mem_range_of hk)
    exact ⟨q1, q2, (q k x hk).2⟩

/-- **C84.** The receivers stay connected: whatever the user does afterwards while they call back in the same way, there is no undefined behaviour, and unless
it goes on for ever one of the differences is selected, the navigation actions are right, and from then on too saving any file writes the original with the
hunks of the patch laid over it. -/
theorem C84_session {e : Env} {s s1 : MLState} {i : Info} {b : Bool} {p : ParseResult} {xs : List DModel} {f : Receivers} (hs : Reachable s) (hi : s.info = some i)
    (hp : parse e.win e.cmp s.heap (split (e.contents i.localDestination)) = Res.ok p) (hx : p.models = some xs)
    (hu : e.isDir i.localSource = true ∨ (e.isDir i.localSource = false ∧ e.isFile i.localSource = true ∧ xs.length = 1))
    (h : s.openAndDiff e = Res.ok (s1, b)) (hw : f.Waits) (hf : ∀ log, ∀ op ∈ f log, op.Ok s1) (n : Nat) {ops : List UserOp} (hops : ∀ op ∈ ops, op.Ok s1) :
    (s.openAndDiffR (f.react n) e >>= fun o => runUserR f n ops o.1) = Res.hang ∨
    ∃ s' ms k j m d, (s.openAndDiffR (f.react n) e >>= fun o => runUserR f n ops o.1) = Res.ok s' ∧ SelectionValid s' ms k j m d ∧ NavigationRight s' ∧
      s'.models = some (List.range' s.nextModel xs.length) ∧
      ∀ (k : Nat) (x : DModel), xs[k]? = some x → (s'.store (s.nextModel + k)).source = lstripSeparators x.source i.depth ∧
        SavesOverlay s' (s.nextModel + k) (x.hunks.map (Hunk.view p.heap)) (original e i.localSource (lstripSeparators x.source i.depth)) := by
  rcases patch_whole hs hi hp hx hu h hw hf n with g | ⟨v, s', g, hz, nr, hok, q⟩
  · left; rw [g]; rfl
  · rw [g, Res.bind_ok]
    have hf' : ∀ log, ∀ op ∈ f log, op.Ok v := fun log op ho => hok op (hf log op ho)
    have hops' : ∀ op ∈ ops, op.Ok v := fun op ho => hok op (hops op ho)
    rcases callsR_fine (ms := List.range' s.nextModel xs.length) (s0 := v) ops (fun op ho t ht => (runR_fine (react_fine hf' n) ht op (hops' op ho)).1) s' hz with g' | ⟨s2, g', hm'⟩
    · exact .inl g'
    · obtain ⟨k, j, m, d, a⟩ := hm'.atIt
      exact .inr ⟨s2, _, k, j, m, d, g', a.valid hm'.opened, callsR_navs (react_fine hf' n) (react_navs hf' n) ops hops' s' s2 hz g' nr, hm'.opened.models,
        fun k x hk => (q k x hk).1.saves hm' (mem_range_of hk)⟩

/-- **C84.** It ends if the receivers stop calling: if they call nothing any more once `k` signals were sent, `k` levels are enough. -/
theorem C84_ends {e : Env} {s s1 : MLState} {i : Info} {b : Bool} {f : Receivers} {k : Nat} (hs : Reachable s) (hi : s.info = some i)
    (h : s.openAndDiff e = Res.ok (s1, b)) (hm : s1.models ≠ none) (hw : f.Waits) (hf : ∀ log, ∀ op ∈ f log, op.Ok s1) (hk : f.StopsAfter k) {n : Nat} (hn : k ≤ n) :
    ∃ s', s.openAndDiffR (f.react n) e = Res.ok (s', b) := by
  obtain ⟨t, ms, i1, ht, o, w, sel, hti, hso, hb, q1, q2, q3⟩ := patch_opened hs hi h hm
  rw [patchR_patient (react_patient hw n) hi ht]
  have hls := (Info.SameOperands.fields hso).2.2.1
  have hf0 : ∀ log, ∀ op ∈ f log, op.Ok t := fun log op ho => ok_same (by rw [o.models, q1]) q2.symm (hf log op ho)
  have ends : ∀ {b x : MLState}, (∀ log, ∀ op ∈ f log, op.Ok b) → Midway ms b x → ∃ y, f.react n x = Res.ok y ∧ Midway ms b y := by
    intro b x hb hx
    obtain ⟨y, e1, e2, _⟩ := react_ends hb hk n x hx (by omega)
    exact ⟨y, e1, e2⟩
  unfold patchRest
  obtain ⟨u, g, hu⟩ := ends hf0 ⟨o, sel, .refl t⟩
  have hiu : u.info = some i1 := hu.frame.info.trans hti
  obtain ⟨u', d1, d2, d3, d4, d5, d6, d7⟩ := setDepth_ready hu.opened (w.frame hu.frame) hu.atIt hiu
  obtain ⟨v, b', h1, h2, _, h4, h5, _⟩ := blendOriginal_ok e d2 d3 i1.localSource d5
  have hb' := blendOriginal_bool d2 h1
  rw [hls, ← hb] at hb'
  subst hb'
  have hf' : ∀ log, ∀ op ∈ f log, op.Ok v := fun log op ho =>
    ok_same (by rw [h2.models, o.models]) (by rw [h4.deadDiffs, d4.deadDiffs, hu.frame.deadDiffs]) (hf0 log op ho)
  have hv : Midway ms v v := ⟨h2, h5, .refl v⟩
  rw [g]
  simp only [Res.bind_ok]
  rw [d1]
  simp only [Res.bind_ok]
  rw [d6, hiu]
  dsimp only
  rw [h1]
  simp only [Res.bind_ok]
  cases b' with
  | false =>
    rw [if_pos rfl]
    obtain ⟨z, g', hz⟩ := ends hf' (hv.emit (.error .blendProblem))
    rw [g']
    exact ⟨z, rfl⟩
  | true =>
    rw [if_neg (by simp)]
    obtain ⟨k0, j0, m0, d0, a⟩ := h5
    obtain ⟨ac, hac, _⟩ := updateActions_ok h2 a
    obtain ⟨y, e1, hy⟩ := ends hf' ((hv.actions ac).emit (.modelsChanged v.models))
    obtain ⟨z, e2, hz⟩ := ends hf' (hy.emit (.selection y.selectedModel y.selectedDifference))
    rw [hac]
    simp only [Res.bind_ok, MLState.showR]
    rw [show (f.react n (MLState.emit { v with actions := ac } (Event.modelsChanged v.models))) = Res.ok y from e1]
    simp only [Res.bind_ok]
    rw [e2]
    exact ⟨z, rfl⟩

/-! ### Defects -/

/-- Defect: if the file is no diff, the list is gone when that is signalled, and a receiver that goes to the next file dereferences a null pointer. -/
theorem C84_failed_defect {e : Env} {s : MLState} {i : Info} {p : ParseResult} (hs : Reachable s) (hi : s.info = some i)
    (hp : parse e.win e.cmp s.heap (split (e.contents i.localDestination)) = Res.ok p) (hx : p.models = none) (n : Nat) :
    s.openAndDiffR (nextIfNoDiff.react (n + 1)) e = Res.ub := by
  have w0 : WF s.clear := hs.wf.keep (keep_clear _)
  obtain ⟨t, ht⟩ := parseDiffOutput_total (e := e) (s := s.clear) (text := e.contents i.localDestination) w0 (by show s.info ≠ none; rw [hi]; simp) hp
  rw [hx] at ht
  obtain ⟨_, _, _, _, _, _, hb, _⟩ := parseDiffOutput_spec w0 ht
  have hmn : t.models = none := (hb rfl).2.1
  have hw : nextIfNoDiff.Waits := by
    intro log x he
    unfold nextIfNoDiff
    rw [List.getLast?_concat]
    cases x with
    | error k => cases k <;> first | rfl | cases he
    | _ => rfl
  rw [patchR_failed (react_patient hw _) hi ht]
  have : nextIfNoDiff (t.emit (.error .notADiff)).log = [.nextFile] := by
    unfold nextIfNoDiff MLState.emit
    rw [List.getLast?_concat]
  unfold Receivers.react
  rw [this]
  simp only [callsR, UserOp.runR]
  rw [nextFile_none (show (t.emit (.error .notADiff)).models = none from hmn)]
  rfl

theorem saveAtStatusBar_only : OnlyAtStatusBar saveAtStatusBar := by
  intro log x hx
  unfold saveAtStatusBar
  rw [List.getLast?_concat]
  cases x <;> first | rfl | exact absurd rfl (hx _ _ _ _ _)

/-- Saving at the moment at which the number of differences is signalled. -/
theorem early_save {e : Env} {s : MLState} {text : Str} {i : Info} {p : ParseResult} {x : DModel} {xs : List DModel} (w : WF s) (hi : s.info = some i)
    (hmode : i.mode ≠ .ComparingDirs) (hp : parse e.win e.cmp s.heap (split text) = Res.ok p) (hx : p.models = some (x :: xs)) (n : Nat) :
    ∃ t u, s.parseDiffOutput e text = Res.ok (t, true) ∧ saveAtStatusBar.react (n + 1) t = Res.ok u ∧
      .upload i.destination ((x.hunks.map (Hunk.view p.heap)).flatMap HView.old).flatten ∈ u.log := by
  obtain ⟨t, h1⟩ := parseDiffOutput_total (e := e) (s := s) (text := text) w (by rw [hi]; simp) hp
  rw [hx] at h1
  obtain ⟨w1, _, _, r', hr2, hheap, _, h2⟩ := parseDiffOutput_spec w h1
  rw [hp] at hr2
  cases hr2
  obtain ⟨xs', m, d, hx', o, a, hst⟩ := h2 rfl
  rw [hx] at hx'
  cases hx'
  have hm : m = s.nextModel := by
    have := a.model
    simp [List.range'] at this
    exact this.symm
  subst hm
  obtain ⟨q1, q2, q3, _⟩ := hst 0 x rfl
  rw [Nat.add_zero] at q1 q2 q3
  obtain ⟨_, ⟨j, j', hj1, hj2, hso⟩, _⟩ := parseDiffOutput_events h1
  have hij : j = i := Option.some.inj (hj1.symm.trans hi)
  subst hij
  have hf := Info.SameOperands.fields hso
  have hraw : Raw t.heap (t.store s.nextModel) := by
    rw [hheap]
    exact (parsed_raw hp hx (List.mem_cons_self ..)).ext q1 q2 (.refl _)
  have hpm := (((parse_models hp).2 _ hx).2.each x (List.mem_cons_self ..)).1
  have hun : ∀ d ∈ (t.store s.nextModel).differences, (t.heap.cell d).applied = false ∧ (t.heap.cell d).unsaved = false := by
    intro d hd
    rw [q2] at hd
    rw [hheap]
    have := hpm.sub hd
    unfold DModel.hunkIds at this
    obtain ⟨k, hk, hdk⟩ := List.mem_flatMap.1 this
    have := hpm.hunks k hk (p.heap.cell d).view (List.mem_map.2 ⟨d, hdk, rfl⟩)
    exact ⟨this.1, this.2.1⟩
  have hlive : t.model (some s.nextModel) = Res.ok s.nextModel := o.model (o.mem a.model)
  generalize hM : t.store s.nextModel = M at hraw hun q1 q2 q3
  let t1 : MLState := { t.setModel s.nextModel (M.applyAllDifferences t.heap true).1 with heap := (M.applyAllDifferences t.heap true).2 }.emit (.applyAll true)
  have s1 : t.slotApplyAllDifferences true = Res.ok t1 := by
    unfold MLState.slotApplyAllDifferences
    rw [a.selectedModel, hlive, Res.bind_ok]
    dsimp only
    rw [hM]
  have t1store : t1.store s.nextModel = (M.applyAllDifferences t.heap true).1 := by
    show (t.setModel s.nextModel (M.applyAllDifferences t.heap true).1).store s.nextModel = _
    unfold MLState.setModel
    simp
  have t1heap : t1.heap = applyAllLoop true t.heap 0 M.differences := rfl
  have hd0 : d ∈ M.differences := by
    rw [← hM]; exact List.mem_of_getElem? a.diff
  have hap : ∀ d ∈ M.differences, (t1.heap.cell d).applied = true := by
    intro d hd
    rw [t1heap, applied_applyAllLoop, if_pos hd]
  have huns : (t1.heap.cell d).unsaved = true := by
    have := (toggled_applyAllLoop true M.differences t.heap 0 d).2
    rw [← t1heap, hap d hd0, (hun d hd0).1, (hun d hd0).2] at this
    simpa using this
  have hsaved : (t1.store s.nextModel).savedText t1.heap = ((x.hunks.map (Hunk.view p.heap)).flatMap HView.old).flatten := by
    have hid : (t1.store s.nextModel).hunkIds = x.hunkIds := by
      rw [t1store]
      show M.hunkIds = _
      unfold DModel.hunkIds; rw [q1]
    rw [savedText_view, hid, List.flatMap_map]
    congr 1
    have hr : (x.hunks.map (Hunk.view p.heap)).flatMap HView.old = x.hunkIds.flatMap (fun i => (p.heap.cell i).srcText) := by
      unfold DModel.hunkIds
      rw [List.flatMap_map, List.flatMap_assoc]
      congr 1
      funext k
      unfold HView.old Hunk.view
      rw [List.flatMap_map]
      rfl
    rw [hr]
    have key : ∀ i ∈ x.hunkIds, DView.saved (t1.heap.cell i).view = (p.heap.cell i).srcText := by
      intro i hi'
      have hiM : i ∈ M.hunkIds := by unfold DModel.hunkIds at hi' ⊢; rw [q1]; exact hi'
      have hs := (toggled_applyAllLoop true M.differences t.heap 0 i).1
      rw [← t1heap] at hs
      rw [← hheap]
      have es : (t1.heap.cell i).srcText = (t.heap.cell i).srcText := by unfold Diff.srcText; rw [hs.source]
      have ed : (t1.heap.cell i).dstText = (t.heap.cell i).dstText := by unfold Diff.dstText; rw [hs.dest]
      by_cases hty : (t.heap.cell i).type = .Unchanged
      · have := hraw.same i hiM hty
        unfold DView.saved Diff.view
        dsimp only
        rw [es, ed, this]
        split <;> rfl
      · have := hap i (hraw.cover i hiM hty)
        unfold DView.saved Diff.view
        dsimp only
        rw [this, es]
        rfl
    generalize x.hunkIds = l at key
    induction l with
    | nil => rfl
    | cons i l ih =>
      simp only [List.flatMap_cons]
      rw [key i (by simp), ih (fun i hi => key i (by simp [hi]))]
  have hdead : s.nextModel ∉ t1.dead := by
    have : t1.dead = t.dead := rfl
    rw [this]
    exact o.live _ (o.mem a.model)
  have hinfo1 : t1.info = some j' := hj2
  obtain ⟨hp', hsv, _⟩ := ((C36_save (v := {}) hdead hinfo1).2 ⟨d, by rw [t1store]; exact hd0, huns⟩).2 (by
    unfold MLState.SaveEnv.failure; simp)
  have htgt : saveTarget j' (t1.store s.nextModel) = j.destination := by
    unfold saveTarget
    rw [if_neg (by rw [hf.1]; exact hmode), hf.2.1]
  rw [htgt, hsaved] at hsv
  obtain ⟨u0, a1, a2, a3, a4, a5, rfl⟩ := parse_last h1
  have hlog : saveAtStatusBar (MLState.emit u0 (.statusBar a1 a2 a3 a4 a5)).log = [.applyAllSlot true, .save {}] := by
    unfold saveAtStatusBar MLState.emit
    rw [List.getLast?_concat]
  have hus : (t1.store s.nextModel).hasUnsavedChanges t1.heap = true := by
    unfold DModel.hasUnsavedChanges
    exact List.any_eq_true.2 ⟨d, by rw [t1store]; exact hd0, huns⟩
  have hsv' : MLState.saveDestinationR (saveAtStatusBar.react n) {} t1 s.nextModel = t1.saveDestination {} s.nextModel := by
    unfold MLState.saveDestinationR
    rw [show t1.model (some s.nextModel) = Res.ok s.nextModel from hlive, Res.bind_ok, if_neg (by rw [hus]; simp), if_neg (by simp), if_neg (by simp), if_neg (by simp), hinfo1]
    dsimp only
    rw [if_neg (by simp), if_neg (by simp)]
  have hsel1 : t1.selectedModel = some s.nextModel := a.selectedModel
  have hstep : ∃ u, MLState.slotSaveR (saveAtStatusBar.react n) {} t1 = Res.ok u ∧
      .upload j.destination ((x.hunks.map (Hunk.view p.heap)).flatMap HView.old).flatten ∈ u.log := by
    unfold MLState.slotSaveR
    rw [hsel1]
    dsimp only
    rw [hsv', hsv, Res.bind_ok]
    dsimp only
    rw [statusBar_silent saveAtStatusBar_only n _ _ (by simp)]
    refine ⟨_, rfl, ?_⟩
    unfold MLState.emit
    split <;> simp
  obtain ⟨u, g1, g2⟩ := hstep
  refine ⟨_, u, h1, ?_, g2⟩
  unfold Receivers.react
  rw [hlog]
  simp only [callsR, UserOp.runR, MLState.applyAllR]
  rw [s1, Res.bind_ok, show saveAtStatusBar.react n t1 = Res.ok t1 from statusBar_silent saveAtStatusBar_only n _ _ (by simp), Res.bind_ok, g1]
  rfl

/-- The signals sent before are still in the log at the end of a comparison. -/
theorem finishedRest_log {e : Env} {t u : MLState} {ms : List Nat} {f : Receivers} (hf : OnlyAtStatusBar f) (n : Nat) (o : Opened t ms) (w : WF t)
    (sel : Selected t ms) (hu : f.react n t = Res.ok u) (hop : ∀ log, ∀ op ∈ f log, op.Ok t) :
    ∃ s', finishedRest (f.react n) e t = Res.ok s' ∧ u.log <+: s'.log := by
  have hm : Midway ms t u := by
    rcases react_fine hop n t ⟨o, sel, .refl t⟩ with g | ⟨y, g, hy⟩
    · rw [g] at hu; cases hu
    · rw [g] at hu; cases hu; exact hy
  unfold finishedRest
  rw [hu]
  simp only [Res.bind_ok]
  obtain ⟨v, b1, b2, b3, ⟨k, j, m', d', b4⟩, b5⟩ := blendStep_ok e hm.opened (w.frame hm.frame) hm.atIt
  obtain ⟨ac, hac, _⟩ := updateActions_ok b2 b4
  rw [b1]
  simp only [Res.bind_ok]
  rw [hac]
  simp only [Res.bind_ok, MLState.showR]
  rw [statusBar_silent hf n _ _ (by simp)]
  simp only [Res.bind_ok]
  rw [statusBar_silent hf n _ _ (by simp)]
  simp only [Res.bind_ok]
  rw [statusBar_silent hf n _ _ (by simp)]
  refine ⟨_, rfl, ?_⟩
  show u.log <+: v.log ++ _ ++ _ ++ _
  rw [b5.log]
  simp only [List.append_assoc]
  exact List.prefix_append _ _

theorem saveAtStatusBar_ok (s : MLState) : ∀ log, ∀ op ∈ saveAtStatusBar log, op.Ok s := by
  intro log op ho
  unfold saveAtStatusBar at ho
  split at ho
  · simp at ho; rcases ho with rfl | rfl <;> trivial
  · cases ho

theorem OnlyAtStatusBar.waits {f : Receivers} (h : OnlyAtStatusBar f) : f.Waits := by
  intro log x hx
  exact h log x (by rintro a b c d y rfl; cases hx)

/-- Defect: when the number of differences is signalled at the end of a comparison, the files are not yet complete.  A receiver that marks everything and
saves at that moment overwrites the destination with the old lines of the hunks only, instead of the whole old text. -/
theorem C83_early_save_defect {e : Env} {s : MLState} {r : ProcessResult} {i : Info} {p : ParseResult} {x : DModel} {xs : List DModel} (hs : Reachable s)
    (hi : s.info = some i) (hmode : i.mode = .ComparingFiles) (hr : r.finishedNormally = true)
    (hp : parse e.win e.cmp s.heap (split r.stdout) = Res.ok p) (hx : p.models = some (x :: xs)) (n : Nat) :
    ∃ s', s.slotDiffProcessFinishedR (saveAtStatusBar.react (n + 1)) e r = Res.ok s' ∧
      .upload i.destination ((x.hunks.map (Hunk.view p.heap)).flatMap HView.old).flatten ∈ s'.log := by
  have w0 : WF (s.emit (.status .Parsing)) := hs.wf.keep (keep_emit _ _)
  obtain ⟨t, u, ht, hu, hmem⟩ := early_save (e := e) (s := s.emit (.status .Parsing)) (text := r.stdout) w0 hi (by rw [hmode]; decide) hp hx n
  obtain ⟨w1, _, _, _, _, _, _, ho⟩ := parseDiffOutput_spec w0 ht
  obtain ⟨_, m, d, _, hop, hat, _⟩ := ho rfl
  rw [finishedR_patient (react_patient (OnlyAtStatusBar.waits saveAtStatusBar_only) (n + 1)) hr ht]
  obtain ⟨s', g, hl⟩ := finishedRest_log (e := e) saveAtStatusBar_only (n + 1) hop w1 ⟨0, 0, m, d, hat⟩ hu (saveAtStatusBar_ok t)
  exact ⟨s', g, hl.subset hmem⟩

/-! ### The hypotheses are met -/

theorem settled_parse (h : Heap) : ∃ p x y, parse exampleDir.win exampleDir.cmp h (split exampleDiff.render.flatten) = Res.ok p ∧ p.models = some [x, y] := by
  obtain ⟨p, hp, _, hr⟩ := C26_unified exampleDiff exampleDiff_ok (by simp [exampleDiff]) exampleDir.win exampleDir.cmp h
  cases hms : p.models with
  | none =>
    rw [hms] at hr
    have := hr _ (List.mem_cons_self ..)
    exact absurd this (by decide)
  | some xs =>
    rw [hms] at hr
    simp only at hr
    obtain ⟨fs, hfs, hmap⟩ := perm_of_map hr.2 rfl
    have hlen : xs.length = 2 := by
      have : xs.length = fs.length := by simpa using congrArg List.length hmap
      rw [this, hfs.length_eq]; decide
    match xs, hlen with
    | [x, y], _ => exact ⟨p, x, y, hp, hms⟩

theorem settled_contents : exampleDir.contents (str "p.diff") = exampleDiff.render.flatten := by
  simp [exampleDir]

theorem settled_opens : ∃ s1 ms, settledCompare.openAndDiff exampleDir = Res.ok (s1, true) ∧ s1.models = some ms ∧ ms.length = 2 := by
  obtain ⟨p, x, y, hp, hx⟩ := settled_parse settledCompare.heap
  obtain ⟨s1, h1, h2, _⟩ := C57_patch (e := exampleDir) settledCompare_reachable rfl (by rw [settled_contents]; exact hp) hx (.inl (by decide))
  exact ⟨s1, _, h1, h2, rfl⟩

/-- A patch of two files of a directory; the receivers mark everything before the files are complete, and move on. -/
example : ∃ s' ms k j m d, settledCompare.openAndDiffR (keen.react 10000) exampleDir = Res.ok (s', true) ∧ SelectionValid s' ms k j m d ∧ ms.length = 2 := by
  obtain ⟨s1, ms, h1, h2, h3⟩ := settled_opens
  obtain ⟨x, hx⟩ := C84_ends settledCompare_reachable rfl h1 (by rw [h2]; simp) keen_waits (keen_ok _) keen_stops (Nat.le_refl _)
  rcases C84_safe settledCompare_reachable rfl h1 (by rw [h2]; simp) keen_waits (keen_ok _) 10000 with g | ⟨s', ms', k, j, m, d, g, a, _, c, _⟩
  · rw [hx] at g; cases g
  · refine ⟨s', ms', k, j, m, d, g, a, ?_⟩
    have := a.models
    rw [c, h2] at this
    cases this
    exact h3

/-- The receiver that marks and saves at once only answers the number of differences; its marks are undone. -/
example : ∃ s', settledCompare.openAndDiffR (saveAtStatusBar.react 1) exampleDir = Res.hang ∨
    (settledCompare.openAndDiffR (saveAtStatusBar.react 1) exampleDir = Res.ok (s', true) ∧ ∀ d ∈ (s'.store settledCompare.nextModel).differences, (s'.heap.cell d).applied = false) := by
  obtain ⟨s1, ms, h1, h2, h3⟩ := settled_opens
  obtain ⟨p, x, y, hp, hx⟩ := settled_parse settledCompare.heap
  rcases C84_saved (e := exampleDir) settledCompare_reachable rfl (by rw [settled_contents]; exact hp) hx (.inl (by decide)) h1
    (OnlyAtStatusBar.waits saveAtStatusBar_only) (saveAtStatusBar_ok _) 1 with g | ⟨s', g, _, q⟩
  · exact ⟨settledCompare, .inl g⟩
  · exact ⟨s', .inr ⟨g, (q 0 x rfl).2.2 saveAtStatusBar_only⟩⟩

/-- Comparing two files; a receiver saves too early. -/
example : ∃ (s : MLState) (s' : MLState) (text : Str), s.slotDiffProcessFinishedR (saveAtStatusBar.react 1) exampleDir settledOutput = Res.ok s' ∧
    .upload (str "file:/new") text ∈ s'.log := by
  let s : MLState := (MLState.init (some {}) true ⟨fun _ => Diff.new 0 0 .Unchanged, 0⟩).setInfo
    (some { mode := .ComparingFiles, localSource := str "old", localDestination := str "new", destination := str "file:/new" })
  have hr : Reachable s := ⟨some {}, true, ⟨fun _ => Diff.new 0 0 .Unchanged, 0⟩, [.setInfo _], rfl⟩
  obtain ⟨p, x, y, hp, hx⟩ := settled_parse s.heap
  obtain ⟨s', g, q⟩ := C83_early_save_defect (e := exampleDir) (r := settledOutput) hr rfl rfl rfl hp hx 0
  exact ⟨s, s', _, g, q⟩

/-- No diff. -/
example : settledCompare.openAndDiffR (nextIfNoDiff.react 1) { exampleDir with contents := fun _ => str "hello\n" } = Res.ub := by
  have hp : ∃ p, parse exampleDir.win exampleDir.cmp settledCompare.heap (split (str "hello\n")) = Res.ok p ∧ p.models = none := by
    refine ⟨_, rfl, ?_⟩
    decide +kernel
  obtain ⟨p, h1, h2⟩ := hp
  exact C84_failed_defect settledCompare_reachable rfl h1 h2 0

/-- No diff, and receivers that ignore errors. -/
example : ∃ s1, settledCompare.openAndDiff { exampleDir with contents := fun _ => str "hello\n" } = Res.ok (s1, false) ∧ s1.models = none ∧ SilentOnErrors keen ∧ keen.Waits := by
  obtain ⟨p, h1, h2⟩ : ∃ p, parse exampleDir.win exampleDir.cmp settledCompare.heap (split (str "hello\n")) = Res.ok p ∧ p.models = none := by
    refine ⟨_, rfl, ?_⟩
    decide +kernel
  have w0 : WF settledCompare.clear := settledCompare_reachable.wf.keep (keep_clear _)
  obtain ⟨t, ht⟩ := parseDiffOutput_total (e := { exampleDir with contents := fun _ => str "hello\n" }) (s := settledCompare.clear) w0
    (by simp [settledCompare, MLState.setInfo, MLState.clear, MLState.emit]) h1
  rw [h2] at ht
  obtain ⟨_, _, _, _, _, _, hb, _⟩ := parseDiffOutput_spec w0 ht
  refine ⟨t.emit (.error .notADiff), ?_, (hb rfl).2.1, ?_, keen_waits⟩
  · rw [← patchR_plain _ settledCompare_reachable rfl, patchR_failed (fun _ _ _ => rfl) rfl ht]
    rfl
  · intro log k
    unfold keen
    split
    · rw [List.getLast?_append]; rfl
    · rfl

end KompareDiff2
