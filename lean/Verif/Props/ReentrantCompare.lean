import Verif.Spec.ReentrantCompare
import Verif.Props.Reentrant
import Verif.Props.Overlay
import Verif.Props.Sitting
/-
Property theorem C83: receivers that call back while a comparison ends.
-/
namespace KompareDiff2
open Spec

/-- Blending at the end of a comparison. -/
def blendStep (e : Env) (s : MLState) : Res MLState :=
  match s.info with
  | none => Res.ub
  | some i =>
    if i.mode ≠ .ShowingDiff then do
      let b ← s.blendOriginal e i.localSource
      Res.ok b.1
    else Res.ok s

/-- What follows when something was read. -/
def finishedRest (call : MLState → Res MLState) (e : Env) (t : MLState) : Res MLState := do
  let u ← call t
  let u ← blendStep e u
  let u ← u.updateActions
  let u ← u.showR call
  let u ← call (u.emit (.status .FinishedParsing))
  Res.ok { u with process := none }

theorem finishedR_patient {call : MLState → Res MLState} (hp : Patient call) {e : Env} {s t : MLState} {r : ProcessResult} (hr : r.finishedNormally = true)
    (ht : (s.emit (.status .Parsing)).parseDiffOutput e r.stdout = Res.ok (t, true)) :
    s.slotDiffProcessFinishedR call e r = finishedRest call e t := by
  unfold MLState.slotDiffProcessFinishedR finishedRest
  rw [if_pos hr, hp _ _ rfl, Res.bind_ok, parseDiffOutputR_patient hp, ht, Res.bind_ok]
  dsimp only
  rw [if_pos rfl]
  cases call t <;> try rfl
  rename_i u
  simp only [Res.bind_ok]
  rw [if_neg (by simp)]
  unfold blendStep
  cases u.info <;> try rfl
  rename_i i
  dsimp only
  split
  · cases u.blendOriginal e i.localSource <;> rfl
  · simp only [Res.bind_ok]

theorem finishedR_plain (e : Env) (s : MLState) (r : ProcessResult) : s.slotDiffProcessFinishedR Res.ok e r = s.slotDiffProcessFinished e r := by
  unfold MLState.slotDiffProcessFinishedR MLState.slotDiffProcessFinished
  have hp : Patient Res.ok := fun _ _ _ => rfl
  by_cases hr : r.finishedNormally = true
  · rw [if_pos hr, if_pos hr]
    simp only [Res.bind_ok]
    rw [parseDiffOutputR_patient hp]
    cases (s.emit (.status .Parsing)).parseDiffOutput e r.stdout <;> try rfl
    rename_i p
    obtain ⟨t, b⟩ := p
    cases b <;> rfl
  · rw [if_neg hr, if_neg hr]

theorem WF.frame {s s' : MLState} (w : WF s) (f : Frame s s') : WF s' := by
  refine ⟨?_, ?_, ?_, ?_, ?_⟩
  · rw [f.dead, f.nextModel]; exact w.dead
  · rw [f.models, f.nextModel]; exact w.models
  · rw [f.nextModel, f.heapNext]; intro m hm; rw [f.differences]; exact w.diffs m hm
  · rw [f.deadDiffs, f.heapNext]; exact w.deadDiffs
  · rw [f.nextModel, f.heapNext]; intro m hm; unfold DModel.hunkIds; rw [f.hunks]; exact w.hunks m hm

theorem blendStep_ok (e : Env) {s : MLState} {ms : List Nat} (h : Opened s ms) (w : WF s) (hs : Selected s ms) :
    ∃ s', blendStep e s = Res.ok s' ∧ Opened s' ms ∧ Keep s s' ∧ Selected s' ms ∧ Quiet s s' := by
  unfold blendStep
  obtain ⟨i, hi⟩ := Option.ne_none_iff_exists'.1 h.info
  rw [hi]
  dsimp only
  split
  · obtain ⟨s', b, h1, h2, _, h4, h5, _⟩ := blendOriginal_ok e h w i.localSource hs
    have q := quiet_blendOriginal h1
    rw [h1]
    exact ⟨s', rfl, h2, h4, h5, q⟩
  · exact ⟨s, rfl, h, .refl s, hs, .refl s⟩

theorem ok_same {s s' : MLState} (h1 : s'.models = s.models) (h2 : s'.deadDiffs = s.deadDiffs) {op : UserOp} (h : op.Ok s) : op.Ok s' := by
  cases op <;> simp only [UserOp.Ok, h1, h2] at h ⊢ <;> exact h

/-- The way from the end of the process to the end of the slot. -/
theorem finishedRest_fine {e : Env} {t : MLState} {ms : List Nat} {f : Receivers} (o : Opened t ms) (w : WF t) (sel : Selected t ms)
    (hf : ∀ log, ∀ op ∈ f log, op.Ok t) (n : Nat) :
    finishedRest (f.react n) e t = Res.hang ∨ ∃ u v s', finishedRest (f.react n) e t = Res.ok s' ∧ Midway ms t u ∧ blendStep e u = Res.ok v ∧ Opened v ms ∧ Keep u v ∧
      Selected v ms ∧ Midway ms v s' ∧ NavigationRight s' ∧ s'.process = none := by
  unfold finishedRest
  rcases react_fine hf n t ⟨o, sel, .refl t⟩ with g | ⟨u, g, hu⟩
  · left; rw [g]; rfl
  · rw [g]
    simp only [Res.bind_ok]
    obtain ⟨v, b1, b2, b3, b4, b5⟩ := blendStep_ok e hu.opened (w.frame hu.frame) hu.atIt
    rw [b1]
    simp only [Res.bind_ok]
    have hf' : ∀ log, ∀ op ∈ f log, op.Ok v := fun log op ho => ok_same (by rw [b2.models, o.models]) (by rw [b3.deadDiffs, hu.frame.deadDiffs]) (hf log op ho)
    have hv : Midway ms v v := ⟨b2, b4, .refl v⟩
    rcases hv.update with g' | ⟨x, g', hx, hr⟩
    · left; rw [g']; rfl
    · rw [g']
      simp only [Res.bind_ok]
      have key : Fine ms v (x.showR (f.react n)) := by
        unfold MLState.showR
        exact (react_fine hf' n _ (hx.emit _)).bind (fun w hw => react_fine hf' n _ (hw.emit _))
      rcases key with g'' | ⟨y, g'', hy⟩
      · left; rw [g'']; rfl
      · rw [g'']
        simp only [Res.bind_ok]
        obtain ⟨_, k⟩ := showR_navs (react_fine hf' n) (react_navs hf' n) hx g''
        rcases react_fine hf' n _ (hy.emit (.status .FinishedParsing)) with g3 | ⟨z, g3, hz⟩
        · left; rw [g3]; rfl
        · right
          rw [g3]
          have nr : NavigationRight z := ((k.trans (navs_emit _ _)).trans (react_navs hf' n _ _ (hy.emit _) g3)) hr.1
          refine ⟨u, v, _, rfl, hu, b1, b2, b3, b4, ⟨hz.opened, hz.atIt, ?_⟩, ?_, rfl⟩
          · exact ⟨hz.frame.models, hz.frame.dead, hz.frame.deadDiffs, hz.frame.canSave, hz.frame.info, hz.frame.settings, hz.frame.nextModel, hz.frame.heapNext,
              hz.frame.differences, hz.frame.hunks, hz.frame.cells, hz.frame.head⟩
          · exact ⟨nr.nextFile, nr.previousFile, nr.nextDifference, nr.previousDifference⟩

/-- What the plain slot does when something was read. -/
theorem finished_opened {e : Env} {s s1 : MLState} {r : ProcessResult} (hs : Reachable s) (hi : s.info ≠ none) (hr : r.finishedNormally = true)
    (h : s.slotDiffProcessFinished e r = Res.ok s1) (hm : s1.models ≠ none) :
    ∃ t ms, (s.emit (.status .Parsing)).parseDiffOutput e r.stdout = Res.ok (t, true) ∧ Opened t ms ∧ WF t ∧ Selected t ms ∧ s1.models = some ms ∧
      s1.deadDiffs = t.deadDiffs ∧ ∀ m, (s1.store m).differences = (t.store m).differences := by
  have w0 : WF (s.emit (.status .Parsing)) := hs.wf.keep (keep_emit _ _)
  obtain ⟨t, b, ht⟩ : ∃ t b, (s.emit (.status .Parsing)).parseDiffOutput e r.stdout = Res.ok (t, b) := by
    have h' := h
    unfold MLState.slotDiffProcessFinished at h'
    rw [if_pos hr] at h'
    dsimp only at h'
    cases q : (s.emit (.status .Parsing)).parseDiffOutput e r.stdout with
    | ok x => exact ⟨x.1, x.2, rfl⟩
    | ub => rw [q] at h'; cases h'
    | hang => rw [q] at h'; cases h'
  obtain ⟨w1, _, _, r', _, _, hbf, ho⟩ := parseDiffOutput_spec w0 ht
  cases b with
  | false =>
    exfalso
    unfold MLState.slotDiffProcessFinished at h
    rw [if_pos hr] at h
    dsimp only at h
    rw [ht] at h
    cases h
    exact hm (hbf rfl).2.1
  | true =>
    obtain ⟨xs, m, d, _, hop, hat, _⟩ := ho rfl
    rw [← finishedR_plain, finishedR_patient (fun _ _ _ => rfl) hr ht] at h
    unfold finishedRest at h
    simp only [Res.bind_ok] at h
    obtain ⟨v, b1, b2, b3, ⟨k, j, m', d', b4⟩, b5⟩ := blendStep_ok e hop w1 ⟨0, 0, m, d, hat⟩
    obtain ⟨ac, hu, _⟩ := updateActions_ok b2 b4
    rw [b1, Res.bind_ok, hu, Res.bind_ok] at h
    cases h
    exact ⟨t, _, ht, hop, w1, ⟨0, 0, m, d, hat⟩, b2.models, b3.deadDiffs, b3.differences⟩

/-- **C83.** The end of a comparison, with receivers that wait for something to select and may then call any slots while the status bar, the files, the
selection and the end of parsing are signalled, to any depth: no undefined behaviour; unless they go on for ever, in the end the same files and
differences are there, one of them is selected, the navigation actions are right, and no process is left. -/
theorem C83_safe {e : Env} {s s1 : MLState} {r : ProcessResult} {f : Receivers} (hs : Reachable s) (hi : s.info ≠ none) (hr : r.finishedNormally = true)
    (h : s.slotDiffProcessFinished e r = Res.ok s1) (hm : s1.models ≠ none) (hw : f.Waits) (hf : ∀ log, ∀ op ∈ f log, op.Ok s1) (n : Nat) :
    s.slotDiffProcessFinishedR (f.react n) e r = Res.hang ∨ ∃ s' ms k j m d, s.slotDiffProcessFinishedR (f.react n) e r = Res.ok s' ∧
      SelectionValid s' ms k j m d ∧ NavigationRight s' ∧ s'.models = s1.models ∧ s'.process = none ∧
      ∀ m, (s'.store m).differences = (s1.store m).differences := by
  obtain ⟨t, ms, ht, o, w, sel, q1, q2, q3⟩ := finished_opened hs hi hr h hm
  rw [finishedR_patient (react_patient hw n) hr ht]
  rcases finishedRest_fine (e := e) o w sel (fun log op ho => ok_same (by rw [o.models, q1]) q2.symm (hf log op ho)) n with g | ⟨u, v, s', g, hu, _, b2, b3, _, hz, nr, pn⟩
  · exact .inl g
  · right
    obtain ⟨k, j, m, d, a⟩ := hz.atIt
    refine ⟨s', ms, k, j, m, d, g, a.valid hz.opened, nr, by rw [hz.opened.models, q1], pn, fun m => ?_⟩
    rw [hz.frame.differences, b3.differences, hu.frame.differences, q3]

/-- A file with the hunks `ks` of the diff, whole, whose original is `S`, and what may have happened to it since. -/
structure WholeSince (s' : MLState) (ms : List Nat) (m : Nat) (src : Str) (ks : List (Hunk Nat)) (vs : List HView) (S : Str) : Prop where
  source : (s'.store m).source = src
  overlaid : Overlaid s'.heap (s'.store m) ks S
  views : (ks.map (Hunk.view s'.heap)).map HView.unmarked = vs.map HView.unmarked

theorem WholeSince.saves {v s' : MLState} {ms : List Nat} {m : Nat} {src : Str} {ks : List (Hunk Nat)} {vs : List HView} {S : Str} (h : WholeSince v ms m src ks vs S)
    (hz : Midway ms v s') (hm : m ∈ ms) : (s'.store m).source = src ∧ SavesOverlay s' m vs S := by
  have hsrc : (s'.store m).source = (v.store m).source := by
    have := hz.frame.head m
    unfold DModel.head at this
    simp only [Prod.mk.injEq] at this
    exact this.1
  refine ⟨by rw [hsrc, h.source], ?_⟩
  have hrd' : Overlaid s'.heap (s'.store m) ks S :=
    h.overlaid.frame (hz.frame.hunks _) (hz.frame.differences _) hz.frame.cells (Nat.le_of_eq hz.frame.heapNext.symm)
  refine SavesOverlay.congr (overlaid_saves hz.opened hz.atIt hm hrd') ?_
  rw [← h.views]
  simp only [List.map_map]
  exact List.map_congr_left (fun k _ => unmarked_same hz.frame.cells k)

/-- The end of a comparison with receivers: all files are whole, and only user actions happen to them then. -/
theorem finished_whole {e : Env} {s s1 : MLState} {r : ProcessResult} {i : Info} {p : ParseResult} {xs : List DModel} {f : Receivers} (hs : Reachable s)
    (hi : s.info = some i) (hmode : i.mode ≠ .ShowingDiff) (hr : r.finishedNormally = true)
    (hp : parse e.win e.cmp s.heap (split r.stdout) = Res.ok p) (hx : p.models = some xs)
    (hu : e.isDir i.localSource = true ∨ (e.isDir i.localSource = false ∧ e.isFile i.localSource = true ∧ xs.length = 1))
    (h : s.slotDiffProcessFinished e r = Res.ok s1) (hw : f.Waits) (hf : ∀ log, ∀ op ∈ f log, op.Ok s1) (n : Nat) :
    s.slotDiffProcessFinishedR (f.react n) e r = Res.hang ∨ ∃ v s', s.slotDiffProcessFinishedR (f.react n) e r = Res.ok s' ∧
      Midway (List.range' s.nextModel xs.length) v s' ∧ NavigationRight s' ∧ s'.process = none ∧ (∀ op, UserOp.Ok s1 op → UserOp.Ok v op) ∧
      ∀ (k : Nat) (x : DModel), xs[k]? = some x →
        WholeSince v (List.range' s.nextModel xs.length) (s.nextModel + k) x.source x.hunks (x.hunks.map (Hunk.view p.heap)) (original e i.localSource x.source) := by
  have w0 : WF (s.emit (.status .Parsing)) := hs.wf.keep (keep_emit _ _)
  obtain ⟨t, ht, o, sel, w, hheap, hinfo, hst⟩ := opens_raw (e := e) (s := s.emit (.status .Parsing)) (text := r.stdout) w0
    (by show s.info ≠ none; rw [hi]; simp) hp hx
  have hn : (s.emit (.status .Parsing)).nextModel = s.nextModel := rfl
  rw [hn] at o sel hst
  obtain ⟨i1, hi1, hso⟩ := hinfo i hi
  obtain ⟨f1, _, f3, _⟩ := hso.fields
  obtain ⟨c, _, c1, _⟩ := C57_compare hs hi hmode hr hp hx hu
  have hm : s1.models ≠ none := by
    obtain ⟨s1', g1, g2, _⟩ := C57_compare hs hi hmode hr hp hx hu
    rw [h] at g1; cases g1; rw [g2]; simp
  obtain ⟨t', ms, ht', o', _, _, q1, q2, _⟩ := finished_opened hs (by rw [hi]; simp) hr h hm
  have et : t' = t := by rw [ht] at ht'; cases ht'; rfl
  subst et
  have ems : ms = List.range' s.nextModel xs.length := by
    have := o'.models; rw [o.models] at this; cases this; rfl
  subst ems
  rw [finishedR_patient (react_patient hw n) hr ht]
  rcases finishedRest_fine (e := e) o w sel (fun log op ho => ok_same (by rw [o.models, q1]) q2.symm (hf log op ho)) n with g | ⟨u, v, s', g, hu1, b1, b2, b3, b4, hz, nr, pn⟩
  · exact .inl g
  right
  refine ⟨v, s', g, hz, nr, pn, fun op ho => ok_same (by rw [b2.models, q1]) (by rw [b3.deadDiffs, hu1.frame.deadDiffs, q2]) ho, fun k x hk => ?_⟩
  have hmem : s.nextModel + k ∈ List.range' s.nextModel xs.length := by
    have := (List.getElem?_eq_some_iff.1 hk).1
    rw [List.mem_range'_1]; omega
  have hraw : ∀ m ∈ List.range' s.nextModel xs.length, Raw u.heap (u.store m) := by
    intro m hm
    obtain ⟨k, x, rfl, hk⟩ := mem_range_model hm
    exact (hst k x hk).2.2.2.frame (hu1.frame.hunks _) (hu1.frame.differences _) hu1.frame.cells (Nat.le_of_eq hu1.frame.heapNext.symm)
  obtain ⟨v', h2, o2, w2, k2, sel2, e2, so2, rd2⟩ := blendOriginal_overlaid e hu1.opened (w.frame hu1.frame) hu1.atIt i.localSource
    (by
      rcases hu with hu | ⟨hu1, hu2, hu3⟩
      · exact .inl hu
      · exact .inr ⟨hu1, hu2, by rw [List.length_range', hu3]⟩) hraw
  have ev : v' = v := by
    have hi' : u.info = some i1 := hu1.frame.info.trans hi1
    unfold blendStep at b1
    rw [hi'] at b1
    dsimp only at b1
    rw [if_pos (by rw [f1]; exact hmode), f3, h2] at b1
    cases b1; rfl
  subst ev
  obtain ⟨q1, q2, _, q4⟩ := hst k x hk
  have hsrc : ∀ m, (u.store m).source = (t'.store m).source := by
    intro m
    have := hu1.frame.head m
    unfold DModel.head at this
    simp only [Prod.mk.injEq] at this
    exact this.1
  have hrd := rd2 _ hmem
  rw [hsrc, q1, hu1.frame.hunks, q2] at hrd
  refine ⟨by rw [so2, hsrc, q1], hrd, ?_⟩
  have hal : ∀ k' ∈ x.hunks, ∀ i' ∈ k'.diffs, i' < u.heap.next := by
    intro k' hk' i' hi'
    rw [hu1.frame.heapNext]
    exact q4.alloc i' (List.mem_flatMap.2 ⟨k', by rw [q2]; exact hk', hi'⟩)
  have e3 : x.hunks.map (Hunk.view v'.heap) = x.hunks.map (Hunk.view u.heap) := hunks_view_ext e2 hal
  have e4 : ∀ {a b : Heap}, (∀ j, Diff.Same (a.cell j) (b.cell j)) → (x.hunks.map (Hunk.view b)).map HView.unmarked = (x.hunks.map (Hunk.view a)).map HView.unmarked := by
    intro a b hab
    simp only [List.map_map]
    exact List.map_congr_left (fun k _ => unmarked_same hab k)
  rw [e3, e4 hu1.frame.cells, hheap]

theorem mem_range_of {α : Type} {n k : Nat} {xs : List α} {x : α} (hk : xs[k]? = some x) : n + k ∈ List.range' n xs.length := by
  have := (List.getElem?_eq_some_iff.1 hk).1
  rw [List.mem_range'_1]; omega

/-- **C83.** Whatever those receivers do in between, marking or saving included, afterwards every file is shown whole: whatever the user does then, saving it
writes the original with the hunks that were read laid over it, each difference with its old lines if it is marked, else with its new ones. -/
theorem C83_saved {e : Env} {s s1 : MLState} {r : ProcessResult} {i : Info} {p : ParseResult} {xs : List DModel} {f : Receivers} (hs : Reachable s)
    (hi : s.info = some i) (hmode : i.mode ≠ .ShowingDiff) (hr : r.finishedNormally = true)
    (hp : parse e.win e.cmp s.heap (split r.stdout) = Res.ok p) (hx : p.models = some xs)
    (hu : e.isDir i.localSource = true ∨ (e.isDir i.localSource = false ∧ e.isFile i.localSource = true ∧ xs.length = 1))
    (h : s.slotDiffProcessFinished e r = Res.ok s1) (hw : f.Waits) (hf : ∀ log, ∀ op ∈ f log, op.Ok s1) (n : Nat) :
    s.slotDiffProcessFinishedR (f.react n) e r = Res.hang ∨ ∃ s', s.slotDiffProcessFinishedR (f.react n) e r = Res.ok s' ∧
      s'.models = some (List.range' s.nextModel xs.length) ∧
      ∀ (k : Nat) (x : DModel), xs[k]? = some x → (s'.store (s.nextModel + k)).source = x.source ∧
        SavesOverlay s' (s.nextModel + k) (x.hunks.map (Hunk.view p.heap)) (original e i.localSource x.source) := by
  rcases finished_whole hs hi hmode hr hp hx hu h hw hf n with g | ⟨v, s', g, hz, _, _, _, q⟩
  · exact .inl g
  · exact .inr ⟨s', g, hz.opened.models, fun k x hk => (q k x hk).saves hz (mem_range_of hk)⟩

/-- **C83.** The receivers stay connected: whatever the user does afterwards while they call back in the same way, there is no undefined behaviour, and unless
it goes on for ever one of the differences is selected, the navigation actions are right, and from then on too saving any file writes the original with the
hunks laid over it. -/
theorem C83_session {e : Env} {s s1 : MLState} {r : ProcessResult} {i : Info} {p : ParseResult} {xs : List DModel} {f : Receivers} (hs : Reachable s)
    (hi : s.info = some i) (hmode : i.mode ≠ .ShowingDiff) (hr : r.finishedNormally = true)
    (hp : parse e.win e.cmp s.heap (split r.stdout) = Res.ok p) (hx : p.models = some xs)
    (hu : e.isDir i.localSource = true ∨ (e.isDir i.localSource = false ∧ e.isFile i.localSource = true ∧ xs.length = 1))
    (h : s.slotDiffProcessFinished e r = Res.ok s1) (hw : f.Waits) (hf : ∀ log, ∀ op ∈ f log, op.Ok s1) (n : Nat) {ops : List UserOp} (hops : ∀ op ∈ ops, op.Ok s1) :
    (s.slotDiffProcessFinishedR (f.react n) e r >>= runUserR f n ops) = Res.hang ∨
    ∃ s' ms k j m d, (s.slotDiffProcessFinishedR (f.react n) e r >>= runUserR f n ops) = Res.ok s' ∧ SelectionValid s' ms k j m d ∧ NavigationRight s' ∧
      s'.models = some (List.range' s.nextModel xs.length) ∧
      ∀ (k : Nat) (x : DModel), xs[k]? = some x → (s'.store (s.nextModel + k)).source = x.source ∧
        SavesOverlay s' (s.nextModel + k) (x.hunks.map (Hunk.view p.heap)) (original e i.localSource x.source) := by
  rcases finished_whole hs hi hmode hr hp hx hu h hw hf n with g | ⟨v, s', g, hz, nr, _, hok, q⟩
  · left; rw [g]; rfl
  · rw [g, Res.bind_ok]
    have hf' : ∀ log, ∀ op ∈ f log, op.Ok v := fun log op ho => hok op (hf log op ho)
    have hops' : ∀ op ∈ ops, op.Ok v := fun op ho => hok op (hops op ho)
    rcases callsR_fine (ms := List.range' s.nextModel xs.length) (s0 := v) ops (fun op ho t ht => (runR_fine (react_fine hf' n) ht op (hops' op ho)).1) s' hz with g' | ⟨s2, g', hm'⟩
    · exact .inl g'
    · obtain ⟨k, j, m, d, a⟩ := hm'.atIt
      exact .inr ⟨s2, _, k, j, m, d, g', a.valid hm'.opened, callsR_navs (react_fine hf' n) (react_navs hf' n) ops hops' s' s2 hz g' nr, hm'.opened.models,
        fun k x hk => (q k x hk).saves hm' (mem_range_of hk)⟩

/-- **C83.** If the diff program did not report differences, receivers that ignore errors make no difference. -/
theorem C83_errors {e : Env} {s : MLState} {r : ProcessResult} {f : Receivers} (hr : r.finishedNormally = false) (hf : SilentOnErrors f) (n : Nat) :
    s.slotDiffProcessFinishedR (f.react n) e r = s.slotDiffProcessFinished e r := by
  have key : ∀ k, f.react n (s.emit (.error k)) = Res.ok (s.emit (.error k)) := by
    intro k
    have : f (s.emit (.error k)).log = [] := hf s.log k
    cases n with
    | zero => unfold Receivers.react; rw [if_pos this]
    | succ n => unfold Receivers.react; rw [this]; rfl
  unfold MLState.slotDiffProcessFinishedR MLState.slotDiffProcessFinished
  simp only [hr, Bool.false_eq_true, if_false, key]

/-- **C83.** It ends if the receivers stop calling: if they call nothing any more once `k` signals were sent, `k` levels are enough. -/
theorem C83_ends {e : Env} {s s1 : MLState} {r : ProcessResult} {f : Receivers} {k : Nat} (hs : Reachable s) (hi : s.info ≠ none) (hr : r.finishedNormally = true)
    (h : s.slotDiffProcessFinished e r = Res.ok s1) (hm : s1.models ≠ none) (hw : f.Waits) (hf : ∀ log, ∀ op ∈ f log, op.Ok s1) (hk : f.StopsAfter k) {n : Nat}
    (hn : k ≤ n) : ∃ s', s.slotDiffProcessFinishedR (f.react n) e r = Res.ok s' := by
  obtain ⟨t, ms, ht, o, w, sel, q1, q2, q3⟩ := finished_opened hs hi hr h hm
  rw [finishedR_patient (react_patient hw n) hr ht]
  have hf0 : ∀ log, ∀ op ∈ f log, op.Ok t := fun log op ho => ok_same (by rw [o.models, q1]) q2.symm (hf log op ho)
  have ends : ∀ {b x : MLState}, (∀ log, ∀ op ∈ f log, op.Ok b) → Midway ms b x → ∃ y, f.react n x = Res.ok y ∧ Midway ms b y := by
    intro b x hb hx
    obtain ⟨y, e1, e2, _⟩ := react_ends hb hk n x hx (by omega)
    exact ⟨y, e1, e2⟩
  unfold finishedRest
  obtain ⟨u, g, hu⟩ := ends hf0 ⟨o, sel, .refl t⟩
  obtain ⟨v, b1, b2, b3, b4, b5⟩ := blendStep_ok e hu.opened (w.frame hu.frame) hu.atIt
  have hf' : ∀ log, ∀ op ∈ f log, op.Ok v := fun log op ho => ok_same (by rw [b2.models, o.models]) (by rw [b3.deadDiffs, hu.frame.deadDiffs]) (hf0 log op ho)
  have hv : Midway ms v v := ⟨b2, b4, .refl v⟩
  obtain ⟨k0, j0, m0, d0, a⟩ := b4
  obtain ⟨ac, hac, _⟩ := updateActions_ok b2 a
  obtain ⟨y, e1, hy⟩ := ends hf' ((hv.actions ac).emit (.modelsChanged v.models))
  obtain ⟨z, e2, hz⟩ := ends hf' (hy.emit (.selection y.selectedModel y.selectedDifference))
  obtain ⟨x, e3, hx⟩ := ends hf' (hz.emit (.status .FinishedParsing))
  refine ⟨{ x with process := none }, ?_⟩
  rw [g]
  simp only [Res.bind_ok]
  rw [b1]
  simp only [Res.bind_ok]
  rw [hac]
  simp only [Res.bind_ok, MLState.showR]
  rw [show (f.react n (MLState.emit { v with actions := ac } (Event.modelsChanged v.models))) = Res.ok y from e1]
  simp only [Res.bind_ok]
  rw [e2]
  simp only [Res.bind_ok]
  rw [e3]
  rfl

/-! ### Defects -/

theorem nextFile_none {s : MLState} (h : s.models = none) : s.nextModelPre = Res.ub := by
  unfold MLState.nextModelPre MLState.nextModel_ MLState.list
  rw [h]
  rfl

theorem nextFile_empty {s : MLState} (h : s.models = some []) (hi : 0 ≤ s.modelIndex) : s.nextModelPre = Res.ub := by
  have hx : s.list = Res.ok [] := by unfold MLState.list; rw [h]
  unfold MLState.nextModelPre MLState.nextModel_
  rw [hx, Res.bind_ok, if_neg (by simp; omega), Res.bind_ok, if_neg (by simp)]
  unfold MLState.lastModel
  have : MLState.list { s with modelIndex := 0, selectedModel := none } = Res.ok [] := hx
  rw [this]
  rfl

theorem nextAtEnd_waits : nextAtEnd.Waits := by
  intro log e he
  unfold nextAtEnd
  rw [List.getLast?_concat]
  cases e <;> try rfl
  rename_i x
  cases x <;> first | rfl | cases he

/-- Defect: the end of parsing is also signalled when nothing could be read; the list is then gone, and a receiver that goes to the first difference or
the next file at that moment dereferences a null pointer. -/
theorem C83_failed_defect {e : Env} {s : MLState} {r : ProcessResult} {p : ParseResult} (hs : Reachable s) (hi : s.info ≠ none) (hr : r.finishedNormally = true)
    (hp : parse e.win e.cmp s.heap (split r.stdout) = Res.ok p) (hx : p.models = none) (n : Nat) :
    (∃ s1, s.slotDiffProcessFinished e r = Res.ok s1 ∧ [.error .couldNotParse, .status .FinishedParsing] <:+ s1.log ∧ s1.models = none) ∧
    s.slotDiffProcessFinishedR (nextAtEnd.react (n + 1)) e r = Res.ub := by
  have w0 : WF (s.emit (.status .Parsing)) := hs.wf.keep (keep_emit _ _)
  obtain ⟨t, ht⟩ := parseDiffOutput_total (e := e) (s := s.emit (.status .Parsing)) (text := r.stdout) w0 hi hp
  rw [hx] at ht
  obtain ⟨_, _, _, _, _, _, hb, _⟩ := parseDiffOutput_spec w0 ht
  have hmn : t.models = none := (hb rfl).2.1
  constructor
  · unfold MLState.slotDiffProcessFinished
    rw [if_pos hr]
    dsimp only
    rw [ht]
    refine ⟨_, rfl, ⟨t.log, ?_⟩, hmn⟩
    simp [MLState.emit]
  · have hpat := react_patient nextAtEnd_waits (n + 1)
    unfold MLState.slotDiffProcessFinishedR
    rw [if_pos hr, hpat _ _ rfl, Res.bind_ok, parseDiffOutputR_patient hpat, ht, Res.bind_ok]
    dsimp only [Option.isSome]
    rw [if_neg (by simp), Res.bind_ok]
    dsimp only
    rw [if_pos rfl, hpat _ _ rfl, Res.bind_ok]
    have : nextAtEnd ((t.emit (.error .couldNotParse)).emit (.status .FinishedParsing)).log = [.nextFile] := by
      unfold nextAtEnd MLState.emit
      rw [List.getLast?_concat]
    unfold Receivers.react
    rw [this]
    simp only [callsR, UserOp.runR]
    rw [nextFile_none (show ((t.emit (.error .couldNotParse)).emit (.status .FinishedParsing)).models = none from hmn)]
    rfl

/-- Defect: after comparing again the list is empty, but the selection is not reset.  A receiver that goes to the next file when it is told that the
files are identical takes an element out of the empty list. -/
theorem C83_identical_defect {e e' : Env} {s s1 : MLState} {r : ProcessResult} (h : InUse s) (hre : s.refresh e = Res.ok s1) (hx : r.exitStatus = .NormalExit)
    (hc : r.exitCode = 0) (n : Nat) : s1.slotDiffProcessFinishedR (nextIfIdentical.react (n + 1)) e' r = Res.ub := by
  have hr : r.finishedNormally = false := by
    cases q : r.finishedNormally with
    | false => rfl
    | true => exact absurd hc ((C46_success r).1 q).2
  obtain ⟨ms, hm⟩ := h.midway
  obtain ⟨k, j, m, d, a⟩ := hm.atIt
  obtain ⟨hm1, hi1⟩ : s1.models = some [] ∧ s1.modelIndex = s.modelIndex := by
    unfold MLState.refresh at hre
    obtain ⟨i, hi⟩ := Option.ne_none_iff_exists'.1 hm.opened.info
    rw [hi] at hre
    dsimp only at hre
    unfold MLState.compareMode at hre
    dsimp only at hre
    rw [show s.clear.info = some i from hi] at hre
    dsimp only at hre
    obtain ⟨y, h1, h2⟩ := Res.bind_eq_ok.1 hre
    obtain ⟨z, _, h1⟩ := Res.bind_eq_ok.1 h1
    cases h1
    cases h2
    refine ⟨?_, rfl⟩
    show s.models.map _ = _
    rw [hm.opened.models]; rfl
  have : nextIfIdentical (s1.emit (.error .identical)).log = [.nextFile] := by
    unfold nextIfIdentical MLState.emit
    rw [List.getLast?_concat]
  unfold MLState.slotDiffProcessFinishedR
  rw [if_neg (by rw [hr]; simp), if_pos hx]
  unfold Receivers.react
  rw [this]
  simp only [callsR, UserOp.runR]
  rw [nextFile_empty (show (s1.emit (.error .identical)).models = some [] from hm1) (by show 0 ≤ s1.modelIndex; rw [hi1, a.index]; omega)]
  rfl

theorem refreshAtEnd_other (e : Env) (s : MLState) (x : Event) (hx : x ≠ .status .FinishedParsing) : refreshAtEnd e (s.emit x) = Res.ok (s.emit x) := by
  unfold refreshAtEnd MLState.emit
  rw [List.getLast?_concat]
  cases x <;> try rfl
  rename_i y
  cases y <;> first | rfl | exact absurd rfl hx

theorem parse_last {e : Env} {s t : MLState} {text : Str} (h : s.parseDiffOutput e text = Res.ok (t, true)) :
    ∃ u a b c d f, t = MLState.emit u (.statusBar a b c d f) := by
  unfold MLState.parseDiffOutput at h
  dsimp only at h
  obtain ⟨r, _, h⟩ := Res.bind_eq_ok.1 h
  obtain ⟨cl, _, h⟩ := Res.bind_eq_ok.1 h
  split at h
  · cases h
  · split at h
    · cases h
    · obtain ⟨a, _, h⟩ := Res.bind_eq_ok.1 h
      obtain ⟨b, _, h⟩ := Res.bind_eq_ok.1 h
      obtain ⟨c, _, h⟩ := Res.bind_eq_ok.1 h
      cases h
      exact ⟨_, _, _, _, _, _, rfl⟩

/-- Defect: a receiver that compares again when the end of parsing is signalled.  The new comparison is announced, but the process that was started for it
is the one that the slot releases and deletes at its end: the list is empty, "running" was the last status, and no process runs that could end it. -/
theorem C83_refresh_defect {e e' : Env} {s s1 : MLState} {r : ProcessResult} (hs : Reachable s) (hi : s.info ≠ none) (hset : s.settings ≠ none) (hr : r.finishedNormally = true)
    (h : s.slotDiffProcessFinished e r = Res.ok s1) (hm : s1.models ≠ none) :
    ∃ s', s.slotDiffProcessFinishedR (refreshAtEnd e') e r = Res.ok s' ∧ s'.log = s1.log ++ [.modelsChanged (some []), .status .RunningDiff] ∧ s'.models = some [] ∧
      s'.process = none := by
  obtain ⟨t, ms, ht, o, w, sel, q1, q2, q3⟩ := finished_opened hs hi hr h hm
  obtain ⟨u, a1, a2, a3, a4, a5, rfl⟩ := parse_last ht
  have hset1 : s1.settings ≠ none := by rw [(beyond_finished h).settings]; exact hset
  have plain := h
  rw [← finishedR_plain, finishedR_patient (fun _ _ _ => rfl) hr ht] at plain
  rw [finishedR_patient (fun x ev hev => refreshAtEnd_other e' x ev (by rintro rfl; cases hev)) hr ht]
  unfold finishedRest at plain ⊢
  rw [refreshAtEnd_other e' u _ (by simp)]
  simp only [Res.bind_ok] at plain ⊢
  obtain ⟨v, b1, b2, b3, ⟨k, j, m', d', b4⟩, b5⟩ := blendStep_ok e o w sel
  obtain ⟨ac, hu, _⟩ := updateActions_ok b2 b4
  rw [b1, Res.bind_ok, hu, Res.bind_ok] at plain ⊢
  unfold MLState.showR at plain ⊢
  rw [refreshAtEnd_other e' _ _ (by simp), Res.bind_ok, refreshAtEnd_other e' _ _ (by simp), Res.bind_ok]
  simp only [Res.bind_ok] at plain
  obtain ⟨i, hiv⟩ := Option.ne_none_iff_exists'.1 b2.info
  cases plain
  obtain ⟨st, hst⟩ := Option.ne_none_iff_exists'.1 (show v.settings ≠ none from hset1)
  generalize hz : MLState.emit (MLState.emit (MLState.emit { v with actions := ac } (Event.modelsChanged v.models)) (Event.selection v.selectedModel v.selectedDifference))
    (Event.status Status.FinishedParsing) = z
  have z1 : z.log.getLast? = some (.status .FinishedParsing) := by rw [← hz]; simp [MLState.emit]
  have z2 : z.info = some i := by rw [← hz]; exact hiv
  have z3 : z.settings = some st := by rw [← hz]; exact hst
  have z4 : z.models = some ms := by rw [← hz]; exact b2.models
  have hre : ∃ x, z.refreshR Res.ok e' = Res.ok x ∧ x.log = z.log ++ [.modelsChanged (some []), .status .RunningDiff] ∧ x.models = some [] := by
    unfold MLState.refreshR MLState.compareModeR MLState.clearR
    rw [z2]
    simp only [Res.bind_ok]
    rw [show z.clear.info = some i from z2, show z.clear.settings = some st from z3]
    refine ⟨_, rfl, ?_, ?_⟩
    · show z.log ++ [.modelsChanged (z.models.map _)] ++ [.status .RunningDiff] = _
      rw [z4, List.append_assoc]; rfl
    · show z.models.map _ = _
      rw [z4]; rfl
  obtain ⟨x, x1, x2, x3⟩ := hre
  have : refreshAtEnd e' z = Res.ok x := by unfold refreshAtEnd; rw [z1]; exact x1
  refine ⟨{ x with process := none }, ?_, (by show x.log = _; rw [x2, ← hz]; rfl), x3, rfl⟩
  show (refreshAtEnd e' (MLState.emit (MLState.emit (MLState.emit { v with actions := ac } (Event.modelsChanged v.models)) (Event.selection v.selectedModel v.selectedDifference))
    (Event.status Status.FinishedParsing)) >>= _) = _
  rw [hz, this]
  rfl

theorem compareModeR_patient {call : MLState → Res MLState} (hp : Patient call) (e : Env) (s : MLState) (mode : Mode) :
    s.compareModeR call e mode = (s.compareMode e mode >>= fun r => call r.1 >>= fun t => Res.ok (t, true)) := by
  unfold MLState.compareModeR MLState.compareMode
  rw [clearR_patient hp, Res.bind_ok]
  dsimp only
  cases s.clear.info <;> try rfl
  rename_i i
  dsimp only
  cases processArgs (e.relative []) s.clear.settings .Custom mode i.localSource i.localDestination <;> rfl

/-- **C83.** Comparing again with receivers that wait until there is something to select, and do nothing while the start of the diff program is signalled,
is the same as without them. -/
theorem C83_refresh {e : Env} {s : MLState} {f : Receivers} (hw : f.Waits) (hf : SilentAtStart f) (n : Nat) : s.refreshR (f.react n) e = s.refresh e := by
  have key : ∀ x : MLState, f.react n (x.emit (.status .RunningDiff)) = Res.ok (x.emit (.status .RunningDiff)) := by
    intro x
    have : f (x.emit (.status .RunningDiff)).log = [] := hf x.log
    cases n with
    | zero => unfold Receivers.react; rw [if_pos this]
    | succ n => unfold Receivers.react; rw [this]; rfl
  unfold MLState.refreshR MLState.refresh
  cases s.info <;> try rfl
  rename_i i
  dsimp only
  rw [compareModeR_patient (react_patient hw n)]
  unfold MLState.compareMode
  dsimp only
  cases s.clear.info <;> try rfl
  rename_i j
  dsimp only
  cases processArgs (e.relative []) s.clear.settings .Custom i.mode j.localSource j.localDestination <;> try rfl
  rename_i a
  simp only [Res.bind_ok]
  rw [key]
  rfl

/-- Defect: while the start of the diff program is signalled the list is empty, but the old selection is still there.  A receiver that goes to the next
file at that moment takes an element out of the empty list. -/
theorem C83_start_defect {e : Env} {s s1 : MLState} (h : InUse s) (hre : s.refresh e = Res.ok s1) (n : Nat) : s.refreshR (nextAtStart.react (n + 1)) e = Res.ub := by
  have hw : nextAtStart.Waits := by
    intro log x he
    unfold nextAtStart
    rw [List.getLast?_concat]
    cases x with
    | status k => cases k <;> first | rfl | cases he
    | _ => rfl
  obtain ⟨ms, hm⟩ := h.midway
  obtain ⟨k, j, m, d, a⟩ := hm.atIt
  obtain ⟨i, hi⟩ := Option.ne_none_iff_exists'.1 hm.opened.info
  unfold MLState.refresh at hre
  unfold MLState.refreshR
  rw [hi] at hre ⊢
  dsimp only at hre ⊢
  rw [compareModeR_patient (react_patient hw _)]
  unfold MLState.compareMode at hre ⊢
  dsimp only at hre ⊢
  rw [show s.clear.info = some i from hi] at hre ⊢
  dsimp only at hre ⊢
  cases hpa : processArgs (e.relative []) s.clear.settings .Custom i.mode i.localSource i.localDestination with
  | ub => rw [hpa] at hre; cases hre
  | hang => rw [hpa] at hre; cases hre
  | ok q =>
    simp only [Res.bind_ok]
    generalize hx : ({ s.clear with process := some (.compare q.1 q.2), info := some i } : MLState) = x
    have x1 : x.models = some [] := by
      rw [← hx]
      show s.models.map _ = _
      rw [hm.opened.models]; rfl
    have x2 : 0 ≤ x.modelIndex := by
      rw [← hx]
      show 0 ≤ s.modelIndex
      rw [a.index]; omega
    have hl : nextAtStart (x.emit (.status .RunningDiff)).log = [.nextFile] := by
      unfold nextAtStart MLState.emit
      rw [List.getLast?_concat]
    unfold Receivers.react
    rw [hl]
    simp only [callsR, UserOp.runR]
    rw [nextFile_empty (show (x.emit (.status .RunningDiff)).models = some [] from x1) x2]
    rfl

/-! ### The hypotheses are met -/

/-- The state of the example of C48, with settings. -/
def settledCompare : MLState :=
  (MLState.init (some {}) true ⟨fun _ => Diff.new 0 0 .Unchanged, 0⟩).setInfo
    (some { mode := .ComparingDirs, localSource := str "old", localDestination := str "p.diff", applied := false })

theorem settledCompare_reachable : Reachable settledCompare :=
  ⟨some {}, true, ⟨fun _ => Diff.new 0 0 .Unchanged, 0⟩, [.setInfo (some { mode := .ComparingDirs, localSource := str "old", localDestination := str "p.diff", applied := false })], rfl⟩

/-- The answer of the diff program. -/
def settledOutput : ProcessResult := ⟨1, .NormalExit, exampleDiff.render.flatten, []⟩

theorem settled_finished : ∃ s1 ms, settledCompare.slotDiffProcessFinished exampleDir settledOutput = Res.ok s1 ∧ s1.models = some ms ∧ ms.length = 2 := by
  obtain ⟨s1, ms, fs, h1, h2, h3, h4, _⟩ := C48_compare (e := exampleDir) (r := settledOutput)
    settledCompare_reachable rfl (by decide) rfl exampleDiff rfl exampleDiff_ok ⟨_, List.mem_cons_self .., by decide⟩ (.inl (by decide))
    exampleNews example_originals
  exact ⟨s1, ms, h1, h2, by rw [h4, h3.length_eq]; decide⟩

/-- Receivers that, until ten thousand signals were sent, answer the first number of differences by marking everything, and every selection by moving on. -/
def keen : Receivers := fun log => if log.length < 10000 then
    (match log.getLast? with
      | some (.statusBar _ _ _ _ _) => [.applyAllSlot true]
      | some (.selection _ _) => [.nextDifference]
      | some (.status .FinishedParsing) => [.nextFile]
      | _ => [])
  else []

theorem keen_ok (s : MLState) : ∀ log, ∀ op ∈ keen log, op.Ok s := by
  intro log op ho
  unfold keen at ho
  split at ho
  · split at ho
    · simp at ho; rcases ho with rfl; trivial
    · simp at ho; rcases ho with rfl; trivial
    · simp at ho; rcases ho with rfl; trivial
    · cases ho
  · cases ho

theorem keen_waits : keen.Waits := by
  intro log e he
  unfold keen
  rw [List.getLast?_append]
  cases e with
  | status x => cases x <;> first | (cases he; done) | (split <;> rfl)
  | _ => first | (cases he; done) | (split <;> rfl)

theorem keen_stops : keen.StopsAfter 10000 := by
  intro log hl
  unfold keen
  rw [if_neg (by omega)]

/-- Two files of a directory; the receivers mark everything before the files are complete, and move on. -/
example : ∃ s' ms k j m d, settledCompare.slotDiffProcessFinishedR (keen.react 10000) exampleDir settledOutput = Res.ok s' ∧ SelectionValid s' ms k j m d ∧ ms.length = 2 := by
  obtain ⟨s1, ms, h1, h2, h3⟩ := settled_finished
  obtain ⟨x, hx⟩ := C83_ends settledCompare_reachable (by simp [settledCompare, MLState.setInfo]) rfl h1 (by rw [h2]; simp) keen_waits (keen_ok _) keen_stops (Nat.le_refl _)
  rcases C83_safe settledCompare_reachable (by simp [settledCompare, MLState.setInfo]) rfl h1 (by rw [h2]; simp) keen_waits (keen_ok _) 10000 with g | ⟨s', ms', k, j, m, d, g, a, _, c, _⟩
  · rw [hx] at g; cases g
  · refine ⟨s', ms', k, j, m, d, g, a, ?_⟩
    have := a.models
    rw [c, h2] at this
    cases this
    exact h3

/-- What is saved afterwards. -/
example : ∃ s1 p xs, parse exampleDir.win exampleDir.cmp settledCompare.heap (split settledOutput.stdout) = Res.ok p ∧ p.models = some xs ∧ xs.length = 2 ∧
    settledCompare.slotDiffProcessFinished exampleDir settledOutput = Res.ok s1 ∧ exampleDir.isDir (str "old") = true ∧ keen.Waits ∧ ∀ log, ∀ op ∈ keen log, op.Ok s1 := by
  obtain ⟨s1, ms, h1, h2, h3⟩ := settled_finished
  obtain ⟨p, hp, _, hr⟩ := C26_unified exampleDiff exampleDiff_ok (by simp [exampleDiff]) exampleDir.win exampleDir.cmp settledCompare.heap
  cases hms : p.models with
  | none =>
    rw [hms] at hr
    have := hr _ (List.mem_cons_self ..)
    exact absurd this (by decide)
  | some xs =>
    rw [hms] at hr
    simp only at hr
    obtain ⟨fs, hfs, hmap⟩ := perm_of_map hr.2 rfl
    have hlen : xs.length = fs.length := by simpa using congrArg List.length hmap
    exact ⟨s1, p, xs, hp, hms, by rw [hlen, hfs.length_eq]; decide, h1, by decide, keen_waits, keen_ok _⟩

/-- Nothing was reported: the receivers do nothing. -/
example : SilentOnErrors keen := by
  intro log k
  unfold keen
  split
  · rw [List.getLast?_append]; rfl
  · rfl

/-- The diff program prints something that is no diff. -/
example : settledCompare.slotDiffProcessFinishedR (nextAtEnd.react 1) exampleDir ⟨2, .NormalExit, str "hello\n", []⟩ = Res.ub := by
  have hp : ∃ p, parse exampleDir.win exampleDir.cmp settledCompare.heap (split (str "hello\n")) = Res.ok p ∧ p.models = none := by
    refine ⟨_, rfl, ?_⟩
    decide +kernel
  obtain ⟨p, h1, h2⟩ := hp
  exact (C83_failed_defect settledCompare_reachable (by simp [settledCompare, MLState.setInfo]) rfl h1 h2 0).2

/-- Two directories are compared, compared again, and are identical. -/
example : ∃ s s1, InUse s ∧ s.refresh exampleDir = Res.ok s1 ∧ s1.slotDiffProcessFinishedR (nextIfIdentical.react 1) exampleDir ⟨0, .NormalExit, [], []⟩ = Res.ub ∧
    s.refreshR (nextAtStart.react 1) exampleDir = Res.ub := by
  obtain ⟨s, ms, h1, h2, h3⟩ := settled_finished
  have hop : OpensDiff (.diffFinished exampleDir settledOutput) settledCompare s := ⟨h1, by decide, by rw [h2]; simp⟩
  have h : InUse s := hop.inUse settledCompare_reachable
  have hre : ∃ s1, s.refresh exampleDir = Res.ok s1 := by
    have hset : s.settings = some {} := (beyond_finished h1).settings
    obtain ⟨ms', hm⟩ := h.midway
    obtain ⟨i, hi⟩ := Option.ne_none_iff_exists'.1 hm.opened.info
    unfold MLState.refresh MLState.compareMode
    rw [hi]
    simp only [Res.bind_ok]
    rw [show s.clear.info = some i from hi, show s.clear.settings = some {} from hset]
    exact ⟨_, rfl⟩
  obtain ⟨s1, hre⟩ := hre
  exact ⟨s, s1, h, hre, C83_identical_defect h hre rfl rfl 0, C83_start_defect h hre 0⟩

/-- The receiver compares again. -/
example : ∃ s', settledCompare.slotDiffProcessFinishedR (refreshAtEnd exampleDir) exampleDir settledOutput = Res.ok s' ∧ s'.process = none := by
  obtain ⟨s1, ms, h1, h2, h3⟩ := settled_finished
  obtain ⟨s', g, _, _, c⟩ := C83_refresh_defect (e' := exampleDir) settledCompare_reachable (by simp [settledCompare, MLState.setInfo])
    (by simp [settledCompare, MLState.setInfo, MLState.init]) rfl h1 (by rw [h2]; simp)
  exact ⟨s', g, c⟩

/-- The receivers stay connected while the user goes on. -/
example : ∃ s1, settledCompare.slotDiffProcessFinished exampleDir settledOutput = Res.ok s1 ∧ ∀ op ∈ [UserOp.nextFile, .apply, .saveAll (fun _ => {})], op.Ok s1 := by
  obtain ⟨s1, ms, h1, _⟩ := settled_finished
  refine ⟨s1, h1, ?_⟩
  intro op ho
  simp only [List.mem_cons, List.not_mem_nil, or_false] at ho
  rcases ho with rfl | rfl | rfl <;> trivial

/-- Comparing again, with the receivers of the examples. -/
example : keen.Waits ∧ SilentAtStart keen := by
  refine ⟨keen_waits, fun log => ?_⟩
  unfold keen
  split
  · rw [List.getLast?_append]; rfl
  · rfl

end KompareDiff2
