import Verif.Proofs.OpenTotal
/-
From the operations to the states in use.
-/
namespace KompareDiff2
open Spec

theorem compare_open {e : Env} {s s' : MLState} (w : WF s) (h : s.compare e = Res.ok (s', true))
    (hm : ∃ i, s'.info = some i ∧ (i.mode = .BlendingFile ∨ i.mode = .BlendingDir)) : OpenOk s' := by
  have nope : ∀ (t : MLState) (i : Info) (mode : Mode), t.info = some i → i.mode = mode → mode ≠ .BlendingFile → mode ≠ .BlendingDir →
      t.compareMode e mode = Res.ok (s', true) → OpenOk s' := by
    intro t i mode hi hmode h1 h2 hc
    exfalso
    unfold MLState.compareMode at hc
    dsimp only at hc
    rw [show t.clear.info = some i from hi] at hc
    dsimp only at hc
    obtain ⟨x, _, hc⟩ := Res.bind_eq_ok.1 hc
    cases hc
    obtain ⟨i', hi', hm⟩ := hm
    have hi2 : some i = some i' := hi'
    cases hi2
    rcases hm with hm | hm <;> simp_all
  unfold MLState.compare at h
  split at h
  · cases h
  · rename_i i hi
    dsimp only at h
    split at h
    · exact nope _ _ .ComparingDirs rfl rfl (by simp) (by simp) h
    · split at h
      · split at h
        · exact (openAndDiff_spec (w.info _) h).2 rfl
        · split at h
          · exact (openAndDiff_spec (w.info _) h).2 rfl
          · exact nope _ _ .ComparingFiles rfl rfl (by simp) (by simp) h
      · split at h
        · exact (openAndDiff_spec (w.info _) h).2 rfl
        · exact (openAndDiff_spec (w.info _) h).2 rfl

theorem opens_ok {op : MLOp} {s s' : MLState} (w : WF s) (h : OpensDiff op s s') : OpenOk s' ∧ WF s' := by
  cases op with
  | openDiff e f => exact ⟨(openDiff_spec w h).2 rfl, (openDiff_spec w h).1⟩
  | parseAndOpenDiff e t => exact ⟨(parseAndOpenDiff_spec w h).2 rfl, (parseAndOpenDiff_spec w h).1⟩
  | openFileAndDiff e => exact ⟨(openAndDiff_spec w h).2 rfl, (openAndDiff_spec w h).1⟩
  | compare e => exact ⟨compare_open w h.1 h.2, compare_spec w h.1⟩
  | diffFinished e r => exact ⟨(diffFinished_spec w h.1).2 h.2.1 h.2.2, (diffFinished_spec w h.1).1⟩
  | user _ => exact absurd h id
  | select _ _ => exact absurd h id
  | selectDiff _ => exact absurd h id
  | refresh _ => exact absurd h id
  | swap _ => exact absurd h id
  | setInfo _ => exact absurd h id
  | saveDiff _ _ _ _ _ => exact absurd h id
  | diffWritten _ _ => exact absurd h id

/-- The navigation actions stay right while neither the selection nor they change. -/
theorem navRight_same {s s' : MLState} {ms : List Nat} {k j m d : Nat} (h : Opened s ms) (a : At s ms k j m d) (hr : NavigationRight s)
    {x : Res MLState} (g : Good ms s x s' k j m d) (h1 : s'.actions.nextFile = s.actions.nextFile)
    (h2 : s'.actions.previousFile = s.actions.previousFile) (h3 : s'.actions.nextDifference = s.actions.nextDifference)
    (h4 : s'.actions.previousDifference = s.actions.previousDifference) : NavigationRight s' := by
  have hseq : sequence s' = sequence s := by
    unfold sequence
    rw [g.frame.models]
    congr 1
    funext m
    rw [g.frame.differences]
  have hsel : s'.selectedModel = s.selectedModel := by rw [g.atIt.selectedModel, a.selectedModel]
  have hsd : s'.selectedDifference = s.selectedDifference := by rw [g.atIt.selectedDifference, a.selectedDifference]
  have hsa : ∀ p, SelectedAt s' p → SelectedAt s p := by
    rintro p ⟨m, d, hp, q1, q2⟩
    exact ⟨m, d, hseq ▸ hp, hsel ▸ q1, hsd ▸ q2⟩
  refine ⟨?_, ?_, ?_, ?_⟩
  · intro ms k m q1 q2 q3; rw [h1]; exact hr.1 ms k m (g.frame.models ▸ q1) q2 (hsel ▸ q3)
  · intro ms k m q1 q2 q3; rw [h2]; exact hr.2 ms k m (g.frame.models ▸ q1) q2 (hsel ▸ q3)
  · intro p hp; rw [h3, hseq]; exact hr.3 p (hsa p hp)
  · intro p hp; rw [h4]; exact hr.4 p (hsa p hp)

theorem saveDestination_actions {s : MLState} {v : MLState.SaveEnv} {m : Nat} {r : MLState × Bool} (h : s.saveDestination v m = Res.ok r) :
    r.1.actions = s.actions ∧ r.1.isReadWrite = s.isReadWrite ∧ r.1.store = s.store ∧ r.1.selectedDifference = s.selectedDifference := by
  unfold MLState.saveDestination at h
  obtain ⟨m, _, h⟩ := Res.bind_eq_ok.1 h
  split at h
  · cases h; exact ⟨rfl, rfl, rfl, rfl⟩
  split at h
  · cases h; exact ⟨rfl, rfl, rfl, rfl⟩
  split at h
  · cases h; exact ⟨rfl, rfl, rfl, rfl⟩
  split at h
  · cases h; exact ⟨rfl, rfl, rfl, rfl⟩
  split at h
  · cases h
  split at h
  · cases h; exact ⟨rfl, rfl, rfl, rfl⟩
  dsimp only at h
  split at h
  · cases h; exact ⟨rfl, rfl, rfl, rfl⟩
  · cases h; exact ⟨rfl, rfl, rfl, rfl⟩

theorem saveLoop_actions {v : Nat → MLState.SaveEnv} {l : List Nat} {s : MLState} {r : MLState × Bool} (h : MLState.saveLoop v l s = Res.ok r) :
    r.1.actions = s.actions ∧ r.1.isReadWrite = s.isReadWrite ∧ r.1.store = s.store ∧ r.1.selectedDifference = s.selectedDifference := by
  induction l generalizing s with
  | nil => cases h; exact ⟨rfl, rfl, rfl, rfl⟩
  | cons m ms ih =>
    unfold MLState.saveLoop at h
    obtain ⟨⟨t, b⟩, h1, h⟩ := Res.bind_eq_ok.1 h
    have k1 := saveDestination_actions h1
    dsimp only at h
    split at h
    · cases h; exact k1
    · obtain ⟨a, b, c, d⟩ := ih h
      exact ⟨a.trans k1.1, b.trans k1.2.1, c.trans k1.2.2.1, d.trans k1.2.2.2⟩

/-- Every operation keeps the navigation actions right. -/
theorem user_nav {s : MLState} {ms : List Nat} (h : Opened s ms) {k j m d : Nat} (a : At s ms k j m d) (hr : NavigationRight s)
    (op : UserOp) (hop : op.Ok s) :
    ∃ s' k' j' m' d', Good ms s (op.run s) s' k' j' m' d' ∧ NavigationRight s' ∧ (op.updates = true → Right s') := by
  have hms : ∀ x, x ∈ s.models.getD [] → x ∈ ms := by intro x hx; rw [h.models] at hx; exact hx
  by_cases hu : op.updates = true
  · obtain ⟨s', k', j', m', d', g, q⟩ := user_ok h a op hop
    exact ⟨s', k', j', m', d', g, (q hu).1, q⟩
  · cases op with
    | applySlot b =>
      obtain ⟨s', g, q1, _, _, q2⟩ := slotApplyDifference_ok h a b
      exact ⟨s', k, j, m, d, g, navRight_same h a hr g (by rw [q2]) (by rw [q2]) (by rw [q2]) (by rw [q2]), fun q => absurd q hu⟩
    | applyAllSlot b =>
      obtain ⟨s', g, q1, _, _, q2⟩ := slotApplyAll_ok h a b
      exact ⟨s', k, j, m, d, g, navRight_same h a hr g (by rw [q2]) (by rw [q2]) (by rw [q2]) (by rw [q2]), fun q => absurd q hu⟩
    | setReadWrite b =>
      obtain ⟨s', g, q1, q2⟩ := setReadWrite_ok h a b
      refine ⟨s', k, j, m, d, g, ?_, fun q => absurd q hu⟩
      by_cases hb : s.isReadWrite = b
      · have : s' = s := by
          have := g.ok
          unfold MLState.setReadWrite at this
          rw [if_pos hb] at this
          cases this; rfl
        rw [this]; exact hr
      · exact (q2 (.inl hb)).1
    | save v =>
      obtain ⟨s', g⟩ := slotSaveDestination_ok h a v
      refine ⟨s', k, j, m, d, g, ?_, fun q => absurd q hu⟩
      have hrun := g.ok
      simp only [MLState.slotSaveDestination, a.selectedModel] at hrun
      obtain ⟨r, hr1, hr2⟩ := Res.bind_eq_ok.1 hrun
      have k1 := saveDestination_actions hr1
      have : s'.actions.nextFile = s.actions.nextFile ∧ s'.actions.previousFile = s.actions.previousFile ∧
          s'.actions.nextDifference = s.actions.nextDifference ∧ s'.actions.previousDifference = s.actions.previousDifference := by
        cases hr2
        rw [← k1.1]
        show (if _ then _ else _ : MLState).actions.nextFile = _ ∧ (if _ then _ else _ : MLState).actions.previousFile = _ ∧
          (if _ then _ else _ : MLState).actions.nextDifference = _ ∧ (if _ then _ else _ : MLState).actions.previousDifference = _
        split <;> exact ⟨rfl, rfl, rfl, rfl⟩
      exact navRight_same h a hr g this.1 this.2.1 this.2.2.1 this.2.2.2
    | saveModel v x =>
      obtain ⟨s', b, h1, g⟩ := saveDestination_ok h a v (hms x hop)
      have q2 := (saveDestination_actions h1).1
      refine ⟨s', k, j, m, d, ⟨?_, g.opened, g.atIt, g.frame⟩,
        navRight_same h a hr g (by rw [q2]) (by rw [q2]) (by rw [q2]) (by rw [q2]), fun q => absurd q hu⟩
      simp only [UserOp.run]; rw [h1]; rfl
    | saveAll v =>
      obtain ⟨s', b, h1, g⟩ := saveAll_ok v s h a
      have q2 : s'.actions = s.actions := by
        unfold MLState.saveAll at h1
        split at h1
        · cases h1; rfl
        · cases h1; rfl
        · exact (saveLoop_actions h1).1
      refine ⟨s', k, j, m, d, ⟨?_, g.opened, g.atIt, g.frame⟩,
        navRight_same h a hr g (by rw [q2]) (by rw [q2]) (by rw [q2]) (by rw [q2]), fun q => absurd q hu⟩
      simp only [UserOp.run]; rw [h1]; rfl
    | _ => exact absurd rfl hu

theorem runUser_nav (ops : List UserOp) {s : MLState} {ms : List Nat} (h : Opened s ms) {k j m d : Nat} (a : At s ms k j m d)
    (hr : NavigationRight s) (hops : ∀ op ∈ ops, op.Ok s) :
    ∃ s' k' j' m' d', Good ms s (runUser ops s) s' k' j' m' d' ∧ NavigationRight s' := by
  induction ops generalizing s k j m d with
  | nil => exact ⟨s, k, j, m, d, ⟨rfl, h, a, .refl s⟩, hr⟩
  | cons op ops ih =>
    obtain ⟨s1, k1, j1, m1, d1, g1, n1, _⟩ := user_nav h a hr op (hops op (by simp))
    obtain ⟨s2, k2, j2, m2, d2, g2, n2⟩ := ih g1.opened g1.atIt n1 (fun o ho => (hops o (List.mem_cons_of_mem _ ho)).frame g1.frame)
    exact ⟨s2, k2, j2, m2, d2, g1.bind g2, n2⟩

/-- What is known about a state in use. -/
theorem InUse.facts {s : MLState} (h : InUse s) : WF s ∧ NavigationRight s ∧ ∃ ms k j m d, Opened s ms ∧ At s ms k j m d := by
  obtain ⟨s0, op, s1, ops, hr, ho, hops, hrun⟩ := h
  obtain ⟨⟨ms, h1, ⟨k, j, m, d, a1⟩, r1⟩, w1⟩ := opens_ok hr.wf ho
  obtain ⟨s', k', j', m', d', g, hn⟩ := runUser_nav ops h1 a1 r1.1 hops
  have : s' = s := by have := g.ok; rw [hrun] at this; cases this; rfl
  subst this
  exact ⟨w1.keep g.frame.keep, hn, ms, k', j', m', d', g.opened, g.atIt⟩

theorem InUse.step {s s' : MLState} {op : UserOp} (h : InUse s) (hop : op.Ok s) (hs : op.run s = Res.ok s') : InUse s' := by
  obtain ⟨s0, o, s1, ops, hr, ho, hops, hrun⟩ := h
  have hop1 : op.Ok s1 := by
    obtain ⟨⟨ms, h1, ⟨k, j, m, d, a1⟩, r1⟩, w1⟩ := opens_ok hr.wf ho
    obtain ⟨t, k', j', m', d', g⟩ := runUser_ok ops h1 a1 hops
    have : t = s := by have := g.ok; rw [hrun] at this; cases this; rfl
    subst this
    have hf := g.frame
    cases op <;> simp only [UserOp.Ok, hf.models, hf.deadDiffs] at hop ⊢ <;> exact hop
  refine ⟨s0, o, s1, ops ++ [op], hr, ho, ?_, ?_⟩
  · intro x hx
    rcases List.mem_append.1 hx with hx | hx
    · exact hops x hx
    · rw [List.mem_singleton.1 hx]; exact hop1
  · clear hops ho hop1
    induction ops generalizing s1 with
    | nil => cases hrun; show (op.run s >>= fun s => Res.ok s) = _; rw [hs]; rfl
    | cons x xs ih =>
      obtain ⟨t, h1, h2⟩ := Res.bind_eq_ok.1 hrun
      show (x.run s1 >>= fun s => runUser (xs ++ [op]) s) = _
      rw [h1]; exact ih t h2

end KompareDiff2

namespace KompareDiff2
open Spec

/-- What a parse deletes. -/
theorem parseDiffOutput_dead {e : Env} {s s' : MLState} {text : Str} {b : Bool} (h : s.parseDiffOutput e text = Res.ok (s', b)) :
    s'.dead = s.dead ++ s.models.getD [] ∧ s'.deadDiffs = s.deadDiffs ++ (s.models.getD []).flatMap (fun m => (s.store m).differences) ∧
      ∀ m, m < s.nextModel → (s'.store m).differences = (s.store m).differences := by
  unfold MLState.parseDiffOutput at h
  obtain ⟨r, hr, h⟩ := Res.bind_eq_ok.1 h
  obtain ⟨cl, _, h⟩ := Res.bind_eq_ok.1 h
  have h0 : ((s.emit (.diffString text)).resetModels r).dead = s.dead ++ s.models.getD [] ∧
      ((s.emit (.diffString text)).resetModels r).deadDiffs = s.deadDiffs ++ (s.models.getD []).flatMap (fun m => (s.store m).differences) ∧
      ∀ m, m < s.nextModel → ((s.emit (.diffString text)).resetModels r).store m = s.store m := by
    unfold MLState.resetModels
    cases r.models with
    | none => exact ⟨rfl, rfl, fun _ _ => rfl⟩
    | some ms =>
      refine ⟨rfl, rfl, fun m hm => ?_⟩
      show (if s.nextModel ≤ m then _ else s.store m) = _
      rw [if_neg (by omega)]
  dsimp only at h
  generalize (s.emit (.diffString text)).resetModels r = t at h h0
  split at h
  · cases h
  · split at h
    · cases h; exact ⟨h0.1, h0.2.1, fun m hm => by rw [← h0.2.2 m hm]⟩
    · have fin : ∀ u : MLState, (u.firstModel >>= fun s => s.selectFirst >>= fun s => s.differenceCount >>= fun dc =>
            Res.ok (s.emit (.statusBar 0 0 s.modelCount dc 0), true)) = Res.ok (s', b) →
          u.dead = t.dead → u.deadDiffs = t.deadDiffs → u.store = t.store →
          s'.dead = s.dead ++ s.models.getD [] ∧ s'.deadDiffs = s.deadDiffs ++ (s.models.getD []).flatMap (fun m => (s.store m).differences) ∧
          ∀ m, m < s.nextModel → (s'.store m).differences = (s.store m).differences := by
        intro u h h1 h2 h3
        obtain ⟨u1, q1, h⟩ := Res.bind_eq_ok.1 h
        obtain ⟨u2, q2, h⟩ := Res.bind_eq_ok.1 h
        obtain ⟨dc, _, h⟩ := Res.bind_eq_ok.1 h
        have hk : Keep u u2 := (keep_firstModel q1).trans (keep_selectFirst q2)
        cases h
        refine ⟨(hk.dead.trans h1).trans h0.1, (hk.deadDiffs.trans h2).trans h0.2.1, fun m hm => ?_⟩
        show (u2.store m).differences = _
        rw [hk.differences, h3, h0.2.2 m hm]
      split at h
      · exact fin _ h rfl rfl rfl
      · exact fin _ h rfl rfl rfl

theorem OpensDiff.reachable {op : MLOp} {s s' : MLState} (hs : Reachable s) (h : OpensDiff op s s') : Reachable s' := by
  have hrun : op.run s = Res.ok s' := by
    cases op with
    | openDiff e f => simp only [MLOp.run]; rw [show s.openDiff e f = Res.ok (s', true) from h]; rfl
    | parseAndOpenDiff e t => simp only [MLOp.run]; rw [show s.parseAndOpenDiff e t = Res.ok (s', true) from h]; rfl
    | openFileAndDiff e => simp only [MLOp.run]; rw [show s.openAndDiff e = Res.ok (s', true) from h]; rfl
    | compare e => simp only [MLOp.run]; rw [h.1]; rfl
    | diffFinished e r => exact h.1
    | user _ => exact absurd h id
    | select _ _ => exact absurd h id
    | selectDiff _ => exact absurd h id
    | refresh _ => exact absurd h id
    | swap _ => exact absurd h id
    | setInfo _ => exact absurd h id
    | saveDiff _ _ _ _ _ => exact absurd h id
    | diffWritten _ _ => exact absurd h id
  obtain ⟨st, rw', hp, ops, h0⟩ := hs
  refine ⟨st, rw', hp, ops ++ [op], ?_⟩
  generalize MLState.init st rw' hp = x at h0
  induction ops generalizing x with
  | nil => cases h0; show (op.run s >>= fun s => Res.ok s) = _; rw [hrun]; rfl
  | cons o os ih =>
    obtain ⟨t, h1, h2⟩ := Res.bind_eq_ok.1 h0
    show (o.run x >>= fun s => runSession (os ++ [op]) s) = _
    rw [h1]; exact ih t h2

theorem OpensDiff.inUse {op : MLOp} {s s' : MLState} (hs : Reachable s) (h : OpensDiff op s s') : InUse s' :=
  ⟨s, op, s', [], hs, h, by simp, rfl⟩

/-- The actions can be updated whenever the selected objects exist. -/
theorem updateActions_live {s : MLState} {l : List Nat} {m d : Nat} (hl : s.models = some l) (hm : s.selectedModel = some m) (hmd : m ∉ s.dead)
    (hd : s.selectedDifference = some d) (hdd : d ∉ s.deadDiffs) : ∃ ac, s.updateActions = Res.ok { s with actions := ac } := by
  have h1 : s.list = Res.ok l := by unfold MLState.list; rw [hl]
  have h2 : s.model s.selectedModel = Res.ok m := by unfold MLState.model; rw [hm]; simp [hmd]
  have h3 : s.diff s.selectedDifference = Res.ok d := by unfold MLState.diff; rw [hd]; simp [hdd]
  have h4 : ∃ a, s.updateWriting = Res.ok a := by
    unfold MLState.updateWriting
    rw [h2, h3]
    split
    · exact ⟨_, rfl⟩
    · split
      · exact ⟨_, rfl⟩
      · exact ⟨_, rfl⟩
  obtain ⟨a, h4⟩ := h4
  have h5 : ∃ b, s.hasNextModel = Res.ok b := by unfold MLState.hasNextModel; rw [h1]; exact ⟨_, rfl⟩
  obtain ⟨b, h5⟩ := h5
  have h6 : ∃ b, s.hasPrevDiff = Res.ok b := by unfold MLState.hasPrevDiff; rw [h2, Res.bind_ok]; split <;> exact ⟨_, rfl⟩
  obtain ⟨c, h6⟩ := h6
  have h7 : ∃ b, s.hasNextDiff = Res.ok b := by
    unfold MLState.hasNextDiff; rw [h2, Res.bind_ok]
    split
    · exact ⟨_, rfl⟩
    · rw [h5]; exact ⟨_, rfl⟩
  obtain ⟨c', h7⟩ := h7
  unfold MLState.updateActions
  rw [if_pos (by simp [hl, hm, hd]), h4, h5, h6, h7]
  exact ⟨_, rfl⟩

/-- Selecting a model that is not in the list. -/
theorem foreign_ok {s : MLState} {ms : List Nat} (h : s.models = some ms) {m d : Nat} (hm : m ∉ ms) (hl : m ∉ s.dead)
    (hd : d ∈ (s.store m).differences) (hdl : d ∉ s.deadDiffs) :
    ∃ s', s.slotSelectionChanged (some m) (some d) = Res.ok s' ∧ s'.models = some ms ∧ s'.selectedModel = some m ∧ s'.selectedDifference = some d ∧
      s'.currentModel = Res.ok (-1) ∧ s'.modelIndex = -1 := by
  have hix : MLState.indexOfPtr ms (some m) = -1 := by
    rcases indexOfI_spec ms m with h | h
    · exact h.1
    · exact absurd (List.mem_of_getElem? h.2) hm
  have hsel : ∀ x : DModel, x.differences = (s.store m).differences → (x.setSelectedDifference (some d)).2 = true ∧
      (x.setSelectedDifference (some d)).1.differences = (s.store m).differences := by
    intro x hx
    refine ⟨?_, (select_diffs x _).trans hx⟩
    unfold DModel.setSelectedDifference
    rcases indexOfI_spec x.differences d with q | q
    · rw [hx] at q; exact absurd hd q.2
    · have q' : indexOfI x.differences d ≠ -1 := by omega
      unfold DModel.findDifference
      simp only [q', if_false]
      split <;> rfl
  have hlist : s.list = Res.ok ms := by unfold MLState.list; rw [h]
  unfold MLState.slotSelectionChanged
  rw [hlist, Res.bind_ok]
  simp only [hix]
  have hmod : ∀ t : MLState, t.dead = s.dead → t.model (some m) = Res.ok m := by
    intro t ht; unfold MLState.model; simp [ht, hl]
  rw [hmod { s with selectedModel := some m, modelIndex := -1, selectedDifference := some d } rfl, Res.bind_ok]
  have q1 := hsel (s.store m) rfl
  obtain ⟨t, ht⟩ : ∃ t : MLState, t = MLState.setModel { s with selectedModel := some m, modelIndex := -1, selectedDifference := some d } m
      ((s.store m).setSelectedDifference (some d)).1 := ⟨_, rfl⟩
  rw [← ht]
  have f1 : t.models = some ms := by rw [ht]; exact h
  have f2 : t.dead = s.dead := by rw [ht]; rfl
  have f3 : t.deadDiffs = s.deadDiffs := by rw [ht]; rfl
  have f4 : t.selectedModel = some m := by rw [ht]; rfl
  have f5 : t.selectedDifference = some d := by rw [ht]; rfl
  have f6 : t.modelIndex = -1 := by rw [ht]; rfl
  have f7 : (t.store m).differences = (s.store m).differences := by
    rw [ht]; show (if m = m then _ else _ : DModel).differences = _; rw [if_pos rfl]; exact q1.2
  clear ht
  obtain ⟨ac, hu⟩ := updateActions_live f1 f4 (f2 ▸ hl) f5 (f3 ▸ hdl)
  have e2 : t.setSelectedModel t.selectedModel = Res.ok (some { t with actions := ac }) := by
    unfold MLState.setSelectedModel; rw [if_neg (by simp), hu]; rfl
  rw [e2, Res.bind_ok]
  replace f1 : ({ t with actions := ac } : MLState).models = some ms := f1
  replace f2 : ({ t with actions := ac } : MLState).dead = s.dead := f2
  replace f3 : ({ t with actions := ac } : MLState).deadDiffs = s.deadDiffs := f3
  replace f4 : ({ t with actions := ac } : MLState).selectedModel = some m := f4
  replace f5 : ({ t with actions := ac } : MLState).selectedDifference = some d := f5
  replace f6 : ({ t with actions := ac } : MLState).modelIndex = -1 := f6
  replace f7 : (({ t with actions := ac } : MLState).store m).differences = (s.store m).differences := f7
  generalize ({ t with actions := ac } : MLState) = t' at f1 f2 f3 f4 f5 f6 f7
  clear e2 hu
  dsimp only
  rw [f4, hmod t' f2, Res.bind_ok, f5]
  have q2 := hsel (t'.store m) f7
  rw [q2.1]
  simp only [Bool.true_eq_false, if_false, Res.bind_ok]
  have g1 : ((t'.setModel m ((t'.store m).setSelectedDifference (some d)).1).emit (.selection (some m) (some d))).models = some ms := f1
  have g2 : ((t'.setModel m ((t'.store m).setSelectedDifference (some d)).1).emit (.selection (some m) (some d))).dead = s.dead := f2
  have g3 : ((t'.setModel m ((t'.store m).setSelectedDifference (some d)).1).emit (.selection (some m) (some d))).deadDiffs = s.deadDiffs := f3
  have g4 : ((t'.setModel m ((t'.store m).setSelectedDifference (some d)).1).emit (.selection (some m) (some d))).selectedModel = some m := f4
  have g5 : ((t'.setModel m ((t'.store m).setSelectedDifference (some d)).1).emit (.selection (some m) (some d))).selectedDifference = some d := f5
  have g6 : ((t'.setModel m ((t'.store m).setSelectedDifference (some d)).1).emit (.selection (some m) (some d))).modelIndex = -1 := f6
  generalize (t'.setModel m ((t'.store m).setSelectedDifference (some d)).1).emit (.selection (some m) (some d)) = u at g1 g2 g3 g4 g5 g6
  have hb : ∃ v : MLState, u.emitStatusBar = Res.ok v ∧ v.models = some ms ∧ v.dead = s.dead ∧ v.deadDiffs = s.deadDiffs ∧
      v.selectedModel = some m ∧ v.selectedDifference = some d ∧ v.modelIndex = -1 := by
    unfold MLState.emitStatusBar MLState.list MLState.differenceCount
    rw [g1]
    simp only [g4, hmod u g2, Res.bind_ok]
    exact ⟨_, rfl, g1, g2, g3, g4, g5, g6⟩
  obtain ⟨v, hv, v1, v2, v3, v4, v5, v6⟩ := hb
  obtain ⟨ac', hw⟩ := updateActions_live v1 v4 (v2 ▸ hl) v5 (v3 ▸ hdl)
  refine ⟨{ v with actions := ac' }, ?_, v1, v4, v5, ?_, v6⟩
  · rw [hv, Res.bind_ok, hw]
  · unfold MLState.currentModel MLState.list
    simp only [v1, v4, Res.bind_ok, hix]

end KompareDiff2
