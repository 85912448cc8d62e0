import Verif.Proofs.Lifetime
import Verif.Props.Process
/-
Property theorems C54: which models and differences are destroyed, and when.
-/
namespace KompareDiff2
open Spec

/-- **C54.** In every history, no model and no difference is destroyed twice, and no model of the list, nor any of its differences, is
destroyed. -/
theorem C54_never_twice {s : MLState} (h : Reachable s) : s.dead.Nodup ∧ s.deadDiffs.Nodup ∧ Alive s (s.models.getD []) :=
  ⟨h.owned.dead, h.owned.deadDiffs, fun m hm => ⟨h.owned.live m hm, h.owned.liveDiffs m hm⟩⟩

theorem reads_dead {s s' : MLState} {P : MLState → Prop} (h : Reads s s' P) : ∃ t, Keep s t ∧ P t ∧
    s'.dead = s.dead ++ t.models.getD [] ∧ s'.deadDiffs = s.deadDiffs ++ (t.models.getD []).flatMap (fun m => (s.store m).differences) := by
  obtain ⟨t, u, e, text, b, k, p, q, k'⟩ := h
  obtain ⟨h1, h2, _⟩ := parseDiffOutput_dead q
  refine ⟨t, k, p, ?_, ?_⟩
  · rw [k'.dead, h1, k.dead]
  · have : (fun m => (t.store m).differences) = (fun m => (s.store m).differences) := funext k.differences
    rw [k'.deadDiffs, h2, k.deadDiffs, this]

/-- **C54.** The only call that destroys models is the one that reads the output of a comparison; it destroys the models that are in the
list at that moment, with their differences, if the diff program exited normally with a code other than 0. -/
theorem C54_destroyed {op : MLOp} {s s' : MLState} (hs : Reachable s) (h : op.run s = Res.ok s') : DestroyedBy s s' op := by
  have other : ¬ Finishes op → s'.dead = s.dead ∧ s'.deadDiffs = s.deadDiffs := by
    intro hn
    rcases op_reads hs.wf h with k | ⟨_, k⟩ | ⟨q, _⟩
    · exact ⟨k.dead, k.deadDiffs⟩
    · obtain ⟨t, _, he, h1, h2⟩ := reads_dead k
      rw [he] at h1 h2
      exact ⟨by simpa using h1, by simpa using h2⟩
    · exact absurd q hn
  cases op with
  | diffFinished e r =>
    show if _ then _ else _
    have hiff := C46_success r
    rcases reads_finished hs.wf h with ⟨hf, k⟩ | ⟨hf, k⟩
    · rw [if_neg (fun q => by rw [hiff.2 q] at hf; cases hf)]
      exact ⟨k.dead, k.deadDiffs⟩
    · rw [if_pos (hiff.1 hf)]
      obtain ⟨t, _, he, h1, h2⟩ := reads_dead k
      have he : t.models = s.models := he
      rw [he] at h1 h2
      exact ⟨h1, h2⟩
  | _ => exact other id

/-- In histories without a read during a comparison nothing is destroyed, and the list is empty while a comparison is running. -/
theorem oneAtATime_inv {ops : List MLOp} {s : MLState} (h : OneAtATime ops s) :
    Reachable s ∧ s.dead = [] ∧ s.deadDiffs = [] ∧ ((∃ args input, s.process = some (.compare args input)) → s.models.getD [] = []) := by
  induction h with
  | new settings rw heap => exact ⟨⟨settings, rw, heap, [], rfl⟩, rfl, rfl, fun _ => rfl⟩
  | @call ops s s' op _ hsch hrun hone ih =>
    obtain ⟨hr, hd, hdd, hp⟩ := ih
    have hr' : Reachable s' := by
      obtain ⟨st, rw', hp, l, hl⟩ := hr
      refine ⟨st, rw', hp, l ++ [op], ?_⟩
      have app : ∀ (l : List MLOp) (a : MLState), runSession l a = Res.ok s → runSession (l ++ [op]) a = Res.ok s' := by
        intro l
        induction l with
        | nil => intro a ha; cases ha; show (op.run s >>= fun s => runSession [] s) = _; rw [hrun]; rfl
        | cons o l ih =>
          intro a ha
          obtain ⟨b, hb, ha⟩ := Res.bind_eq_ok.1 ha
          show (o.run a >>= fun s => runSession (l ++ [op]) s) = _
          rw [hb]; exact ih b ha
      exact app l _ hl
    refine ⟨hr', ?_⟩
    have hdead : s'.dead = [] ∧ s'.deadDiffs = [] := by
      rcases op_reads hr.wf hrun with k | ⟨_, k⟩ | ⟨hf, k⟩
      · exact ⟨k.dead.trans hd, k.deadDiffs.trans hdd⟩
      · obtain ⟨t, _, he, h1, h2⟩ := reads_dead k
        rw [he, hd] at h1; rw [he, hdd] at h2
        exact ⟨h1, h2⟩
      · obtain ⟨t, _, he, h1, h2⟩ := reads_dead k
        have he : t.models = s.models := he
        have hm : s.models.getD [] = [] := by
          apply hp
          cases op with
          | diffFinished e r => exact hsch
          | _ => exact absurd hf id
        rw [he, hm, hd] at h1; rw [he, hm, hdd] at h2
        exact ⟨h1, h2⟩
    refine ⟨hdead.1, hdead.2, fun hx => ?_⟩
    have hpend := C52_pending hrun
    -- a call that leaves the process alone and only takes models out of the list
    have keepcase : s'.process = s.process → Keep s s' → s'.models.getD [] = [] := by
      intro e1 k
      rw [e1] at hx
      have := k.models
      rw [hp hx] at this
      exact List.sublist_nil.1 this
    have readcase : s'.process = s.process → ReadsDiff s' op → s'.models.getD [] = [] := by
      intro e1 hr
      obtain ⟨a, i, hx⟩ := hx
      exact absurd (e1.symm.trans hx) (hone hr a i)
    cases op with
    | user o => exact keepcase hpend (keep_user hrun)
    | select m d => exact keepcase hpend (keep_slotSelectionChanged hrun)
    | selectDiff d => exact keepcase hpend (keep_slotDiffSelectionChanged hrun)
    | openDiff e f => exact readcase hpend trivial
    | parseAndOpenDiff e f => exact readcase hpend trivial
    | openFileAndDiff e => exact readcase hpend trivial
    | compare e =>
      obtain ⟨t, h1, h2⟩ := Res.bind_eq_ok.1 hrun
      cases h2
      rcases reads_compare hr.wf h1 with k | ⟨_, i, hi, h3, h4⟩
      · exact k.2
      · refine readcase ?_ ⟨i, hi, h3, h4⟩
        obtain ⟨j, j', _, hj', hq⟩ := hpend
        have e1 : i = j' := Option.some.inj (hi.symm.trans hj')
        subst e1
        rw [if_neg (fun q => q.elim h3 h4)] at hq
        exact hq
    | refresh e =>
      simp only [MLOp.run, MLState.refresh] at hrun
      split at hrun
      · cases hrun
      · obtain ⟨t, h1, h2⟩ := Res.bind_eq_ok.1 hrun; cases h2; exact (keep_compareMode h1).2
    | swap e =>
      simp only [MLOp.run, MLState.swap] at hrun
      split at hrun
      · cases hrun
      · split at hrun
        · obtain ⟨t, h1, h2⟩ := Res.bind_eq_ok.1 hrun; cases h2; exact (keep_compareMode h1).2
        · cases hrun; exact hp hx
    | diffFinished e r =>
      obtain ⟨a, i, hx⟩ := hx
      have : s'.process = none := hpend
      rw [this] at hx; cases hx
    | setInfo i => exact keepcase hpend (by cases hrun; exact (Keep.refl s).info i)
    | saveDiff e t u d st =>
      obtain ⟨x, h1, h2⟩ := Res.bind_eq_ok.1 hrun
      cases h2
      cases t with
      | true =>
        obtain ⟨_, args, _, _, hq⟩ := hpend
        obtain ⟨a, i, hx⟩ := hx
        rw [hq] at hx; cases hx
      | false => exact keepcase hpend (keep_saveDiff h1).1
    | diffWritten c r =>
      obtain ⟨a, i, hx⟩ := hx
      have : s'.process = none := hpend
      rw [this] at hx; cases hx

/-- **C54.** As long as no diff is opened while a comparison is running, no model and no difference is ever destroyed: every pointer that a
view was given stays valid. -/
theorem C54_pointers_valid {ops : List MLOp} {s : MLState} (h : OneAtATime ops s) : s.dead = [] ∧ s.deadDiffs = [] ∧ ∀ l, Alive s l := by
  obtain ⟨_, h1, h2, _⟩ := oneAtATime_inv h
  exact ⟨h1, h2, fun l m _ => ⟨by rw [h1]; simp, fun d _ => by rw [h2]; simp⟩⟩

/-- **C54, defect.** The models shown before are never destroyed: once another diff was opened or a comparison was started, no later
history destroys them or puts them back into the list. -/
theorem C54_leak_defect {s s' s'' : MLState} {op : MLOp} {ops : List MLOp} (hs : Reachable s) (hop : TakesOut op) (h : op.run s = Res.ok s')
    {m : Nat} (hm : m ∈ s.models.getD []) (h' : runSession ops s' = Res.ok s'') : m ∉ s''.dead ∧ m ∉ s''.models.getD [] := by
  have l : Lost m s' := by
    cases op with
    | openDiff e f =>
      obtain ⟨⟨t, b⟩, h1, h2⟩ := Res.bind_eq_ok.1 h; cases h2
      unfold MLState.openDiff at h1
      rw [if_neg hop] at h1
      exact hs.owned.lost_reads (reads_parseAndOpenDiff (e := e) (text := e.contents f) hs.wf h1) hm
    | parseAndOpenDiff e f =>
      obtain ⟨⟨t, b⟩, h1, h2⟩ := Res.bind_eq_ok.1 h; cases h2
      exact hs.owned.lost_reads (reads_parseAndOpenDiff hs.wf h1) hm
    | openFileAndDiff e =>
      obtain ⟨⟨t, b⟩, h1, h2⟩ := Res.bind_eq_ok.1 h; cases h2
      exact hs.owned.lost_reads (reads_openAndDiff hs.wf h1) hm
    | compare e =>
      obtain ⟨t, h1, h2⟩ := Res.bind_eq_ok.1 h; cases h2
      rcases reads_compare hs.wf h1 with k | k
      · exact hs.owned.lost k.1 k.2 hm
      · exact hs.owned.lost_reads k.1 hm
    | refresh e =>
      simp only [MLOp.run, MLState.refresh] at h
      split at h
      · cases h
      · obtain ⟨t, h1, h2⟩ := Res.bind_eq_ok.1 h; cases h2
        exact hs.owned.lost (keep_compareMode h1).1 (keep_compareMode h1).2 hm
    | _ => exact absurd hop id
  have := lost_session (wf_op hs.wf h) l h'
  exact ⟨this.dead, this.models⟩

/-- **C54.** Assigning one model of the list to another one moves no difference: each model keeps its own ones, and when the list is
replaced the same differences are destroyed as without the assignment. -/
theorem C54_assign (s : MLState) (i j : Nat) (r : ParseResult) :
    (∀ m, ((s.assignModel i j).store m).differences = (s.store m).differences ∧ ((s.assignModel i j).store m).hunks = (s.store m).hunks) ∧
    ((s.assignModel i j).resetModels r).dead = (s.resetModels r).dead ∧
    ((s.assignModel i j).resetModels r).deadDiffs = (s.resetModels r).deadDiffs := by
  have hd : ∀ m, ((s.assignModel i j).store m).differences = (s.store m).differences ∧
      ((s.assignModel i j).store m).hunks = (s.store m).hunks := by
    intro m
    unfold MLState.assignModel
    by_cases hij : i = j
    · rw [if_pos hij]; exact ⟨rfl, rfl⟩
    · rw [if_neg hij]
      show (if m = i then _ else _ : DModel).differences = _ ∧ (if m = i then _ else _ : DModel).hunks = _
      by_cases hm : m = i
      · subst hm; rw [if_pos rfl]; exact ⟨rfl, rfl⟩
      · rw [if_neg hm]; exact ⟨rfl, rfl⟩
  have e1 : (s.assignModel i j).models = s.models := by unfold MLState.assignModel; split <;> rfl
  have e2 : (s.assignModel i j).dead = s.dead := by unfold MLState.assignModel; split <;> rfl
  have e3 : (s.assignModel i j).deadDiffs = s.deadDiffs := by unfold MLState.assignModel; split <;> rfl
  have e4 : (s.models.getD []).flatMap (fun m => ((s.assignModel i j).store m).differences) =
      (s.models.getD []).flatMap (fun m => (s.store m).differences) := by
    congr 1; funext m; exact (hd m).1
  have key : ∀ t : MLState, (t.resetModels r).dead = t.dead ++ t.models.getD [] ∧
      (t.resetModels r).deadDiffs = t.deadDiffs ++ (t.models.getD []).flatMap (fun m => (t.store m).differences) := by
    intro t
    unfold MLState.resetModels
    cases r.models <;> exact ⟨rfl, rfl⟩
  refine ⟨hd, ?_, ?_⟩
  · rw [(key _).1, (key s).1, e1, e2]
  · rw [(key _).2, (key s).2, e1, e3, e4]

/-- Applying the selected difference sets exactly its flag. -/
theorem applyDifference_applied {m : DModel} {h : Heap} {d : Nat} {b : Bool} {r : DModel × Heap} (hsel : m.selected = some d)
    (hr : m.applyDifference h b = Res.ok r) (y : Nat) : (r.2.cell y).applied = if y = d then b else (h.cell y).applied := by
  unfold DModel.applyDifference at hr
  rw [hsel] at hr
  dsimp only at hr
  split at hr
  · rename_i hb
    cases hr
    by_cases hy : y = d
    · rw [if_pos hy, hy]; exact hb
    · rw [if_neg hy]
  · rename_i hb
    cases hr
    unfold DModel.applyDirect
    dsimp only
    have hset : ((h.set d ((h.cell d).apply b).1).cell y).applied = if y = d then b else (h.cell y).applied := by
      by_cases hy : y = d
      · subst hy
        unfold Diff.apply
        rw [if_neg (fun e => hb e.symm)]
        simp
      · simp [hy]
    split
    · unfold DModel.slotDifferenceApplied
      have := Heap.modifyAll_pres (fun a c => c.applied = a.applied) (fun _ => rfl) (fun a b c h1 h2 => h2.trans h1)
        (fun c => if c.destLineNo > (h.set d ((h.cell d).apply b).1 |>.cell d).destLineNo then
          { c with tracking := c.tracking + ((h.set d ((h.cell d).apply b).1).cell d).delta } else c)
        (fun c => by split <;> rfl) m.differences (h.set d ((h.cell d).apply b).1) y
      exact this.trans hset
    · exact hset

/-- **C54, defect.** The assigned model has the names, the count and the selection of the other one, but not its differences: what it calls
its selected difference belongs to the other model, so applying it changes the other model and none of its own differences. -/
theorem C54_assign_defect {s : MLState} (h : InUse s) {i j : Nat} (hi : i ∈ s.models.getD []) (hj : s.selectedModel = some j) (hij : i ≠ j)
    (b : Bool) : ∃ x, ((s.assignModel i j).store i).selected = some x ∧ x ∈ (s.store j).differences ∧
      x ∉ ((s.assignModel i j).store i).differences ∧ ((s.assignModel i j).store i).source = (s.store j).source ∧
      ((s.assignModel i j).store i).appliedCount = (s.store j).appliedCount ∧
      ∃ m' h', ((s.assignModel i j).store i).applyDifference s.heap b = Res.ok (m', h') ∧ (h'.cell x).applied = b ∧
        ∀ y ∈ (s.store i).differences, (h'.cell y).applied = (s.heap.cell y).applied := by
  obtain ⟨_, _, ms, k, l, m, d, ho, ha⟩ := h.facts
  rw [ho.models] at hi
  have hi : i ∈ ms := hi
  have : j = m := Option.some.inj (hj.symm.trans ha.selectedModel)
  subst this
  have hjm : j ∈ ms := ho.mem ha.model
  have hd : d ∈ (s.store j).differences := List.mem_of_getElem? ha.diff
  have hdi : d ∉ (s.store i).differences := fun hx => flatMap_nodup_disjoint ho.nodup ho.disjoint hi hjm hij hx hd
  have est : (s.assignModel i j).store i = (s.store i).assign (s.store j) := by
    unfold MLState.assignModel
    rw [if_neg hij]
    show (if i = i then _ else _ : DModel) = _
    rw [if_pos rfl]
  rw [est]
  refine ⟨d, ha.modelSelected, hd, hdi, rfl, rfl, ?_⟩
  have hsel : ((s.store i).assign (s.store j)).selected = some d := ha.modelSelected
  obtain ⟨r, hr⟩ : ∃ r, ((s.store i).assign (s.store j)).applyDifference s.heap b = Res.ok r := by
    unfold DModel.applyDifference
    rw [hsel]
    dsimp only
    split <;> exact ⟨_, rfl⟩
  refine ⟨r.1, r.2, hr, ?_⟩
  have key := applyDifference_applied hsel hr
  exact ⟨by rw [key d, if_pos rfl], fun y hy => by
    have hne : y ≠ d := fun e => hdi (by rw [← e]; exact hy)
    rw [key y, if_neg hne]⟩

/-- **C54, defect.** A copy of the list of models takes the models with it when it is destroyed: the list then holds destroyed models,
already asking for the number of differences is undefined, and so is every step to another difference. -/
theorem C54_list_copy_defect {s : MLState} (h : InUse s) : ¬ Alive s.dropCopy (s.dropCopy.models.getD []) ∧
    s.dropCopy.differenceCount = Res.ub ∧ s.dropCopy.slotNextDifference = Res.ub ∧ s.dropCopy.slotPreviousDifference = Res.ub := by
  obtain ⟨_, _, ms, k, l, m, d, ho, ha⟩ := h.facts
  have hm := ho.mem ha.model
  have hd : m ∈ s.dropCopy.dead := by
    show m ∈ s.dead ++ s.models.getD []
    rw [ho.models]
    exact List.mem_append_right _ hm
  have hs : s.dropCopy.model s.dropCopy.selectedModel = Res.ub := by
    have : s.dropCopy.selectedModel = some m := ha.selectedModel
    rw [this]
    show (if m ∈ s.dropCopy.dead then Res.ub else Res.ok m) = Res.ub
    rw [if_pos hd]
  refine ⟨fun hA => ?_, ?_, ?_, ?_⟩
  · have : s.dropCopy.models = some ms := ho.models
    rw [this] at hA
    exact (hA m hm).1 hd
  · unfold MLState.differenceCount
    rw [hs]
    have : s.dropCopy.selectedModel = some m := ha.selectedModel
    rw [this]; rfl
  · unfold MLState.slotNextDifference
    rw [hs]; rfl
  · unfold MLState.slotPreviousDifference
    rw [hs]; rfl

/-! ### The hypotheses are met -/

/-- The two-file example is open, opened again, and the models of the first time are lost. -/
example : ∃ s s' : MLState, ∃ op m, Reachable s ∧ TakesOut op ∧ op.run s = Res.ok s' ∧ m ∈ s.models.getD [] := by
  obtain ⟨s1, h1⟩ := example_opens
  have r1 := h1.reachable exampleStart_reachable
  have u1 := h1.inUse exampleStart_reachable
  obtain ⟨_, _, ms, k, j, m, d, ho, ha⟩ := u1.facts
  obtain ⟨s', h'⟩ := empty_fails r1 ho.info
  refine ⟨s1, s', .parseAndOpenDiff emptyEnv [], m, r1, trivial, ?_, by rw [ho.models]; exact ho.mem ha.model⟩
  show (s1.parseAndOpenDiff emptyEnv [] >>= fun r => Res.ok r.1) = _
  rw [h']; rfl

/-- The example is opened without any comparison running. -/
example : ∃ ops s, OneAtATime ops s ∧ s.models.getD [] ≠ [] := by
  obtain ⟨s1, h1⟩ := example_opens
  have u1 := h1.inUse exampleStart_reachable
  obtain ⟨_, _, ms, k, j, m, d, ho, ha⟩ := u1.facts
  refine ⟨_, s1, .call (ops := [.setInfo (some {})]) (.call (ops := []) (.new none true ⟨fun _ => Diff.new 0 0 .Unchanged, 0⟩)
    (op := .setInfo (some {})) trivial rfl (fun h => absurd h id)) (op := .parseAndOpenDiff emptyEnv exampleDiff.render.flatten) trivial ?_ ?_,
    by rw [ho.models]; exact ho.ne⟩
  · have h1' : exampleStart.parseAndOpenDiff emptyEnv exampleDiff.render.flatten = Res.ok (s1, true) := h1
    show (exampleStart.parseAndOpenDiff emptyEnv exampleDiff.render.flatten >>= fun r => Res.ok r.1) = _
    rw [h1']; rfl
  · intro _ args input h
    cases h

/-- Two models are open. -/
theorem two_models_open : ∃ s i j, InUse s ∧ i ∈ s.models.getD [] ∧ j ∈ s.models.getD [] ∧ i ≠ j := by
  obtain ⟨s1, h1⟩ := example_opens
  have u1 := h1.inUse exampleStart_reachable
  have h1' : exampleStart.parseAndOpenDiff emptyEnv exampleDiff.render.flatten = Res.ok (s1, true) := h1
  unfold MLState.parseAndOpenDiff at h1'
  obtain ⟨⟨t, ok⟩, a, b⟩ := Res.bind_eq_ok.1 h1'
  obtain ⟨wt, _, _, r, hr, hh, hf, ht⟩ := parseDiffOutput_spec (exampleStart_reachable.wf.keep ((keep_clear _).trans (keep_emit _ _))) a
  dsimp only at b
  split at b
  · cases b
  · rename_i hok
    obtain ⟨u, q, b⟩ := Res.bind_eq_ok.1 b
    have b := congrArg Prod.fst (Res.ok.inj b)
    dsimp only at b
    obtain ⟨ms, m, d, hms, ho, ha, _⟩ := ht (by simpa using hok)
    obtain ⟨r', hr', _, hv⟩ := C26_unified exampleDiff exampleDiff_ok (by decide) emptyEnv.win emptyEnv.cmp
      (exampleStart.clear.emit (.status .Parsing)).heap
    have er : r' = r := Res.ok.inj (hr'.symm.trans hr)
    subst er
    rw [hms] at hv
    have hl := hv.2.length_eq
    rw [List.length_map, List.length_map] at hl
    have hl2 : (exampleDiff.files.filter UFile.changes).length = 2 := by decide
    have hm : s1.models = some (List.range' (exampleStart.clear.emit (.status .Parsing)).nextModel 2) := by
      have e1 : s1.models = u.models := by rw [← b]; rfl
      have e2 := quiet_updateActions q
      rw [e1, e2.models, ho.models, hl, hl2]
    refine ⟨s1, (exampleStart.clear.emit (.status .Parsing)).nextModel, (exampleStart.clear.emit (.status .Parsing)).nextModel + 1,
      u1, ?_, ?_, ?_⟩
    · rw [hm]; exact List.mem_range'_1.2 ⟨Nat.le_refl _, by omega⟩
    · rw [hm]; exact List.mem_range'_1.2 ⟨by omega, by omega⟩
    · omega

/-- One of them is selected, the other one is there to be assigned to. -/
example : ∃ s i j, InUse s ∧ i ∈ s.models.getD [] ∧ s.selectedModel = some j ∧ i ≠ j := by
  obtain ⟨s, i, j, hu, hi, hj, hij⟩ := two_models_open
  obtain ⟨_, _, ms, k, l, m, d, ho, ha⟩ := hu.facts
  by_cases h : i = m
  · exact ⟨s, j, m, hu, hj, ha.selectedModel, fun e => hij (h.trans e.symm)⟩
  · exact ⟨s, i, m, hu, hi, ha.selectedModel, h⟩

end KompareDiff2
