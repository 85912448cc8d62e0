import Verif.Proofs.Nested
import Verif.Props.Lifetime
/-
Property theorems C56: saving while the diff process finishes.
-/
namespace KompareDiff2
open Spec

/-! ### What the save reads -/

theorem beyond_same {s s1 : MLState} {m : Nat} (w : WF s) (hm : m < s.nextModel) (b : Beyond s.nextModel s.heap.next s s1) :
    s1.store m = s.store m ∧ (s1.store m).hasUnsavedChanges s1.heap = (s.store m).hasUnsavedChanges s.heap ∧
      (s1.store m).savedText s1.heap = (s.store m).savedText s.heap := by
  have e := b.store m hm
  refine ⟨e, ?_, ?_⟩
  · rw [e]
    unfold DModel.hasUnsavedChanges
    rw [Bool.eq_iff_iff, List.any_eq_true, List.any_eq_true]
    constructor
    · rintro ⟨d, hd, q⟩
      exact ⟨d, hd, by rw [← b.cells d (w.diffs m hm d hd)]; exact q⟩
    · rintro ⟨d, hd, q⟩
      exact ⟨d, hd, by rw [b.cells d (w.diffs m hm d hd)]; exact q⟩
  · rw [e]
    unfold DModel.savedText
    congr 1
    have : ∀ l : List Nat, (∀ i ∈ l, i < s.heap.next) →
        l.flatMap (fun i => (s1.heap.cell i).savedLines) = l.flatMap (fun i => (s.heap.cell i).savedLines) := by
      intro l
      induction l with
      | nil => intro _; rfl
      | cons i l ih =>
        intro hl
        rw [List.flatMap_cons, List.flatMap_cons, b.cells i (hl i (by simp)), ih (fun j hj => hl j (List.mem_cons_of_mem _ hj))]
    exact this _ (fun i hi => w.hunks m hm i hi)

theorem unread_same {i j : Info} (h : j.unread = i.unread) : j.mode = i.mode ∧ j.destination = i.destination ∧
    j.localDestination = i.localDestination :=
  ⟨show j.unread.mode = i.unread.mode by rw [h], show j.unread.destination = i.unread.destination by rw [h],
    show j.unread.localDestination = i.unread.localDestination by rw [h]⟩

theorem beyond_info {n k : Nat} {s s1 : MLState} {i : Info} (b : Beyond n k s s1) (hi : s.info = some i) :
    ∃ j, s1.info = some j ∧ j.mode = i.mode ∧ j.destination = i.destination ∧ j.localDestination = i.localDestination := by
  have h := b.info
  rw [hi] at h
  cases hj : s1.info with
  | none => rw [hj] at h; cases h
  | some j =>
    rw [hj] at h
    exact ⟨j, rfl, unread_same (Option.some.inj h)⟩

theorem bind_assoc_ {α β γ} (x : Res α) (f : α → Res β) (g : β → Res γ) : ((x >>= f) >>= g) = (x >>= fun a => f a >>= g) := by
  cases x <;> rfl

/-- The end of a save, after the events. -/
theorem saveCopied_eq {v : MLState.SaveEnv} {target text : Str} {t : MLState} {m : Nat} {ev : List Finish} {i : Info} (wt : WF t)
    (hm : m < t.nextModel) (hi : t.info = some i) (hl : ∀ s1, t.deliver ev = Res.ok s1 → m ∉ s1.dead)
    (hu : (t.store m).hasUnsavedChanges t.heap = true) (h1 : v.tempOpens = true) (h2 : v.writeOk = true) (h3 : v.closeOk = true)
    (h4 : ¬ (i.mode = .ComparingDirs ∧ v.statOk = false ∧ v.mkdirOk = false))
    (ht : target = if i.mode = .ComparingDirs then MLState.saveDir i (t.store m) ++ (t.store m).destinationFile else i.destination)
    (hx : text = (t.store m).savedText t.heap) :
    t.saveCopied v ev target text m = t.deliver ev >>= fun s1 => s1.saveDestination v m := by
  unfold MLState.saveCopied
  cases hd : t.deliver ev with
  | ub => rfl
  | hang => rfl
  | ok s1 =>
    have b := beyond_deliver hd
    obtain ⟨e1, e2, e3⟩ := beyond_same wt hm b
    obtain ⟨j, hj, j1, j2, j3⟩ := beyond_info b hi
    have hlive := hl s1 hd
    have hsd : MLState.saveDir j (s1.store m) = MLState.saveDir i (t.store m) := by
      unfold MLState.saveDir; rw [j2, j3, e1]
    rw [Res.bind_ok, Res.bind_ok]
    unfold MLState.saveDestination
    have hmod : ∀ x : MLState, x.dead = s1.dead → x.model (some m) = Res.ok m := by
      intro x q; unfold MLState.model; dsimp only; rw [q, if_neg hlive]
    rw [hmod s1 rfl, Res.bind_ok, e2, hu]
    simp only [h1, h2, h3, hj, Bool.true_eq_false, if_false]
    rw [j1, if_neg h4, hsd, j2, e3]
    rw [← hx]
    have hdest : (s1.store m).destinationFile = (t.store m).destinationFile := by rw [e1]
    rw [hdest, ← ht]
    cases v.copyOk with
    | true =>
      simp only [if_true]
      rw [hmod (s1.emit (.upload target text)) rfl, Res.bind_ok]
    | false => rfl

/-- The general form: as long as the model is alive after each of the events. -/
theorem nested_eq {s : MLState} {m : Nat} (w : WF s) (hm : m < s.nextModel) (hi : s.info ≠ none) (v : MLState.SaveEnv) (ev : SaveEvents)
    (hl : ∀ fs s1, fs <+: delivered v ev s m → s.deliver fs = Res.ok s1 → m ∉ s1.dead) :
    s.saveDestinationNested v ev m = s.deliver (delivered v ev s m) >>= fun s1 => s1.saveDestination v m := by
  have hlive : m ∉ s.dead := hl [] s (List.nil_prefix) rfl
  have hmod : ∀ x : MLState, m ∉ x.dead → x.model (some m) = Res.ok m := by
    intro x q; unfold MLState.model; dsimp only; rw [if_neg q]
  obtain ⟨i, hi⟩ : ∃ i, s.info = some i := by
    cases h : s.info with
    | none => exact absurd h hi
    | some i => exact ⟨i, rfl⟩
  by_cases hgo : (s.store m).hasUnsavedChanges s.heap = true ∧ v.tempOpens = true ∧ v.writeOk = true ∧ v.closeOk = true
  · obtain ⟨hu, h1, h2, h3⟩ := id hgo
    have step : s.saveDestinationNested v ev m =
        if i.mode = .ComparingDirs then
          (s.deliver ev.stat >>= fun t => if v.statOk = false then
              (t.deliver ev.mkdir >>= fun t => if v.mkdirOk = false then Res.ok (t.emit (.error .mkdir), false)
                else t.model (some m) >>= fun m' => t.saveCopied v ev.copy (MLState.saveDir i (s.store m) ++ (t.store m').destinationFile)
                  ((s.store m).savedText s.heap) m')
            else t.model (some m) >>= fun m' => t.saveCopied v ev.copy (MLState.saveDir i (s.store m) ++ (t.store m').destinationFile)
              ((s.store m).savedText s.heap) m')
        else s.deliver ev.stat >>= fun t => match t.info with
          | none => Res.ub
          | some j => t.saveCopied v ev.copy j.destination ((s.store m).savedText s.heap) m := by
      unfold MLState.saveDestinationNested
      rw [hmod s hlive, Res.bind_ok, hu]
      simp only [h1, h2, h3, hi, Bool.true_eq_false, if_false]
      rfl
    rw [step]
    unfold delivered at hl ⊢
    rw [if_pos hgo] at hl ⊢
    rw [hi] at hl ⊢
    simp only [Option.map_some, Option.some.injEq] at hl ⊢
    -- the copy, from a state after the first events
    have copy : ∀ (t : MLState) (es : List Finish), s.deliver es = Res.ok t → m ∉ t.dead →
        (∀ s1, t.deliver ev.copy = Res.ok s1 → m ∉ s1.dead) → ¬ (i.mode = .ComparingDirs ∧ v.statOk = false ∧ v.mkdirOk = false) →
        ∀ target, target = (if i.mode = .ComparingDirs then MLState.saveDir i (s.store m) ++ (s.store m).destinationFile else i.destination) →
        t.saveCopied v ev.copy target ((s.store m).savedText s.heap) m = t.deliver ev.copy >>= fun s1 => s1.saveDestination v m := by
      intro t es hes hlt hl2 hno target htar
      have b := beyond_deliver hes
      obtain ⟨e1, e2, e3⟩ := beyond_same w hm b
      obtain ⟨j, hj, j1, j2, j3⟩ := beyond_info b hi
      refine saveCopied_eq (dead_deliver w hes).1 (Nat.lt_of_lt_of_le hm (b.nextModel (Nat.le_refl _))) hj hl2 (e2.trans hu) h1 h2 h3
        (by rw [j1]; exact hno) ?_ e3.symm
      rw [htar, j1, e1]
      have : MLState.saveDir j (s.store m) = MLState.saveDir i (s.store m) := by unfold MLState.saveDir; rw [j2, j3]
      rw [this, j2]
    by_cases hdir : i.mode = .ComparingDirs
    · rw [if_pos hdir]
      by_cases hst : v.statOk = false
      · rw [if_pos ⟨hdir, hst⟩] at hl ⊢
        simp only [hst, if_true]
        by_cases hmk : v.mkdirOk = false
        · simp only [hmk, Bool.false_eq_true, if_false, if_true] at hl ⊢
          rw [deliver_append, bind_assoc_]
          cases hd : s.deliver ev.stat with
          | ub => rfl
          | hang => rfl
          | ok t =>
            simp only [Res.bind_ok]
            cases hd2 : t.deliver ev.mkdir with
            | ub => rfl
            | hang => rfl
            | ok t2 =>
              simp only [Res.bind_ok]
              have hfull : s.deliver (ev.stat ++ ev.mkdir) = Res.ok t2 := by rw [deliver_append, hd, Res.bind_ok, hd2]
              have b := beyond_deliver hfull
              obtain ⟨e1, e2, e3⟩ := beyond_same w hm b
              obtain ⟨j, hj, j1, j2, j3⟩ := beyond_info b hi
              have hlt := hl _ t2 (List.prefix_refl _) hfull
              unfold MLState.saveDestination
              rw [hmod t2 hlt, Res.bind_ok, e2, hu]
              simp only [h1, h2, h3, hj, Bool.true_eq_false, if_false]
              rw [if_pos ⟨by rw [j1]; exact hdir, hst, hmk⟩]
        · have hmk' : v.mkdirOk = true := by simpa using hmk
          simp only [hmk', Bool.true_eq_false, if_false, if_true] at hl ⊢
          rw [deliver_append, deliver_append, bind_assoc_, bind_assoc_]
          cases hd : s.deliver ev.stat with
          | ub => rfl
          | hang => rfl
          | ok t =>
            simp only [Res.bind_ok]
            cases hd2 : t.deliver ev.mkdir with
            | ub => rfl
            | hang => rfl
            | ok t2 =>
              simp only [Res.bind_ok]
              have hfull : s.deliver (ev.stat ++ ev.mkdir) = Res.ok t2 := by rw [deliver_append, hd, Res.bind_ok, hd2]
              have hlt := hl _ t2 (List.prefix_append _ _) hfull
              rw [hmod t2 hlt, Res.bind_ok]
              have est : t2.store m = s.store m := (beyond_deliver hfull).store m hm
              refine copy t2 _ hfull hlt ?_ (by rw [hmk']; simp) _ (by rw [if_pos hdir, est])
              intro s1 hs1
              exact hl _ s1 (List.prefix_refl _) (by rw [deliver_append, hfull, Res.bind_ok, hs1])
      · have hst' : v.statOk = true := by simpa using hst
        rw [if_neg (by rw [hst']; simp)] at hl ⊢
        simp only [hst', Bool.true_eq_false, if_false]
        rw [deliver_append, bind_assoc_]
        cases hd : s.deliver ev.stat with
        | ub => rfl
        | hang => rfl
        | ok t =>
          simp only [Res.bind_ok]
          have hlt := hl _ t (List.prefix_append _ _) hd
          rw [hmod t hlt, Res.bind_ok]
          have est : t.store m = s.store m := (beyond_deliver hd).store m hm
          refine copy t _ hd hlt ?_ (by rw [hst']; simp) _ (by rw [if_pos hdir, est])
          intro s1 hs1
          exact hl _ s1 (List.prefix_refl _) (by rw [deliver_append, hd, Res.bind_ok, hs1])
    · rw [if_neg hdir, if_neg (fun q => hdir q.1)]
      rw [if_neg (fun q => hdir q.1)] at hl
      rw [deliver_append, bind_assoc_]
      cases hd : s.deliver ev.stat with
      | ub => rfl
      | hang => rfl
      | ok t =>
        simp only [Res.bind_ok]
        have hlt := hl _ t (List.prefix_append _ _) hd
        obtain ⟨j, hj, j1, j2, j3⟩ := beyond_info (beyond_deliver hd) hi
        rw [hj]
        dsimp only
        refine copy t _ hd hlt ?_ (fun q => hdir q.1) _ (by rw [if_neg hdir, j2])
        intro s1 hs1
        exact hl _ s1 (List.prefix_refl _) (by rw [deliver_append, hd, Res.bind_ok, hs1])
  · unfold delivered
    rw [if_neg hgo]
    show _ = s.saveDestination v m
    unfold MLState.saveDestinationNested MLState.saveDestination
    rw [hmod s hlive, Res.bind_ok, Res.bind_ok]
    split
    · rfl
    · rename_i a1
      split
      · rfl
      · rename_i a2
        split
        · rfl
        · rename_i a3
          split
          · rfl
          · rename_i a4
            exact absurd ⟨by simpa using a1, by simpa using a2, by simpa using a3, by simpa using a4⟩ hgo

/-! ### C56 -/

theorem setSaved_mem (l : List Nat) (h : Heap) (d : Nat) (hd : d ∈ l) : ((h.modifyAll (fun x => x.setUnsaved false) l).cell d).unsaved = false := by
  induction l generalizing h with
  | nil => cases hd
  | cons i l ih =>
    by_cases hl : d ∈ l
    · exact ih _ hl
    · rcases List.mem_cons.1 hd with rfl | hd
      · show (((h.set d ((h.cell d).setUnsaved false)).modifyAll _ l).cell d).unsaved = false
        rw [modifyAll_frame _ _ _ _ hl]
        simp [Diff.setUnsaved]
      · exact absurd hd hl

theorem saveDestination_not {s : MLState} {v : MLState.SaveEnv} {m : Nat} (hm : m ∉ s.dead) (h : (s.store m).hasUnsavedChanges s.heap = false) :
    s.saveDestination v m = Res.ok (s, true) := by
  unfold MLState.saveDestination MLState.model
  dsimp only
  rw [if_neg hm, Res.bind_ok, if_pos h]

/-- **C56.** A save during which the process finishes, in whichever of its jobs, does the same as a save just after the process has finished:
unless the model was destroyed by that. -/
theorem C56_atomic {s s1 : MLState} (hs : Reachable s) {m : Nat} (hm : m < s.nextModel) (hi : s.info ≠ none) (v : MLState.SaveEnv) (ev : SaveEvents)
    (hd : s.deliver (delivered v ev s m) = Res.ok s1) (hl : m ∉ s1.dead) : s.saveDestinationNested v ev m = s1.saveDestination v m := by
  rw [nested_eq hs.wf hm hi v ev, hd, Res.bind_ok]
  intro fs t hfs ht hdead
  obtain ⟨gs, hgs⟩ := hfs
  rw [← hgs, deliver_append, ht, Res.bind_ok] at hd
  exact hl ((dead_deliver (dead_deliver hs.wf ht).1 hd).2 m hdead)

/-- **C56.** What is uploaded is the text the model had when the save began, however the process finishes meanwhile, and the destination is the
one of that moment; exactly the differences of this model are then saved, and the new models are left as they are. -/
theorem C56_upload {s s1 : MLState} (hs : Reachable s) {m : Nat} (hm : m < s.nextModel) {i : Info} (hi : s.info = some i) (ev : SaveEvents)
    (hu : (s.store m).hasUnsavedChanges s.heap = true) (hd : s.deliver (ev.stat ++ ev.copy) = Res.ok s1) (hl : m ∉ s1.dead) :
    ∃ s', s.saveDestinationNested {} ev m = Res.ok (s', true) ∧ s'.log = s1.log ++ [.upload
        (if i.mode = .ComparingDirs then MLState.saveDir i (s.store m) ++ (s.store m).destinationFile else i.destination)
        ((s.store m).savedText s.heap)] ∧
      (s'.store m).hasUnsavedChanges s'.heap = false ∧ s'.models = s1.models ∧ s'.store = s1.store ∧
      ∀ d, d ∉ (s.store m).differences → s'.heap.cell d = s1.heap.cell d := by
  have hdel : delivered {} ev s m = ev.stat ++ ev.copy := by
    unfold delivered
    rw [if_pos ⟨hu, rfl, rfl, rfl⟩, if_neg (fun q => by cases q.2)]
  rw [C56_atomic hs hm (by rw [hi]; simp) {} ev (by rw [hdel]; exact hd) hl]
  have b := beyond_deliver hd
  obtain ⟨e1, e2, e3⟩ := beyond_same hs.wf hm b
  obtain ⟨j, hj, j1, j2, j3⟩ := beyond_info b hi
  have hsd : MLState.saveDir j (s.store m) = MLState.saveDir i (s.store m) := by unfold MLState.saveDir; rw [j2, j3]
  refine ⟨{ s1.emit (.upload (if i.mode = .ComparingDirs then MLState.saveDir i (s.store m) ++ (s.store m).destinationFile else i.destination)
        ((s.store m).savedText s.heap)) with
      heap := s1.heap.modifyAll (fun d => d.setUnsaved false) (s.store m).differences }, ?_, rfl, ?_, rfl, rfl, ?_⟩
  · unfold MLState.saveDestination MLState.model
    dsimp only
    rw [if_neg hl, Res.bind_ok, e2, hu]
    simp only [hj, Bool.true_eq_false, if_false, false_and, and_false]
    rw [j1, j2, e3, e1, hsd, if_pos trivial]
    show Res.ok (({ s1.emit _ with heap := s1.heap.modifyAll _ (s1.store m).differences } : MLState), true) = _
    rw [e1]
  · show (s1.store m).hasUnsavedChanges _ = false
    rw [e1]
    unfold DModel.hasUnsavedChanges
    rw [List.any_eq_false]
    intro d hd2
    rw [setSaved_mem (s.store m).differences s1.heap d hd2]
    simp
  · intro d hd2
    exact modifyAll_frame _ _ _ _ hd2

/-- The list is empty while a comparison is running, and nothing was destroyed. -/
structure Idle (s : MLState) : Prop where
  wf : WF s
  dead : s.dead = []
  empty : (∃ args input, s.process = some (.compare args input)) → s.models.getD [] = []

theorem written_after {c : Bool} {r : ProcessResult} {s s' : MLState} (h : s.slotWriteDiffOutput c r = Res.ok s') :
    s'.process = none ∧ s'.models = s.models ∧ s'.info = s.info := by
  simp only [MLState.slotWriteDiffOutput] at h
  split at h
  · cases h
  · cases h
    refine ⟨rfl, ?_, ?_⟩
    · show (if _ then _ else _ : MLState).models = _
      split
      · split <;> rfl
      · rfl
    · show (if _ then _ else _ : MLState).info = _
      split
      · split <;> rfl
      · rfl

theorem Idle.finished {e : Env} {c : Bool} {r : ProcessResult} {s s' : MLState} (i : Idle s) (h : s.processFinished e c r = Res.ok s') :
    Idle s' ∧ s'.process = none := by
  have w := (dead_processFinished i.wf h).1
  unfold MLState.processFinished at h
  split at h
  · rename_i hp
    cases h; exact ⟨i, hp⟩
  · rename_i a b hp
    have hpn : s'.process = none := C52_pending (op := .diffFinished e r) h
    refine ⟨⟨w, ?_, fun ⟨a, b, q⟩ => by rw [hpn] at q; cases q⟩, hpn⟩
    rcases reads_finished i.wf h with ⟨_, k⟩ | ⟨_, k⟩
    · exact k.dead.trans i.dead
    · obtain ⟨t, _, he, h1, _⟩ := reads_dead k
      have he : t.models = s.models := he
      rw [h1, he, i.empty ⟨_, _, hp⟩, i.dead]; rfl
  · have hpn := (written_after h).1
    exact ⟨⟨w, (keep_written h).dead.trans i.dead, fun ⟨a, b, q⟩ => by rw [hpn] at q; cases q⟩, hpn⟩

theorem Idle.deliver {fs : List Finish} : ∀ {s s' : MLState}, Idle s → s.deliver fs = Res.ok s' → Idle s' := by
  induction fs with
  | nil => intro s s' i h; cases h; exact i
  | cons f fs ih =>
    intro s s' i h
    obtain ⟨t, h1, h2⟩ := Res.bind_eq_ok.1 h
    exact ih (i.finished h1).1 h2

theorem oneAtATime_idle {ops : List MLOp} {s : MLState} (h : OneAtATime ops s) : Idle s := by
  obtain ⟨hr, hd, _, hp⟩ := oneAtATime_inv h
  exact ⟨hr.wf, hd, hp⟩

/-- **C56.** As long as no diff is opened while a comparison is running, every save of every model that was ever shown is as good as a save
after the process has finished: also if the process finishes during the save, and whatever it did. -/
theorem C56_one_at_a_time {ops : List MLOp} {s : MLState} (h : OneAtATime ops s) {m : Nat} (hm : m < s.nextModel) (hi : s.info ≠ none)
    (v : MLState.SaveEnv) (ev : SaveEvents) :
    s.saveDestinationNested v ev m = s.deliver (delivered v ev s m) >>= fun s1 => s1.saveDestination v m :=
  nested_eq (oneAtATime_idle h).wf hm hi v ev (fun fs s1 _ hd => by rw [((oneAtATime_idle h).deliver hd).dead]; simp)

/-- What the loop of `saveAll` keeps when no comparison is running. -/
structure Calm (l : List Nat) (s : MLState) : Prop where
  idle : Idle s
  calm : ∀ args input, s.process ≠ some (.compare args input)
  models : s.models = some l
  info : s.info ≠ none

theorem Calm.deliver {l : List Nat} {fs : List Finish} : ∀ {s s' : MLState}, Calm l s → s.deliver fs = Res.ok s' → Calm l s' := by
  induction fs with
  | nil => intro s s' i h; cases h; exact i
  | cons f fs ih =>
    intro s s' i h
    obtain ⟨t, h1, h2⟩ := Res.bind_eq_ok.1 h
    refine ih ?_ h2
    obtain ⟨i1, p1⟩ := i.idle.finished h1
    have : t.models = s.models ∧ t.info = s.info := by
      unfold MLState.processFinished at h1
      split at h1
      · cases h1; exact ⟨rfl, rfl⟩
      · rename_i a b hp; exact absurd hp (i.calm a b)
      · exact (written_after h1).2
    exact ⟨i1, fun a b q => (by rw [p1] at q; cases q), this.1.trans i.models, by rw [this.2]; exact i.info⟩

theorem saveDestination_other {s : MLState} {v : MLState.SaveEnv} {m : Nat} {r : MLState × Bool} (h : s.saveDestination v m = Res.ok r) :
    r.1.models = s.models ∧ r.1.process = s.process ∧ r.1.info = s.info := by
  unfold MLState.saveDestination at h
  obtain ⟨m, _, h⟩ := Res.bind_eq_ok.1 h
  split at h
  · cases h; exact ⟨rfl, rfl, rfl⟩
  split at h
  · cases h; exact ⟨rfl, rfl, rfl⟩
  split at h
  · cases h; exact ⟨rfl, rfl, rfl⟩
  split at h
  · cases h; exact ⟨rfl, rfl, rfl⟩
  split at h
  · cases h
  split at h
  · cases h; exact ⟨rfl, rfl, rfl⟩
  dsimp only at h
  split at h
  · cases h; exact ⟨rfl, rfl, rfl⟩
  · cases h; exact ⟨rfl, rfl, rfl⟩

theorem saveLoop_between {v : Nat → MLState.SaveEnv} {ev : Nat → SaveEvents} {all : List Nat} (l : List Nat) : ∀ {s : MLState}, Calm all s →
    (∀ m ∈ l, m < s.nextModel) → MLState.saveLoopNested v ev all l s = saveLoopBetween v ev l s := by
  induction l with
  | nil => intro s c _; unfold MLState.saveLoopNested saveLoopBetween; rw [if_pos c.models]
  | cons m ms ih =>
    intro s c hl
    unfold MLState.saveLoopNested saveLoopBetween
    rw [if_pos c.models, nested_eq c.idle.wf (hl m (by simp)) c.info (v m) (ev m)
      (fun fs s1 _ hd => by rw [(c.idle.deliver hd).dead]; simp), bind_assoc_]
    cases hd : s.deliver (delivered (v m) (ev m) s m) with
    | ub => rfl
    | hang => rfl
    | ok t =>
      simp only [Res.bind_ok]
      have ct := c.deliver hd
      cases hsv : t.saveDestination (v m) m with
      | ub => rfl
      | hang => rfl
      | ok r =>
        simp only [Res.bind_ok]
        split
        · rename_i a; rfl
        · have k := keep_saveDestination hsv
          obtain ⟨q1, q2, q3⟩ := saveDestination_other hsv
          refine ih ⟨⟨ct.idle.wf.keep k, k.dead.trans ct.idle.dead, fun ⟨a, b, q⟩ => ?_⟩, fun a b q => ?_, q1.trans ct.models,
            by rw [q3]; exact ct.info⟩ ?_
          · rw [q2] at q; exact absurd q (ct.calm a b)
          · rw [q2] at q; exact absurd q (ct.calm a b)
          · intro x hx
            rw [k.nextModel]
            exact Nat.lt_of_lt_of_le (hl x (List.mem_cons_of_mem _ hx)) ((beyond_deliver hd).nextModel (Nat.le_refl _))

/-- **C56.** The same holds for saving all models: as long as no diff is opened while a comparison is running, the process may finish during
any of the saves, and the result is that of finishing between two of them. -/
theorem C56_save_all {ops : List MLOp} {s : MLState} (h : OneAtATime ops s) (hi : s.info ≠ none) (v : Nat → MLState.SaveEnv)
    (ev : Nat → SaveEvents) : s.saveAllNested v ev =
      if s.models.getD [] = [] then Res.ok (s, false) else saveLoopBetween v ev (s.models.getD []) s := by
  have i := oneAtATime_idle h
  unfold MLState.saveAllNested
  cases hm : s.models with
  | none => rfl
  | some l =>
    cases l with
    | nil => rfl
    | cons m ms =>
      rw [if_neg (by simp)]
      refine saveLoop_between (m :: ms) ⟨i, fun a b q => ?_, hm, hi⟩ (fun x hx => i.wf.models x (by rw [hm]; exact hx))
      have := i.empty ⟨a, b, q⟩
      rw [hm] at this
      cases this

/-- If the model was destroyed by the time of the last signal, a save that comes to its end is undefined. -/
theorem nested_ub {s s1 : MLState} {m : Nat} (w : WF s) (ev : SaveEvents) (hu : (s.store m).hasUnsavedChanges s.heap = true) (hi : s.info ≠ none)
    (hd : s.deliver (ev.stat ++ ev.copy) = Res.ok s1) (hl : m ∈ s1.dead) : s.saveDestinationNested {} ev m = Res.ub := by
  obtain ⟨i, hi⟩ : ∃ i, s.info = some i := by
    cases h : s.info with
    | none => exact absurd h hi
    | some i => exact ⟨i, rfl⟩
  rw [deliver_append] at hd
  obtain ⟨t, ht, hd⟩ := Res.bind_eq_ok.1 hd
  have hcop : ∀ target text, t.saveCopied {} ev.copy target text m = Res.ub := by
    intro target text
    unfold MLState.saveCopied
    rw [hd, Res.bind_ok]
    show ((s1.emit (.upload target text)).model (some m) >>= _) = Res.ub
    unfold MLState.model
    dsimp only
    rw [if_pos (show m ∈ (s1.emit (.upload target text)).dead from hl)]
    rfl
  have hmod : ∀ x : MLState, x.model (some m) = Res.ub ∨ x.model (some m) = Res.ok m := by
    intro x; unfold MLState.model; dsimp only; split
    · exact .inl rfl
    · exact .inr rfl
  unfold MLState.saveDestinationNested
  rcases hmod s with q | q
  · rw [q]; rfl
  · rw [q, Res.bind_ok, hu, hi]
    simp only [Bool.true_eq_false, if_false]
    split
    · rw [ht, Res.bind_ok]
      rcases hmod t with q | q
      · rw [q]; rfl
      · rw [q, Res.bind_ok]; exact hcop _ _
    · rw [ht, Res.bind_ok]
      obtain ⟨j, hj, _⟩ := beyond_info (beyond_deliver ht) hi
      rw [hj]
      exact hcop _ _

/-- **C56, defect.** If a diff is opened while a comparison is running, and the comparison then ends with differences during a save of one of
the models shown, the save is undefined: the model is destroyed before it is marked as saved. -/
theorem C56_defect {s s1 : MLState} (h : Reachable s) (hi : s.info ≠ none) {args : List Str} {input : Option Str}
    (hp : s.process = some (.compare args input)) {m : Nat} (hm : m ∈ s.models.getD []) (hu : (s.store m).hasUnsavedChanges s.heap = true)
    {f : Finish} (hf : f.result.exitStatus = .NormalExit ∧ f.result.exitCode ≠ 0)
    (hd : s.processFinished f.env f.copyOk f.result = Res.ok s1) :
    s.saveDestinationNested {} { stat := [f] } m = Res.ub ∧ s.saveDestinationNested {} { copy := [f] } m = Res.ub := by
  have hfin : s.slotDiffProcessFinished f.env f.result = Res.ok s1 := by
    unfold MLState.processFinished at hd; rw [hp] at hd; exact hd
  have hdead : m ∈ s1.dead := by
    have := C54_destroyed (op := .diffFinished f.env f.result) h hfin
    unfold DestroyedBy at this
    dsimp only at this
    rw [if_pos hf] at this
    rw [this.1]
    exact List.mem_append_right _ hm
  have hdel : s.deliver [f] = Res.ok s1 := by
    show (s.processFinished f.env f.copyOk f.result >>= fun t => t.deliver []) = _
    rw [hd]; rfl
  exact ⟨nested_ub h.wf { stat := [f] } hu hi hdel hdead, nested_ub h.wf { copy := [f] } hu hi hdel hdead⟩

/-- **C56.** The slot for saving saves the model that is selected when it begins, though another one may be selected when the save ends. -/
theorem C56_slot {ops : List MLOp} {s : MLState} (h : OneAtATime ops s) {m : Nat} (hsel : s.selectedModel = some m) (hm : m < s.nextModel)
    (hi : s.info ≠ none) (v : MLState.SaveEnv) (ev : SaveEvents) {s1 : MLState} {r : MLState × Bool}
    (hd : s.deliver (delivered v ev s m) = Res.ok s1) (hr : s1.saveDestination v m = Res.ok r) :
    ∃ s', s.slotSaveDestinationNested v ev = Res.ok s' ∧ s'.heap = r.1.heap ∧ s'.log = r.1.log ++ [.updateActions] ∧
      s'.selectedModel = s1.selectedModel ∧ s'.models = s1.models ∧ (r.1.canSave = true → s'.actions.save = false) := by
  have hsv : r.1.selectedModel = s1.selectedModel ∧ r.1.models = s1.models := by
    unfold MLState.saveDestination at hr
    obtain ⟨m, _, h⟩ := Res.bind_eq_ok.1 hr
    split at h
    · cases h; exact ⟨rfl, rfl⟩
    split at h
    · cases h; exact ⟨rfl, rfl⟩
    split at h
    · cases h; exact ⟨rfl, rfl⟩
    split at h
    · cases h; exact ⟨rfl, rfl⟩
    split at h
    · cases h
    split at h
    · cases h; exact ⟨rfl, rfl⟩
    dsimp only at h
    split at h
    · cases h; exact ⟨rfl, rfl⟩
    · cases h; exact ⟨rfl, rfl⟩
  unfold MLState.slotSaveDestinationNested
  rw [hsel]
  dsimp only
  rw [C56_one_at_a_time h hm hi v ev, hd, Res.bind_ok, hr, Res.bind_ok]
  refine ⟨_, rfl, ?_⟩
  by_cases hc : r.1.canSave = true
  · rw [if_pos hc]
    exact ⟨rfl, rfl, hsv.1, hsv.2, fun _ => rfl⟩
  · rw [if_neg hc]
    exact ⟨rfl, rfl, hsv.1, hsv.2, fun q => absurd q hc⟩

/-! ### The hypotheses are met -/

/-- Applying the selected difference the other way round toggles its mark as unsaved. -/
theorem apply_unsaved {m m' : DModel} {h h' : Heap} {d : Nat} (hs : m.selected = some d) (hd : d ∈ m.differences)
    (hr : m.applyDifference h (!(h.cell d).applied) = Res.ok (m', h')) : (h'.cell d).unsaved = !(h.cell d).unsaved := by
  unfold DModel.applyDifference at hr
  rw [hs] at hr
  dsimp only at hr
  rw [if_neg (by cases (h.cell d).applied <;> simp)] at hr
  cases hr
  have hset : ((h.set d ((h.cell d).apply (!(h.cell d).applied)).1).cell d).unsaved = !(h.cell d).unsaved := by
    unfold Diff.apply
    rw [if_neg (by cases (h.cell d).applied <;> simp)]
    simp
  unfold DModel.applyDirect
  dsimp only
  split
  · unfold DModel.slotDifferenceApplied
    have := Heap.modifyAll_pres (fun a c => c.unsaved = a.unsaved) (fun _ => rfl) (fun a b c h1 h2 => h2.trans h1)
      (fun c => if c.destLineNo > (h.set d ((h.cell d).apply (!(h.cell d).applied)).1 |>.cell d).destLineNo then
        { c with tracking := c.tracking + ((h.set d ((h.cell d).apply (!(h.cell d).applied)).1).cell d).delta } else c)
      (fun c => by split <;> rfl) m.differences (h.set d ((h.cell d).apply (!(h.cell d).applied)).1) d
    exact this.trans hset
  · exact hset

/-- In every state in use there is something unsaved, or there is after one more step. -/
theorem some_unsaved {s : MLState} (h : InUse s) : ∃ s' m, InUse s' ∧ m ∈ s'.models.getD [] ∧ (s'.store m).hasUnsavedChanges s'.heap = true ∧
    s'.info ≠ none ∧ (s' = s ∨ ∃ b, (UserOp.applySlot b).run s = Res.ok s') := by
  obtain ⟨w, _, ms, k, j, m, d, ho, ha⟩ := h.facts
  have hm := ho.mem ha.model
  have hd : d ∈ (s.store m).differences := List.mem_of_getElem? ha.diff
  cases hu : (s.heap.cell d).unsaved with
  | true => exact ⟨s, m, h, by rw [ho.models]; exact hm, List.any_eq_true.2 ⟨d, hd, hu⟩, ho.info, .inl rfl⟩
  | false =>
    obtain ⟨s', g, _, hrun, _, _⟩ := slotApplyDifference_ok ho ha (!(s.heap.cell d).applied)
    have h' : InUse s' := h.step (op := .applySlot (!(s.heap.cell d).applied)) trivial g.ok
    refine ⟨s', m, h', by rw [g.opened.models]; exact hm, List.any_eq_true.2 ⟨d, ?_, ?_⟩, g.opened.info, .inr ⟨_, g.ok⟩⟩
    · rw [g.frame.differences]; exact hd
    · have := apply_unsaved ha.modelSelected hd hrun
      rw [hu] at this; exact this

theorem Reachable.step {s s' : MLState} {op : MLOp} (hr : Reachable s) (hrun : op.run s = Res.ok s') : Reachable s' := by
  obtain ⟨st, rw', hp, l, hl⟩ := hr
  refine ⟨st, rw', hp, l ++ [op], ?_⟩
  have app : ∀ (l : List MLOp) (a : MLState), runSession l a = Res.ok s → runSession (l ++ [op]) a = Res.ok s' := by
    intro l
    induction l with
    | nil => intro a ha; cases ha; show (op.run s >>= fun s => runSession [] s) = _; rw [hrun]; rfl
    | cons o l ih =>
      intro a ha
      obtain ⟨b, hb, ha⟩ := Res.bind_eq_ok.1 ha
      show (o.run a >>= fun s => runSession (l ++ [op]) s) = _
      rw [hb]; exact ih b ha
  exact app l _ hl

/-- A list with settings and operands. -/
def nestStart : MLState := (MLState.init (some {}) true ⟨fun _ => Diff.new 0 0 .Unchanged, 0⟩).setInfo (some exampleOperands)

theorem nestStart_history : OneAtATime [.setInfo (some exampleOperands)] nestStart :=
  .call (ops := []) (.new (some {}) true ⟨fun _ => Diff.new 0 0 .Unchanged, 0⟩) trivial rfl (fun h => absurd h id)

/-- The end of the comparison. -/
def nestFinish : Finish := ⟨emptyEnv, true, ⟨1, .NormalExit, exampleDiff.render.flatten, []⟩⟩

theorem nestFinish_ok {s : MLState} (hs : Reachable s) (hi : s.info ≠ none) (hp : ∃ a b, s.process = some (.compare a b)) :
    ∃ s1, s.processFinished nestFinish.env nestFinish.copyOk nestFinish.result = Res.ok s1 := by
  obtain ⟨a, b, hp⟩ := hp
  obtain ⟨r, h, _⟩ := C26_unified exampleDiff exampleDiff_ok (by decide) false emptyEnv.cmp s.heap
  obtain ⟨s1, h1⟩ := C46_total (e := emptyEnv) (r := nestFinish.result) hs hi h
  refine ⟨s1, ?_⟩
  unfold MLState.processFinished
  rw [hp]
  exact h1

/-- A comparison is started, a diff is opened and changed; the comparison ends while it is saved. -/
example : ∃ s s1 m, Reachable s ∧ s.info ≠ none ∧ (∃ a b, s.process = some (.compare a b)) ∧ m ∈ s.models.getD [] ∧
    (s.store m).hasUnsavedChanges s.heap = true ∧ s.processFinished nestFinish.env nestFinish.copyOk nestFinish.result = Res.ok s1 := by
  have r0 := (oneAtATime_inv nestStart_history).1
  obtain ⟨s1, h1⟩ : ∃ s1, nestStart.refresh emptyEnv = Res.ok s1 := ⟨_, rfl⟩
  have hp1 : ∃ a b, s1.process = some (.compare a b) := by cases h1; exact ⟨_, _, rfl⟩
  have hi1 : s1.info ≠ none := by cases h1; simp [nestStart, MLState.setInfo, MLState.emit, MLState.clear]
  have r1 : Reachable s1 := r0.step (op := .refresh emptyEnv) h1
  obtain ⟨s2, h2⟩ := opens_unified r1 hi1 emptyEnv exampleDiff exampleDiff_ok (by decide) rfl
  have hp2 : s2.process = s1.process := (leaves_parseAndOpen emptyEnv s1 _ _ h2).process
  obtain ⟨s3, m, h3, hm, hu, hi3, hor⟩ := some_unsaved (h2.inUse r1)
  have r2 := h2.reachable r1
  have r3 : Reachable s3 ∧ s3.process = s2.process := by
    rcases hor with rfl | ⟨b, hb⟩
    · exact ⟨r2, rfl⟩
    · exact ⟨r2.step (op := .user (.applySlot b)) hb, (leaves_user (.applySlot b) s2 _ hb).process⟩
  have hp3 : ∃ a b, s3.process = some (.compare a b) := by rw [r3.2, hp2]; exact hp1
  obtain ⟨s4, h4⟩ := nestFinish_ok r3.1 hi3 hp3
  exact ⟨s3, s4, m, r3.1, hi3, hp3, hm, hu, h4⟩

/-- Reading a diff leaves the settings alone. -/
theorem settings_parseAndOpen {e : Env} {s s' : MLState} {text : Str} {b : Bool} (h : s.parseAndOpenDiff e text = Res.ok (s', b)) :
    s'.settings = s.settings := by
  have hup : ∀ {a c : MLState}, a.updateActions = Res.ok c → c.settings = a.settings := by
    intro a c h
    unfold MLState.updateActions at h
    split at h
    · simp only [Res.bind_eq_ok] at h
      obtain ⟨_, _, _, _, _, _, _, _, h⟩ := h
      cases h; rfl
    · cases h; rfl
  have hpd : ∀ {a c : MLState} {t : Str} {b : Bool}, a.parseDiffOutput e t = Res.ok (c, b) → c.settings = a.settings := by
    intro a c t b h
    unfold MLState.parseDiffOutput at h
    obtain ⟨r, _, h⟩ := Res.bind_eq_ok.1 h
    obtain ⟨cl, _, h⟩ := Res.bind_eq_ok.1 h
    have h0 : ((a.emit (.diffString t)).resetModels r).settings = a.settings := by
      unfold MLState.resetModels; cases r.models <;> rfl
    dsimp only at h
    generalize (a.emit (.diffString t)).resetModels r = u at h h0
    have fin : ∀ u : MLState, (u.firstModel >>= fun s => s.selectFirst >>= fun s => s.differenceCount >>= fun dc =>
            Res.ok (s.emit (.statusBar 0 0 s.modelCount dc 0), true)) = Res.ok (c, b) → c.settings = u.settings := by
      intro u h
      obtain ⟨u1, q1, h⟩ := Res.bind_eq_ok.1 h
      obtain ⟨u2, q2, h⟩ := Res.bind_eq_ok.1 h
      obtain ⟨dc, _, h⟩ := Res.bind_eq_ok.1 h
      cases h
      obtain ⟨_, _, rfl⟩ := firstModel_same q1
      obtain ⟨_, _, q2⟩ := Res.bind_eq_ok.1 q2
      obtain ⟨_, _, q2⟩ := Res.bind_eq_ok.1 q2
      cases q2; rfl
    split at h
    · cases h
    · split at h
      · cases h; exact h0
      · split at h
        · exact (fin _ h).trans h0
        · exact (fin _ h).trans h0
  unfold MLState.parseAndOpenDiff at h
  dsimp only at h
  obtain ⟨⟨t, ok⟩, h1, h⟩ := Res.bind_eq_ok.1 h
  have e1 := hpd h1
  dsimp only at h
  split at h
  · cases h; exact e1
  · obtain ⟨u, h2, h⟩ := Res.bind_eq_ok.1 h
    cases h
    exact (hup h2).trans e1

/-- A diff is opened and changed, then the comparison is started again; it ends while the model that was shown before is saved. -/
example : ∃ ops s s1 m, OneAtATime ops s ∧ m < s.nextModel ∧ s.info ≠ none ∧ (∃ a b, s.process = some (.compare a b)) ∧
    (s.store m).hasUnsavedChanges s.heap = true ∧ delivered {} { stat := [nestFinish] } s m = [nestFinish] ∧
    s.deliver [nestFinish] = Res.ok s1 ∧ m ∉ s1.dead := by
  have r0 := (oneAtATime_inv nestStart_history).1
  obtain ⟨s1, h1⟩ := opens_unified r0 (by simp [nestStart, MLState.setInfo]) emptyEnv exampleDiff exampleDiff_ok (by decide) rfl
  have hrun1 : (MLOp.parseAndOpenDiff emptyEnv exampleDiff.render.flatten).run nestStart = Res.ok s1 := by
    show (nestStart.parseAndOpenDiff emptyEnv exampleDiff.render.flatten >>= fun r => Res.ok r.1) = _
    rw [show nestStart.parseAndOpenDiff emptyEnv exampleDiff.render.flatten = Res.ok (s1, true) from h1]; rfl
  have o1 := nestStart_history.call (op := .parseAndOpenDiff emptyEnv exampleDiff.render.flatten) trivial hrun1
    (fun _ a b q => by cases q)
  obtain ⟨s2, m, h2, hm, hu, hi2, hor⟩ := some_unsaved (h1.inUse r0)
  obtain ⟨ops2, o2⟩ : ∃ ops, OneAtATime ops s2 := by
    rcases hor with rfl | ⟨b, hb⟩
    · exact ⟨_, o1⟩
    · exact ⟨_, o1.call (op := .user (.applySlot b)) trivial hb (fun q => absurd q id)⟩
  have hset : s2.settings = some {} := by
    have q1 : s1.settings = some {} := (settings_parseAndOpen h1).trans rfl
    rcases hor with rfl | ⟨b, hb⟩
    · exact q1
    · refine Eq.trans ?_ q1
      have hb : s1.slotApplyDifference b = Res.ok s2 := hb
      unfold MLState.slotApplyDifference at hb
      obtain ⟨_, _, hb⟩ := Res.bind_eq_ok.1 hb
      obtain ⟨_, _, hb⟩ := Res.bind_eq_ok.1 hb
      obtain ⟨_, _, hb⟩ := Res.bind_eq_ok.1 hb
      cases hb; rfl
  obtain ⟨i, hi⟩ := Option.ne_none_iff_exists'.1 hi2
  obtain ⟨s3, h3, e1, e2, e3, e4, e5⟩ : ∃ s3, s2.refresh emptyEnv = Res.ok s3 ∧ s3.store = s2.store ∧ s3.heap = s2.heap ∧ s3.nextModel = s2.nextModel ∧
      s3.info = s2.info ∧ ∃ a b, s3.process = some (.compare a b) := by
    unfold MLState.refresh
    rw [hi]
    dsimp only
    unfold MLState.compareMode
    dsimp only
    rw [show s2.clear.info = some i from hi, show s2.clear.settings = some {} from hset]
    refine ⟨_, rfl, rfl, rfl, rfl, ?_, _, _, rfl⟩
    rfl
  have o3 := o2.call (op := .refresh emptyEnv) trivial h3 (fun q => absurd q id)
  have r3 := (oneAtATime_inv o3).1
  have hm3 : m < s3.nextModel := by rw [e3]; exact h2.facts.1.models m hm
  have hu3 : (s3.store m).hasUnsavedChanges s3.heap = true := by rw [e1, e2]; exact hu
  have hi3 : s3.info ≠ none := by rw [e4]; exact hi2
  obtain ⟨s4, h4⟩ := nestFinish_ok r3 hi3 e5
  have hdel : s3.deliver [nestFinish] = Res.ok s4 := by
    show (s3.processFinished nestFinish.env nestFinish.copyOk nestFinish.result >>= fun t => t.deliver []) = _
    rw [h4]; rfl
  refine ⟨_, s3, s4, m, o3, hm3, hi3, e5, hu3, ?_, hdel, ?_⟩
  · unfold delivered
    rw [if_pos ⟨hu3, rfl, rfl, rfl⟩, if_neg (fun q => by cases q.2)]
    rfl
  · rw [((oneAtATime_idle o3).deliver hdel).dead]; simp

end KompareDiff2
