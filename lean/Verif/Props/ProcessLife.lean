import Verif.Spec.ProcessLife
import Verif.Props.Process
/-
Property theorem C85: a diff process that is replaced while its program is running.
-/
namespace KompareDiff2
open Spec

/-- Launching when nothing is running. -/
theorem launch_idle {w : LifeEnv} {e : Env} {s : LifeState} {p : ProcessUse} (h : ¬ Running s) :
    s.launch w e p = Res.ok ⟨{ s.ml with process := some p }.emit (.status .RunningDiff), if w.starts = true then .started else .failed⟩ := by
  unfold LifeState.launch LifeState.assign
  cases hp : s.ml.process with
  | none => rfl
  | some old =>
    have hl : s.life ≠ .started := fun hl => h ⟨by rw [hp]; simp, hl⟩
    simp only [if_neg hl, Res.bind_ok]

/-- Launching while something is running. -/
theorem launch_running {w : LifeEnv} {e : Env} {s : LifeState} {p : ProcessUse} (h : Running s) :
    (∀ t, s.launch w e p ≠ Res.ok t) ∧ (w.survives = false → s.launch w e p = Res.ub) := by
  unfold LifeState.launch LifeState.assign
  cases hp : s.ml.process with
  | none => exact absurd hp h.1
  | some old =>
    simp only [if_pos h.2]
    refine ⟨?_, fun hw => ?_⟩
    · intro t ht
      obtain ⟨u, hd, ht⟩ := Res.bind_eq_ok.1 ht
      have hu : u.process = none := by
        unfold LifeState.dying at hd
        split at hd
        · cases hd
        · cases old with
          | compare a b => exact C52_pending (op := .diffFinished e _) hd
          | saveDiff d a b => exact C52_pending (op := .diffWritten w.copyOk _) hd
      rw [hu] at ht
      cases ht
    · simp [LifeState.dying, hw]

/-- What starting a program does to the state of the list, and whether the program is there afterwards. -/
def lifted (w : LifeEnv) (r : Res MLState) : Res LifeState := do
  let m ← r
  Res.ok ⟨m, if w.starts = true then .started else .failed⟩

theorem compareMode_idle {w : LifeEnv} {e : Env} {s : LifeState} {mode : Mode} (h : ¬ Running s) :
    s.compareMode w e mode = lifted w (do
      let t ← s.ml.compareMode e mode
      Res.ok t.1) := by
  unfold LifeState.compareMode MLState.compareMode
  dsimp only
  cases hi : s.ml.clear.info with
  | none => rfl
  | some i =>
    dsimp only
    cases processArgs (e.relative []) s.ml.clear.settings .Custom mode i.localSource i.localDestination with
    | ub => rfl
    | hang => rfl
    | ok p =>
      simp only [Res.bind_ok]
      rw [launch_idle (s := ⟨s.ml.clear, s.life⟩) h, ← hi]
      rfl

theorem compareMode_running {w : LifeEnv} {e : Env} {s : LifeState} {mode : Mode} (h : Running s) :
    (∀ t, s.compareMode w e mode ≠ Res.ok t) ∧ (w.survives = false → (∃ t, s.ml.compareMode e mode = Res.ok t) → s.compareMode w e mode = Res.ub) := by
  unfold LifeState.compareMode MLState.compareMode
  dsimp only
  cases hi : s.ml.clear.info with
  | none => exact ⟨fun _ h => (by cases h), fun _ _ => rfl⟩
  | some i =>
    dsimp only
    cases processArgs (e.relative []) s.ml.clear.settings .Custom mode i.localSource i.localDestination with
    | ub => exact ⟨fun _ h => (by cases h), fun _ _ => rfl⟩
    | hang => exact ⟨fun _ h => (by cases h), fun _ h => (by obtain ⟨_, h⟩ := h; cases h)⟩
    | ok p =>
      simp only [Res.bind_ok]
      have := launch_running (w := w) (e := e) (s := ⟨s.ml.clear, s.life⟩) (p := .compare p.1 p.2) h
      exact ⟨this.1, fun hw _ => this.2 hw⟩

theorem openAndDiff_life (e : Env) (s : LifeState) (i : Info) : s.openAndDiff e i = (do
    let m ← (do let r ← ({ s.ml with info := some i } : MLState).openAndDiff e; Res.ok r.1)
    Res.ok ⟨m, s.life⟩) := by
  unfold LifeState.openAndDiff
  cases ({ s.ml with info := some i } : MLState).openAndDiff e <;> rfl

/-- **C85.** A call that starts no process is not affected by the life of a process: whether a diff program is running or could not be started, it does what it does
in the simple model, and what is known of the program stays. -/
theorem C85_others {w : LifeEnv} {s : LifeState} {op : MLOp} (h : ¬ Starts s.ml op) : s.run w op = (do
    let m ← op.run s.ml
    Res.ok ⟨m, s.life⟩) := by
  cases op with
  | refresh e => exact absurd trivial h
  | swap e =>
    simp only [LifeState.run, LifeState.swap, MLOp.run, MLState.swap]
    cases hi : s.ml.info with
    | none => rfl
    | some i =>
      have hm : ¬ (i.mode = .ComparingFiles ∨ i.mode = .ComparingDirs) := fun hm => h ⟨i, hi, hm⟩
      simp only [if_neg hm, Res.bind_ok]
  | compare e =>
    simp only [LifeState.run, LifeState.compare, MLOp.run, MLState.compare]
    cases hi : s.ml.info with
    | none => rfl
    | some i =>
      have hm : ¬ (e.isDir i.localSource = e.isDir i.localDestination ∧
        (e.isDir i.localSource = true ∨ e.isPatch i.localSource = e.isPatch i.localDestination)) := fun hm => h ⟨i, hi, hm⟩
      dsimp only
      cases h1 : e.isDir i.localSource <;> cases h2 : e.isDir i.localDestination <;> cases h3 : e.isPatch i.localSource <;> cases h4 : e.isPatch i.localDestination <;>
        simp only [h1, h2, h3, h4, true_or, or_true, and_self, not_true_eq_false] at hm <;>
        simp only [reduceCtorEq, and_self, and_true, true_and, and_false, false_and, if_true, if_false] <;> exact openAndDiff_life e s _
  | saveDiff e ok url dir st =>
    cases ok with
    | true => exact absurd rfl h
    | false => rfl
  | _ => rfl

/-- **C85.** As long as no diff program is running (none was started, or its end was reported, or it could not be started), every call that starts one does what it
does in the simple model, and the program is running afterwards exactly if it could be started. -/
theorem C85_idle {w : LifeEnv} {s : LifeState} {op : MLOp} (h : ¬ Running s) (hst : Starts s.ml op) : s.run w op = (do
    let m ← op.run s.ml
    Res.ok ⟨m, if w.starts = true then .started else .failed⟩) := by
  cases op with
  | refresh e =>
    simp only [LifeState.run, LifeState.refresh, MLOp.run, MLState.refresh]
    cases hi : s.ml.info with
    | none => rfl
    | some i => exact compareMode_idle h
  | swap e =>
    obtain ⟨i, hi, hm⟩ := hst
    simp only [LifeState.run, LifeState.swap, MLOp.run, MLState.swap, hi, if_pos hm]
    exact compareMode_idle h
  | compare e =>
    obtain ⟨i, hi, h1, h2⟩ := hst
    simp only [LifeState.run, LifeState.compare, MLOp.run, MLState.compare, hi]
    cases h3 : e.isDir i.localDestination with
    | true =>
      rw [h3] at h1
      simp only [h1, and_self, if_true]
      exact compareMode_idle (s := ⟨_, s.life⟩) h
    | false =>
      rw [h3] at h1
      rw [h1] at h2
      have h2 := h2.resolve_left (by decide)
      cases h4 : e.isPatch i.localDestination <;> rw [h4] at h2 <;>
        simp only [h1, h2, reduceCtorEq, and_self, and_true, true_and, and_false, false_and, if_true, if_false] <;>
        exact compareMode_idle (s := ⟨_, s.life⟩) h
  | saveDiff e ok url dir st =>
    cases hst
    simp only [LifeState.run, LifeState.saveDiff, MLOp.run, MLState.saveDiff, Bool.true_eq_false, if_false]
    cases hi : s.ml.info with
    | none => rfl
    | some i =>
      dsimp only
      cases processArgs (e.relative dir) st .Custom .UnknownMode i.localSource i.localDestination with
      | ub => rfl
      | hang => rfl
      | ok p =>
        simp only [Res.bind_ok]
        have := launch_idle (w := w) (e := e) (s := ⟨{ s.ml with info := some i, diffTemp := true, diffURL := url }, s.life⟩) (p := .saveDiff dir p.1 p.2) h
        rw [this]
  | _ => exact absurd hst (fun h => h)

/-- **C85, defect.** Starting a comparison, or saving a diff, while a diff program is running is never defined, whatever the state, the arguments and the end of the
killed program: its process object is destroyed, its signal is received nevertheless, and even if the destroyed object still worked the new process would be given up
before it is used. -/
theorem C85_running_defect {w : LifeEnv} {s : LifeState} {op : MLOp} (h : Running s) (hst : Starts s.ml op) :
    (∀ t, s.run w op ≠ Res.ok t) ∧ (w.survives = false → (∃ m, op.run s.ml = Res.ok m) → s.run w op = Res.ub) := by
  cases op with
  | refresh e =>
    simp only [LifeState.run, LifeState.refresh, MLOp.run, MLState.refresh]
    cases hi : s.ml.info with
    | none => exact ⟨fun _ h => (by cases h), fun _ _ => rfl⟩
    | some i =>
      have := compareMode_running (w := w) (e := e) (mode := i.mode) h
      exact ⟨this.1, fun hw hm => this.2 hw (by obtain ⟨_, hm⟩ := hm; obtain ⟨t, ht, _⟩ := Res.bind_eq_ok.1 hm; exact ⟨t, ht⟩)⟩
  | swap e =>
    obtain ⟨i, hi, hm⟩ := hst
    simp only [LifeState.run, LifeState.swap, MLOp.run, MLState.swap, hi, if_pos hm]
    have := compareMode_running (w := w) (e := e) (mode := i.mode) h
    exact ⟨this.1, fun hw hm => this.2 hw (by obtain ⟨_, hm⟩ := hm; obtain ⟨t, ht, _⟩ := Res.bind_eq_ok.1 hm; exact ⟨t, ht⟩)⟩
  | compare e =>
    obtain ⟨i, hi, h1, h2⟩ := hst
    simp only [LifeState.run, LifeState.compare, MLOp.run, MLState.compare, hi]
    cases h3 : e.isDir i.localDestination with
    | true =>
      rw [h3] at h1
      simp only [h1, and_self, if_true]
      have := compareMode_running (w := w) (e := e) (mode := .ComparingDirs) (s := ⟨{ s.ml with info := some { i with mode := .ComparingDirs } }, s.life⟩) h
      exact ⟨this.1, fun hw hm => this.2 hw (by obtain ⟨_, hm⟩ := hm; obtain ⟨t, ht, _⟩ := Res.bind_eq_ok.1 hm; exact ⟨t, ht⟩)⟩
    | false =>
      rw [h3] at h1
      rw [h1] at h2
      have h2 := h2.resolve_left (by decide)
      have := compareMode_running (w := w) (e := e) (mode := .ComparingFiles) (s := ⟨{ s.ml with info := some { i with mode := .ComparingFiles } }, s.life⟩) h
      cases h4 : e.isPatch i.localDestination <;> rw [h4] at h2 <;>
        simp only [h1, h2, reduceCtorEq, and_self, and_true, true_and, and_false, false_and, if_true, if_false] <;>
        exact ⟨this.1, fun hw hm => this.2 hw (by obtain ⟨_, hm⟩ := hm; obtain ⟨t, ht, _⟩ := Res.bind_eq_ok.1 hm; exact ⟨t, ht⟩)⟩
  | saveDiff e ok url dir st =>
    cases hst
    simp only [LifeState.run, LifeState.saveDiff, MLOp.run, MLState.saveDiff, Bool.true_eq_false, if_false]
    cases hi : s.ml.info with
    | none => exact ⟨fun _ h => (by cases h), fun _ _ => rfl⟩
    | some i =>
      dsimp only
      cases processArgs (e.relative dir) st .Custom .UnknownMode i.localSource i.localDestination with
      | ub => exact ⟨fun _ h => (by cases h), fun _ _ => rfl⟩
      | hang => exact ⟨fun _ h => (by cases h), fun _ h => (by obtain ⟨_, h⟩ := h; cases h)⟩
      | ok p =>
        simp only [Res.bind_ok]
        have := launch_running (w := w) (e := e) (s := ⟨{ s.ml with info := some i, diffTemp := true, diffURL := url }, s.life⟩) (p := .saveDiff dir p.1 p.2) h
        exact ⟨this.1, fun hw _ => this.2 hw⟩
  | _ => exact absurd hst (fun h => h)

/-- **C85.** So every history without undefined behaviour is a history of the simple model, with the same list at its end: what is proved of those holds here. -/
theorem C85_refines {ops : List (LifeEnv × MLOp)} {s : LifeState} (h : LifeHistory ops s) : History (ops.map Prod.snd) s.ml := by
  induction h with
  | new st rw' hp => exact .new st rw' hp
  | @call ops s s' w op _ hc hr ih =>
    rw [List.map_append]
    refine .call ih hc.1 ?_
    by_cases hst : Starts s.ml op
    · by_cases hrun : Running s
      · exact absurd hr ((C85_running_defect hrun hst).1 s')
      · rw [C85_idle hrun hst] at hr
        obtain ⟨m, h1, h2⟩ := Res.bind_eq_ok.1 hr
        rw [← Res.ok.inj h2]; exact h1
    · rw [C85_others hst] at hr
      obtain ⟨m, h1, h2⟩ := Res.bind_eq_ok.1 hr
      rw [← Res.ok.inj h2]; exact h1

/-- **C85.** In such a history a program is started only when none is running. -/
theorem C85_one_at_a_time {ops : List (LifeEnv × MLOp)} {s s' : LifeState} {w : LifeEnv} {op : MLOp} (_ : LifeHistory ops s) (hr : s.run w op = Res.ok s')
    (hst : Starts s.ml op) : ¬ Running s :=
  fun h => (C85_running_defect h hst).1 s' hr

/-- **C85.** Once the end of the program was reported none is running, so the next one may be started. -/
theorem C85_over {w : LifeEnv} {s s' : LifeState} {op : MLOp} (hop : (∃ e r, op = .diffFinished e r) ∨ ∃ c r, op = .diffWritten c r)
    (hr : s.run w op = Res.ok s') : ¬ Running s' := by
  have hn : ¬ Starts s.ml op := by
    rcases hop with ⟨e, r, rfl⟩ | ⟨c, r, rfl⟩ <;> exact fun h => h
  rw [C85_others hn] at hr
  obtain ⟨m, h1, h2⟩ := Res.bind_eq_ok.1 hr
  have h2 := Res.ok.inj h2
  subst h2
  have := C52_pending h1
  rcases hop with ⟨e, r, rfl⟩ | ⟨c, r, rfl⟩ <;> exact fun h => h.1 this

/-- **C85.** The end of a comparison is always signalled, as the last signal: the end of parsing, that the files are identical, or what the program complained about. -/
theorem C85_told {w : LifeEnv} {s s' : LifeState} {e : Env} {r : ProcessResult} (hr : s.run w (.diffFinished e r) = Res.ok s') :
    s'.ml.log.getLast? = some (if r.finishedNormally = true then .status .FinishedParsing
      else if r.exitStatus = .NormalExit then .error .identical else .error (.stderr r.stderr)) := by
  obtain ⟨m, h1, h2⟩ := Res.bind_eq_ok.1 hr
  have h2 := Res.ok.inj h2
  subst h2
  have h1 : s.ml.slotDiffProcessFinished e r = Res.ok m := h1
  unfold MLState.slotDiffProcessFinished at h1
  dsimp only at h1
  show m.log.getLast? = _
  by_cases hn : r.finishedNormally = true
  · rw [if_pos hn] at h1 ⊢
    obtain ⟨⟨t, ok⟩, _, h1⟩ := Res.bind_eq_ok.1 h1
    dsimp only at h1
    split at h1
    · simp only [Res.bind_ok] at h1
      rw [← Res.ok.inj h1]
      simp [MLState.emit]
    · split at h1
      · cases h1
      · split at h1
        · obtain ⟨b, _, h1⟩ := Res.bind_eq_ok.1 h1
          simp only [Res.bind_ok] at h1
          obtain ⟨u, _, h1⟩ := Res.bind_eq_ok.1 h1
          rw [← Res.ok.inj h1]
          simp [MLState.emit]
        · simp only [Res.bind_ok] at h1
          obtain ⟨u, _, h1⟩ := Res.bind_eq_ok.1 h1
          rw [← Res.ok.inj h1]
          simp [MLState.emit]
  · rw [if_neg hn] at h1 ⊢
    by_cases hx : r.exitStatus = .NormalExit
    · rw [if_pos hx] at h1 ⊢
      simp only [Res.bind_ok] at h1
      rw [← Res.ok.inj h1]
      simp [MLState.emit]
    · rw [if_neg hx] at h1 ⊢
      simp only [Res.bind_ok] at h1
      rw [← Res.ok.inj h1]
      simp [MLState.emit]

/-- **C85, defect.** The end of the program of `saveDiff` is signalled only if it reported differences; otherwise (the files are identical, or the program failed) there is
no signal at all, so a client never learns that it may start the next one. -/
theorem C85_untold_defect {w : LifeEnv} {s s' : LifeState} {c : Bool} {r : ProcessResult} (hr : s.run w (.diffWritten c r) = Res.ok s') :
    (r.finishedNormally = true → s'.ml.log.getLast? = some (.status .FinishedWritingDiff)) ∧ (r.finishedNormally = false → s'.ml.log = s.ml.log ∧ ¬ Running s') := by
  have hover := C85_over (.inr ⟨c, r, rfl⟩) hr
  obtain ⟨m, h1, h2⟩ := Res.bind_eq_ok.1 hr
  have h2 := Res.ok.inj h2
  subst h2
  have h1 : s.ml.slotWriteDiffOutput c r = Res.ok m := h1
  unfold MLState.slotWriteDiffOutput at h1
  split at h1
  · cases h1
  · cases h1
    refine ⟨fun hn => ?_, fun hn => ⟨?_, hover⟩⟩
    · simp [hn, MLState.emit]
    · simp [hn]

/-- **C85, defect.** But a client cannot go by the end of parsing: a diff that is opened while a program is running ends with the same signal, although the program is
running still, and a refresh is then not defined. -/
theorem C85_misled_defect {w : LifeEnv} {s : LifeState} {m : MLState} {e : Env} {text : Str} (h : Running s) (hm : s.ml.parseAndOpenDiff e text = Res.ok (m, true)) :
    ∃ s', s.run w (.parseAndOpenDiff e text) = Res.ok s' ∧ s'.ml = m ∧ m.log.getLast? = some (.status .FinishedParsing) ∧ Running s' ∧
      ∀ v e', ∀ t, s'.run v (.refresh e') ≠ Res.ok t := by
  have h1 : MLOp.run (.parseAndOpenDiff e text) s.ml = Res.ok m := by simp only [MLOp.run, hm, Res.bind_ok]
  have hp : m.process = s.ml.process := C52_pending h1
  have hrun : Running ⟨m, s.life⟩ := ⟨by rw [hp]; exact h.1, h.2⟩
  refine ⟨⟨m, s.life⟩, ?_, rfl, ?_, hrun, fun v e' => (C85_running_defect (op := .refresh e') hrun trivial).1⟩
  · rw [C85_others (op := .parseAndOpenDiff e text) (fun (h : False) => h), h1]; rfl
  · unfold MLState.parseAndOpenDiff at hm
    dsimp only at hm
    obtain ⟨⟨t, ok⟩, _, hm⟩ := Res.bind_eq_ok.1 hm
    dsimp only at hm
    split at hm
    · cases hm
    · obtain ⟨u, _, hm⟩ := Res.bind_eq_ok.1 hm
      cases hm
      simp [MLState.emit]

/-- **C85, defect.** If the diff program cannot be started nobody is told: the call leaves the list exactly as if the program were running, and however long one waits
- as long as no other program is started - no end of a process is ever reported and the process stays where it is. -/
theorem C85_failed_start_defect {w v : LifeEnv} {s s' : LifeState} {op : MLOp} (h : ¬ Running s) (hst : Starts s.ml op) (hw : w.starts = false) (hv : v.starts = true)
    (hr : s.run w op = Res.ok s') :
    s.run v op = Res.ok ⟨s'.ml, .started⟩ ∧ s'.life = .failed ∧
      ∀ (later : List (LifeEnv × MLOp)) (t : LifeState), Continues s' later t → (∀ o ∈ later, ∀ m, ¬ Starts m o.2) →
        t.life = .failed ∧ t.ml.process = s'.ml.process ∧ (∀ o ∈ later, ∀ e c r, o.2 ≠ .diffFinished e r ∧ o.2 ≠ .diffWritten c r) := by
  rw [C85_idle h hst] at hr ⊢
  obtain ⟨m, h1, h2⟩ := Res.bind_eq_ok.1 hr
  have h2 := Res.ok.inj h2
  subst h2
  rw [h1]
  simp only [hw, hv, Res.bind_ok, if_true, Bool.false_eq_true, if_false, true_and]
  intro later t ht hn
  induction ht with
  | refl => exact ⟨rfl, rfl, by simp⟩
  | @step ops t t' x o _ hc hrun ih =>
    obtain ⟨i1, i2, i3⟩ := ih (fun o ho => hn o (List.mem_append_left _ ho))
    have hno : ¬ Starts t.ml o := hn (x, o) (List.mem_append_right _ (List.mem_singleton.2 rfl)) t.ml
    have hend : ∀ e c r, o ≠ .diffFinished e r ∧ o ≠ .diffWritten c r := by
      intro e c r
      refine ⟨fun ho => ?_, fun ho => ?_⟩
      · have := hc.2 e c r (.inl ho); rw [i1] at this; cases this
      · have := hc.2 e c r (.inr ho); rw [i1] at this; cases this
    rw [C85_others hno] at hrun
    obtain ⟨m', a1, a2⟩ := Res.bind_eq_ok.1 hrun
    have a2 := Res.ok.inj a2
    subst a2
    refine ⟨i1, ?_, ?_⟩
    · rw [← i2]
      have := C52_pending a1
      cases o with
      | refresh e => exact absurd trivial hno
      | swap e =>
        obtain ⟨i, hi, hk⟩ := this
        rwa [if_neg (fun hm => hno ⟨i, hi, hm⟩)] at hk
      | compare e =>
        simp only [MLOp.run, MLState.compare] at a1
        cases hi : t.ml.info with
        | none => rw [hi] at a1; cases a1
        | some i =>
          rw [hi] at a1
          have hm : ¬ (e.isDir i.localSource = e.isDir i.localDestination ∧
            (e.isDir i.localSource = true ∨ e.isPatch i.localSource = e.isPatch i.localDestination)) := fun hm => hno ⟨i, hi, hm⟩
          have key : ∀ j : Info, (do let r ← ({ t.ml with info := some j } : MLState).openAndDiff e; Res.ok r.1) = Res.ok m' → m'.process = t.ml.process := by
            intro j hj
            obtain ⟨r, b1, b2⟩ := Res.bind_eq_ok.1 hj
            rw [← Res.ok.inj b2]; exact (leaves_openAndDiff e _ r b1).process
          dsimp only at a1
          cases h1 : e.isDir i.localSource <;> cases h2 : e.isDir i.localDestination <;> cases h3 : e.isPatch i.localSource <;> cases h4 : e.isPatch i.localDestination <;>
            simp only [h1, h2, h3, h4, true_or, or_true, and_self, not_true_eq_false] at hm <;>
            simp only [h1, h2, h3, h4, reduceCtorEq, and_self, and_true, true_and, and_false, false_and, if_true, if_false] at a1 <;> exact key _ a1
      | saveDiff e ok url dir st =>
        cases ok with
        | true => exact absurd rfl hno
        | false => exact this
      | diffFinished e r => exact absurd rfl (hend e true r).1
      | diffWritten c r => exact absurd rfl (hend emptyEnv c r).2
      | _ => exact this
    · intro o' ho' e c r
      rcases List.mem_append.1 ho' with ho' | ho'
      · exact i3 o' ho' e c r
      · rw [List.mem_singleton.1 ho']; exact hend e c r

/-- A call that starts a program leaves a process. -/
theorem starts_process {s m : MLState} {op : MLOp} (hst : Starts s op) (h1 : op.run s = Res.ok m) : m.process ≠ none := by
  have := C52_pending h1
  cases op with
  | refresh e => obtain ⟨i, a, _, _, b⟩ := this; rw [b]; simp
  | swap e =>
    obtain ⟨i, hi, hm⟩ := hst
    obtain ⟨j, hj, hk⟩ := this
    have : i = j := Option.some.inj (hi.symm.trans hj)
    subst this
    rw [if_pos hm] at hk
    obtain ⟨a, _, b⟩ := hk; rw [b]; simp
  | compare e =>
    obtain ⟨i, hi, g1, g2⟩ := hst
    simp only [MLOp.run, MLState.compare, hi] at h1
    have key : ∀ (j : Info) (md : Mode), (do let r ← ({ s with info := some j } : MLState).compareMode e md; Res.ok r.1) = Res.ok m → m.process ≠ none := by
      intro j md hj
      obtain ⟨⟨r, b⟩, b1, b2⟩ := Res.bind_eq_ok.1 hj
      have b2 := Res.ok.inj b2
      dsimp only at b2
      subst b2
      obtain ⟨_, _, b3, _⟩ := compare_process (i := j) rfl b1
      rw [b3]; simp
    cases g3 : e.isDir i.localDestination with
    | true =>
      rw [g3] at g1
      simp only [g1, g3, and_self, if_true] at h1
      exact key _ _ h1
    | false =>
      rw [g3] at g1
      rw [g1] at g2
      have g2 := g2.resolve_left (by decide)
      cases g4 : e.isPatch i.localDestination <;> rw [g4] at g2 <;>
        simp only [g1, g2, g3, g4, reduceCtorEq, and_self, and_true, true_and, and_false, false_and, if_true, if_false] at h1 <;> exact key _ _ h1
  | saveDiff e ok url dir st =>
    cases hst
    obtain ⟨i, a, _, _, b⟩ := this; rw [b]; simp
  | _ => exact absurd hst (fun h => h)

/-- **C85.** After a call that starts a program one is running exactly if it could be started. -/
theorem C85_started {w : LifeEnv} {s s' : LifeState} {op : MLOp} (hst : Starts s.ml op) (hr : s.run w op = Res.ok s') : Running s' ↔ w.starts = true := by
  have hidle : ¬ Running s := fun h => (C85_running_defect h hst).1 s' hr
  rw [C85_idle hidle hst] at hr
  obtain ⟨m, h1, h2⟩ := Res.bind_eq_ok.1 hr
  have h2 := Res.ok.inj h2
  subst h2
  have h3 := starts_process hst h1
  unfold Running
  cases w.starts <;> simp [h3]

/-- **C85.** The list may be closed at any time at which no diff program is running. -/
theorem C85_close {s : LifeState} : s.close = Res.ok () ↔ ¬ Running s := by
  unfold LifeState.close Running
  cases hp : s.ml.process with
  | none => simp
  | some p =>
    dsimp only
    by_cases hl : s.life = .started
    · rw [if_pos hl]; simp [hl]
    · rw [if_neg hl]; simp [hl]

/-- **C85, defect.** Closing the list after a program was started and before its end is reported is undefined, whatever the user did in between. -/
theorem C85_close_defect {w : LifeEnv} {s s' t : LifeState} {op : MLOp} {later : List (LifeEnv × MLOp)} (hst : Starts s.ml op) (hw : w.starts = true)
    (hr : s.run w op = Res.ok s') (hl : Continues s' later t) (hlater : ∀ o ∈ later, ∃ u, o.2 = .user u) : t.close = Res.ub := by
  have hidle : ¬ Running s := fun h => (C85_running_defect h hst).1 s' hr
  rw [C85_idle hidle hst] at hr
  obtain ⟨m, h1, h2⟩ := Res.bind_eq_ok.1 hr
  have h2 := Res.ok.inj h2
  subst h2
  have h3 : m.process ≠ none := starts_process hst h1
  have : Running t := by
    induction hl with
    | refl => exact ⟨h3, by simp only [hw, if_true]⟩
    | @step ops t t' x o _ _ hrun ih =>
      have ih := ih (fun o ho => hlater o (List.mem_append_left _ ho))
      obtain ⟨u, hu⟩ := hlater (x, o) (List.mem_append_right _ (List.mem_singleton.2 rfl))
      dsimp only at hu
      subst hu
      rw [C85_others (op := .user u) (fun (h : False) => h)] at hrun
      obtain ⟨m', a1, a2⟩ := Res.bind_eq_ok.1 hrun
      have a2 := Res.ok.inj a2
      subst a2
      have hp : m'.process = t.ml.process := C52_pending (op := .user u) a1
      exact ⟨by rw [hp]; exact ih.1, ih.2⟩
  unfold LifeState.close
  cases hp : t.ml.process with
  | none => exact absurd hp this.1
  | some p => simp only [if_pos this.2]

/-! ### The hypotheses are met -/

/-- A new list that was told its two operands. -/
def waiting : LifeState := ⟨(MLState.init (some {}) true ⟨fun _ => Diff.new 0 0 .Unchanged, 0⟩).setInfo (some exampleOperands), .started⟩

/-- The comparison was started: the program may be running or could not be started. -/
def launched (w : LifeEnv) : LifeState :=
  match waiting.run w (.refresh emptyEnv) with
  | .ok t => t
  | _ => waiting

theorem launched_run (w : LifeEnv) : waiting.run w (.refresh emptyEnv) = Res.ok (launched w) := by
  cases w with
  | mk a b c d => cases a <;> rfl

theorem launched_history (w : LifeEnv) : LifeHistory ([] ++ [(w, .setInfo (some exampleOperands))] ++ [(w, .refresh emptyEnv)]) (launched w) :=
  .call (.call (.new (some {}) true ⟨fun _ => Diff.new 0 0 .Unchanged, 0⟩) ⟨trivial, by simp⟩ rfl) ⟨trivial, by simp⟩ (launched_run w)

theorem launched_running {w : LifeEnv} (h : w.starts = true) : Running (launched w) := by
  cases w with
  | mk a b c d =>
    cases h
    exact ⟨Option.some_ne_none _, rfl⟩

/-- Refreshing again before the program has ended. -/
example : (launched {}).run {} (.refresh emptyEnv) = Res.ub :=
  (C85_running_defect (op := .refresh emptyEnv) (launched_running rfl) trivial).2 rfl ⟨_, rfl⟩

/-- Also if the destroyed process object still works. -/
example (dies : ProcessResult) : ∀ t, (launched {}).run { survives := true, dies := dies } (.saveDiff emptyEnv true [] [] (some {})) ≠ Res.ok t :=
  (C85_running_defect (op := .saveDiff emptyEnv true [] [] (some {})) (launched_running rfl) rfl).1

/-- If the first program could not be started, refreshing again starts another one. -/
example : ∃ t, (launched { starts := false }).run {} (.refresh emptyEnv) = Res.ok t ∧ Running t := by
  refine ⟨_, C85_idle (fun h => by cases h.2) trivial, ?_, rfl⟩
  decide

/-- The files were identical: the program has ended and may be started again. -/
example : ∃ t u, (launched {}).run {} (.diffFinished emptyEnv ⟨0, .NormalExit, [], []⟩) = Res.ok t ∧ ¬ Running t ∧ t.run {} (.refresh emptyEnv) = Res.ok u ∧ Running u := by
  have h : (launched {}).run {} (.diffFinished emptyEnv ⟨0, .NormalExit, [], []⟩) = Res.ok _ := rfl
  have hn := C85_over (.inl ⟨_, _, rfl⟩) h
  exact ⟨_, _, h, hn, C85_idle (op := .refresh emptyEnv) hn trivial, Option.some_ne_none _, rfl⟩

/-- A diff is opened while the program is running. -/
example : ∃ m, (launched {}).ml.parseAndOpenDiff emptyEnv exampleDiff.render.flatten = Res.ok (m, true) :=
  opens_unified (s := (launched {}).ml) ⟨some {}, true, ⟨fun _ => Diff.new 0 0 .Unchanged, 0⟩, [.setInfo (some exampleOperands), .refresh emptyEnv], rfl⟩
    (Option.some_ne_none _) emptyEnv exampleDiff exampleDiff_ok (by decide) rfl

/-- The program of `saveDiff` was started. -/
def saving : LifeState :=
  match waiting.run {} (.saveDiff emptyEnv true (str "file:/x.diff") [] (some {})) with
  | .ok t => t
  | _ => waiting

/-- A diff was to be saved, but the files are identical. -/
example : ∃ t u, waiting.run {} (.saveDiff emptyEnv true (str "file:/x.diff") [] (some {})) = Res.ok saving ∧ CanHappen saving (.diffWritten true ⟨0, .NormalExit, [], []⟩) ∧
    saving.run {} (.diffWritten true ⟨0, .NormalExit, [], []⟩) = Res.ok t ∧ t.ml.log = saving.ml.log ∧ t.run {} (.refresh emptyEnv) = Res.ok u := by
  have h' : saving.run {} (.diffWritten true ⟨0, .NormalExit, [], []⟩) = Res.ok _ := rfl
  have hd := (C85_untold_defect h').2 rfl
  exact ⟨_, _, rfl, ⟨⟨_, _, _, rfl⟩, fun _ _ _ _ => rfl⟩, h', hd.1, C85_idle (op := .refresh emptyEnv) hd.2 trivial⟩

/-- Every such history is one of the simple model. -/
example (w : LifeEnv) : History [.setInfo (some exampleOperands), .refresh emptyEnv] (launched w).ml := C85_refines (launched_history w)

/-- A program that cannot be started. -/
example : ∀ later t, Continues (launched { starts := false }) later t → (∀ o ∈ later, ∀ m, ¬ Starts m o.2) → t.life = .failed ∧ t.ml.process = (launched {}).ml.process :=
  fun later t h hn =>
    have := (C85_failed_start_defect (w := { starts := false }) (v := {}) (s := waiting) (op := .refresh emptyEnv) (fun h => h.1 rfl) trivial rfl rfl (launched_run { starts := false })).2.2 later t h hn
    ⟨this.1, this.2.1⟩

/-- Closing at once. -/
example : (launched {}).close = Res.ub :=
  C85_close_defect (w := {}) (s := waiting) (op := .refresh emptyEnv) trivial rfl (launched_run {}) .refl (by simp)

end KompareDiff2
