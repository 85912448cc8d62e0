import Verif.Proofs.Process
import Verif.Spec.Process
import Verif.Props.Compare
/-
**C52.** The diff process: which one is running, what happens when it ends.  **C53.** The names given to it.
-/
namespace KompareDiff2
open Spec

theorem compare_process {e : Env} {s s' : MLState} {i : Info} {mode : Mode} {b : Bool} (hi : s.info = some i)
    (h : s.compareMode e mode = Res.ok (s', b)) :
    ∃ args, processArgs id s.settings .Custom mode i.localSource i.localDestination = Res.ok args ∧ s'.process = some (.compare args.1 args.2) ∧
      s'.diffTemp = s.diffTemp ∧ s'.diffURL = s.diffURL := by
  obtain ⟨j, args, h1, _, _, h2, h3, _⟩ := compareMode_info h
  have : i = j := Option.some.inj (hi.symm.trans h1)
  subst this
  refine ⟨args, h2, h3, ?_⟩
  unfold MLState.compareMode at h
  dsimp only at h
  rw [show s.clear.info = some i from hi] at h
  dsimp only at h
  obtain ⟨p, _, h⟩ := Res.bind_eq_ok.1 h
  have := Res.ok.inj h
  injection this with e1 e2
  rw [← e1]
  exact ⟨rfl, rfl⟩

theorem compare_temp {e : Env} {s s' : MLState} {b : Bool} (h : s.compare e = Res.ok (s', b)) :
    s'.diffTemp = s.diffTemp ∧ s'.diffURL = s.diffURL := by
  unfold MLState.compare at h
  cases hi : s.info with
  | none => rw [hi] at h; cases h
  | some i =>
    rw [hi] at h
    dsimp only at h
    have hc : ∀ (t : MLState) (j : Info) (mode : Mode), t.compareMode e mode = Res.ok (s', b) → t.info = some j → SameProcess s t →
        s'.diffTemp = s.diffTemp ∧ s'.diffURL = s.diffURL := by
      intro t j mode h hj ht
      obtain ⟨_, _, _, h3, h4⟩ := compare_process hj h
      exact ⟨h3.trans ht.temp, h4.trans ht.url⟩
    have ho : ∀ (t : MLState), t.openAndDiff e = Res.ok (s', b) → SameProcess s t → s'.diffTemp = s.diffTemp ∧ s'.diffURL = s.diffURL := by
      intro t hx ht
      have := ht.trans (leaves_openAndDiff e t _ hx)
      exact ⟨this.temp, this.url⟩
    split at h
    · exact hc _ _ _ h rfl ⟨rfl, rfl, rfl⟩
    · split at h
      · split at h
        · exact ho _ h ⟨rfl, rfl, rfl⟩
        · split at h
          · exact ho _ h ⟨rfl, rfl, rfl⟩
          · exact hc _ _ _ h rfl ⟨rfl, rfl, rfl⟩
      · split at h
        · exact ho _ h ⟨rfl, rfl, rfl⟩
        · exact ho _ h ⟨rfl, rfl, rfl⟩

theorem finished_none {e : Env} {s s' : MLState} {r : ProcessResult} (h : s.slotDiffProcessFinished e r = Res.ok s') : s'.process = none := by
  obtain ⟨h1, h2, h3⟩ := C46_events h
  cases hs : r.exitStatus with
  | CrashExit => rw [h1 hs]
  | NormalExit =>
    by_cases hc : r.exitCode = 0
    · rw [h2 hs hc]
    · exact (h3 hs hc).1

/-- **C52.** Which process is running after each call, in any state: `compare()` of two files or two directories, `refresh()`, and `swap()`
in a comparing mode start a comparison of the operands; a successful `saveDiff()` starts a process for saving; in all of these cases a
process that was running before is forgotten.  The end of a process leaves none; every other call, also opening another diff, leaves the
running process as it is. -/
theorem C52_pending {s s' : MLState} {op : MLOp} (h : op.run s = Res.ok s') :
    NextProcess s s' op := by
  cases op with
  | user op => exact (leaves_user op s s' h).process
  | select m d => exact (leaves_select s m d s' h).process
  | selectDiff d => exact (leaves_selectDiff s d s' h).process
  | openDiff e f =>
    obtain ⟨r, h1, h2⟩ := Res.bind_eq_ok.1 h
    rw [← Res.ok.inj h2]; exact (leaves_openDiff e s f r h1).process
  | parseAndOpenDiff e f =>
    obtain ⟨r, h1, h2⟩ := Res.bind_eq_ok.1 h
    rw [← Res.ok.inj h2]; exact (leaves_parseAndOpen e s f r h1).process
  | openFileAndDiff e =>
    obtain ⟨r, h1, h2⟩ := Res.bind_eq_ok.1 h
    rw [← Res.ok.inj h2]; exact (leaves_openAndDiff e s r h1).process
  | compare e =>
    obtain ⟨⟨t, b⟩, h1, h2⟩ := Res.bind_eq_ok.1 h
    have := Res.ok.inj h2
    subst this
    obtain ⟨i, i', a1, a2, _, _, a3⟩ := C41_compare h1
    refine ⟨i, i', a1, a2, ?_⟩
    split
    · rename_i hm
      rw [if_pos hm] at a3
      obtain ⟨args, b1, b2, _⟩ := a3
      exact ⟨args, b1, b2⟩
    · rename_i hm
      rw [if_neg hm] at a3
      exact a3
  | refresh e =>
    simp only [MLOp.run, MLState.refresh] at h
    cases hi : s.info with
    | none => rw [hi] at h; cases h
    | some i =>
      rw [hi] at h
      obtain ⟨⟨t, b⟩, h1, h2⟩ := Res.bind_eq_ok.1 h
      have := Res.ok.inj h2
      subst this
      obtain ⟨args, a1, a2, _⟩ := compare_process hi h1
      exact ⟨i, args, hi, a1, a2⟩
  | swap e =>
    simp only [MLOp.run, MLState.swap] at h
    cases hi : s.info with
    | none => rw [hi] at h; cases h
    | some i =>
      rw [hi] at h
      dsimp only at h
      refine ⟨i, hi, ?_⟩
      split
      · rename_i hm
        rw [if_pos hm] at h
        obtain ⟨⟨t, b⟩, h1, h2⟩ := Res.bind_eq_ok.1 h
        have := Res.ok.inj h2
        subst this
        obtain ⟨args, a1, a2, _⟩ := compare_process hi h1
        exact ⟨args, a1, a2⟩
      · rename_i hm
        rw [if_neg hm] at h
        rw [← Res.ok.inj h]
  | diffFinished e r => exact finished_none h
  | setInfo i => rw [← Res.ok.inj h]; rfl
  | saveDiff e t u d st =>
    obtain ⟨r, h1, h2⟩ := Res.bind_eq_ok.1 h
    unfold MLState.saveDiff at h1
    dsimp only at h1
    cases t with
    | false =>
      rw [if_pos rfl] at h1
      rw [← Res.ok.inj h2, ← Res.ok.inj h1]
      rfl
    | true =>
      rw [if_neg (by simp)] at h1
      cases hi : s.info with
      | none => rw [hi] at h1; cases h1
      | some i =>
        rw [hi] at h1
        obtain ⟨args, h3, h1⟩ := Res.bind_eq_ok.1 h1
        refine ⟨i, args, hi, h3, ?_⟩
        rw [← Res.ok.inj h2, ← Res.ok.inj h1]
        rfl
  | diffWritten c r =>
    simp only [MLOp.run, MLState.slotWriteDiffOutput] at h
    split at h
    · cases h
    · rw [← Res.ok.inj h]
      rfl

theorem lastSave_snoc (ops : List MLOp) (op : MLOp) :
    lastSave (ops ++ [op]) = match op with
      | .saveDiff _ ok url _ _ => some (url, ok)
      | _ => lastSave ops := by
  induction ops with
  | nil => cases op <;> rfl
  | cons a ops ih =>
    have e : ∀ (a : MLOp) (l : List MLOp), lastSave (a :: l) = match lastSave l with
        | some x => some x
        | none =>
          match a with
          | .saveDiff _ ok url _ _ => some (url, ok)
          | _ => none := fun _ _ => rfl
    rw [List.cons_append, e, ih, e]
    cases op <;> rfl

/-- While a process for saving is running, the target is the one of the last call of `saveDiff`. -/
theorem history_save {ops : List MLOp} {s : MLState} (h : History ops s) :
    (∃ dir args input, s.process = some (.saveDiff dir args input)) → lastSave ops = some (s.diffURL, s.diffTemp) := by
  induction h with
  | new st rw hp => rintro ⟨_, _, _, h⟩; cases h
  | @call ops s s' op hh hs hr ih =>
    intro hp
    have hpend := C52_pending hr
    rw [lastSave_snoc]
    have same : SameProcess s s' → lastSave ops = some (s'.diffURL, s'.diffTemp) := by
      intro hsame
      rw [hsame.url, hsame.temp]
      apply ih
      rw [hsame.process] at hp
      exact hp
    cases op with
    | user op => exact same (leaves_user op s s' hr)
    | select m d => exact same (leaves_select s m d s' hr)
    | selectDiff d => exact same (leaves_selectDiff s d s' hr)
    | openDiff e f =>
      obtain ⟨r, h1, h2⟩ := Res.bind_eq_ok.1 hr
      rw [← Res.ok.inj h2] at same hp ⊢; exact same (leaves_openDiff e s f r h1)
    | parseAndOpenDiff e f =>
      obtain ⟨r, h1, h2⟩ := Res.bind_eq_ok.1 hr
      rw [← Res.ok.inj h2] at same hp ⊢; exact same (leaves_parseAndOpen e s f r h1)
    | openFileAndDiff e =>
      obtain ⟨r, h1, h2⟩ := Res.bind_eq_ok.1 hr
      rw [← Res.ok.inj h2] at same hp ⊢; exact same (leaves_openAndDiff e s r h1)
    | compare e =>
      obtain ⟨i, i', _, _, h3⟩ := hpend
      split at h3
      · obtain ⟨args, _, h4⟩ := h3
        obtain ⟨_, _, _, h5⟩ := hp
        rw [h4] at h5; cases h5
      · obtain ⟨⟨t, b⟩, h1, h2⟩ := Res.bind_eq_ok.1 hr
        have := Res.ok.inj h2
        subst this
        obtain ⟨h4, h5⟩ := compare_temp h1
        exact same ⟨h3, h4, h5⟩
    | refresh e =>
      obtain ⟨i, args, _, _, h4⟩ := hpend
      obtain ⟨_, _, _, h5⟩ := hp
      rw [h4] at h5; cases h5
    | swap e =>
      obtain ⟨i, hi, h3⟩ := hpend
      split at h3
      · obtain ⟨args, _, h4⟩ := h3
        obtain ⟨_, _, _, h5⟩ := hp
        rw [h4] at h5; cases h5
      · rename_i hm
        simp only [MLOp.run, MLState.swap] at hr
        rw [hi] at hr
        dsimp only at hr
        rw [if_neg hm] at hr
        rw [← Res.ok.inj hr] at same ⊢
        exact same (.refl _)
    | diffFinished e r =>
      obtain ⟨_, _, _, h5⟩ := hp
      rw [hpend] at h5; cases h5
    | setInfo i => exact same (by rw [← Res.ok.inj hr]; exact ⟨rfl, rfl, rfl⟩)
    | saveDiff e t u d st =>
      obtain ⟨r, h1, h2⟩ := Res.bind_eq_ok.1 hr
      unfold MLState.saveDiff at h1
      dsimp only at h1
      cases t with
      | false =>
        rw [if_pos rfl] at h1
        rw [← Res.ok.inj h2, ← Res.ok.inj h1]
        rfl
      | true =>
        rw [if_neg (by simp)] at h1
        cases hi : s.info with
        | none => rw [hi] at h1; cases h1
        | some i =>
          rw [hi] at h1
          obtain ⟨args, h3, h1⟩ := Res.bind_eq_ok.1 h1
          rw [← Res.ok.inj h2, ← Res.ok.inj h1]
          rfl
    | diffWritten c r =>
      obtain ⟨_, _, _, h5⟩ := hp
      rw [hpend] at h5; cases h5

/-- **C52.** In every history in which the last call of `saveDiff` could open its temporary file: when its process is still running and
ends, nothing is undefined, and the output is written to the target of that call, if the process reported differences (and the copy
succeeded); nothing else is written and neither models nor selection change. -/
theorem C52_written {ops : List MLOp} {s : MLState} (h : History ops s) {dir : Str} {args : List Str} {input : Option Str}
    (hp : s.process = some (.saveDiff dir args input)) {url : Str} (hl : lastSave ops = some (url, true)) (copyOk : Bool) (r : ProcessResult) :
    s.slotWriteDiffOutput copyOk r = Res.ok { s with process := none, diffTemp := false, diffURL := [], log := s.log ++
      (if r.exitStatus = .NormalExit ∧ r.exitCode ≠ 0 then
        (if copyOk = true then [.upload url r.stdout] else []) ++ [.status .FinishedWritingDiff] else []) } := by
  have := history_save h ⟨_, _, _, hp⟩
  rw [hl] at this
  have e1 : url = s.diffURL := congrArg Prod.fst (Option.some.inj this)
  have e2 : true = s.diffTemp := congrArg Prod.snd (Option.some.inj this)
  unfold MLState.slotWriteDiffOutput
  rw [← e1, if_neg (by rw [← e2]; simp)]
  dsimp only
  by_cases hf : r.finishedNormally = true
  · rw [if_pos hf, if_pos ((C46_success r).1 hf)]
    cases copyOk with
    | true => simp [MLState.emit]
    | false => simp [MLState.emit]
  · rw [if_neg hf, if_neg (fun hx => hf ((C46_success r).2 hx))]
    simp

/-- **C52.** `saveDiff` reports success exactly if its temporary file could be opened.  Otherwise the user is told so, the list shows what it
showed before, and no process is started or stopped; with success the list only announces that the process is running. -/
theorem C52_save_reported {e : Env} {s s' : MLState} {tempOpens ok : Bool} {url dir : Str} {settings : Option Settings}
    (h : s.saveDiff e tempOpens url dir settings = Res.ok (s', ok)) :
    ok = tempOpens ∧ s'.models = s.models ∧ s'.store = s.store ∧ s'.heap = s.heap ∧ s'.selectedModel = s.selectedModel ∧
      s'.selectedDifference = s.selectedDifference ∧ s'.actions = s.actions ∧ s'.info = s.info ∧
      (ok = false → s'.process = s.process ∧ s'.log = s.log ++ [.error .tempFile]) ∧ (ok = true → s'.log = s.log ++ [.status .RunningDiff]) := by
  unfold MLState.saveDiff at h
  dsimp only at h
  split at h
  · rename_i ht
    cases h
    exact ⟨ht.symm, rfl, rfl, rfl, rfl, rfl, rfl, rfl, fun _ => ⟨rfl, rfl⟩, fun q => (by cases q)⟩
  · rename_i ht
    split at h
    · cases h
    · rename_i i hi
      obtain ⟨p, _, h⟩ := Res.bind_eq_ok.1 h
      cases h
      exact ⟨by cases tempOpens <;> simp_all, rfl, rfl, rfl, rfl, rfl, rfl, rfl, fun q => (by cases q), fun _ => rfl⟩

/-- **C52, defect.** If `saveDiff` is called again while its process is running and cannot open its temporary file, then the end of the
first process is undefined behaviour (the temporary file is gone), however it ends. -/
theorem C52_failed_save_ub {ops : List MLOp} {s : MLState} (h : History ops s) {dir : Str} {args : List Str} {input : Option Str}
    (hp : s.process = some (.saveDiff dir args input)) {url : Str} (hl : lastSave ops = some (url, false)) (copyOk : Bool) (r : ProcessResult) :
    s.slotWriteDiffOutput copyOk r = Res.ub := by
  have := history_save h ⟨_, _, _, hp⟩
  rw [hl] at this
  have e2 : false = s.diffTemp := congrArg Prod.snd (Option.some.inj this)
  unfold MLState.slotWriteDiffOutput
  rw [if_pos e2.symm]

/-- **C52.** These two cases are all: a process for saving was started by some call of `saveDiff`. -/
theorem C52_saving {ops : List MLOp} {s : MLState} (h : History ops s) {dir : Str} {args : List Str} {input : Option Str}
    (hp : s.process = some (.saveDiff dir args input)) : ∃ url ok, lastSave ops = some (url, ok) :=
  ⟨_, _, history_save h ⟨_, _, _, hp⟩⟩

/-- **C52, defect.** Saving fails silently: if the files are identical or the diff program crashed, or if the copy fails, no error is
announced; in the last case the end of writing is announced although nothing was written. -/
theorem C52_silent_defect {copyOk : Bool} {s s' : MLState} {r : ProcessResult} (h : s.slotWriteDiffOutput copyOk r = Res.ok s') :
    (r.finishedNormally = false → s'.log = s.log) ∧
    (r.finishedNormally = true → copyOk = false → s'.log = s.log ++ [.status .FinishedWritingDiff]) := by
  unfold MLState.slotWriteDiffOutput at h
  split at h
  · cases h
  · rw [← Res.ok.inj h]
    refine ⟨fun hf => ?_, fun hf hc => ?_⟩
    · simp [hf]
    · simp [hf, hc, MLState.emit]

theorem finished_models {e : Env} {s s' : MLState} {r : ProcessResult} (w : WF s) (h : s.slotDiffProcessFinished e r = Res.ok s')
    (hf : r.finishedNormally = true) : ∃ p, parse e.win e.cmp s.heap (split r.stdout) = Res.ok p ∧
      s'.models = p.models.map (fun ms => List.range' s.nextModel ms.length) := by
  unfold MLState.slotDiffProcessFinished at h
  dsimp only at h
  rw [if_pos hf] at h
  obtain ⟨⟨t, ok⟩, hp, h⟩ := Res.bind_eq_ok.1 h
  obtain ⟨wt, _, _, p, h1, _, h2, h3⟩ := parseDiffOutput_spec (w.keep (keep_emit s _)) hp
  refine ⟨p, h1, ?_⟩
  dsimp only at h
  cases ok with
  | false =>
    obtain ⟨a, b, _⟩ := h2 rfl
    rw [if_pos rfl] at h
    rw [a, ← Res.ok.inj h]
    exact b
  | true =>
    obtain ⟨ms, m, d, a, b, _⟩ := h3 rfl
    rw [if_neg (by simp)] at h
    have hm : t.models = some (List.range' s.nextModel ms.length) := b.models
    have fin : ∀ u : MLState, (do
        let s ← u.updateActions
        Res.ok { (MLState.show_ s).emit (.status .FinishedParsing) with process := none }) = Res.ok s' → u.models = t.models → s'.models = t.models := by
      intro u hu hmod
      obtain ⟨v, hv, hu⟩ := Res.bind_eq_ok.1 hu
      rw [← Res.ok.inj hu]
      exact (quiet_updateActions hv).models.trans hmod
    rw [a, Option.map_some, ← hm]
    cases hi : t.info with
    | none => rw [hi] at h; cases h
    | some i =>
      rw [hi] at h
      dsimp only at h
      by_cases hmode : i.mode ≠ .ShowingDiff
      · rw [if_pos hmode] at h
        obtain ⟨b, hb, h⟩ := Res.bind_eq_ok.1 h
        exact fin b.1 h (quiet_blendOriginal hb).models
      · rw [if_neg hmode] at h
        exact fin t h rfl

/-- **C52, defect.** Opening a diff does not stop a comparison that is running: it stays pending, and when it ends successfully every model
of the opened diff is taken from the list again (deleted, with all changes the user made in the meantime) and the result of the
comparison is shown instead. -/
theorem C52_stale_result_defect {s s1 s2 s3 : MLState} {op : MLOp} {args : List Str} {input : Option Str} (hs : Reachable s)
    (hp : s.process = some (.compare args input))
    (hop : (∃ e f, op = .openDiff e f) ∨ (∃ e t, op = .parseAndOpenDiff e t) ∨ ∃ e, op = .openFileAndDiff e)
    (h1 : op.run s = Res.ok s1) {uops : List UserOp} (h2 : runUser uops s1 = Res.ok s2) {e : Env} {r : ProcessResult}
    (hf : r.finishedNormally = true) (h3 : s2.slotDiffProcessFinished e r = Res.ok s3) :
    s2.process = some (.compare args input) ∧
    (∀ m ∈ s1.models.getD [], m ∉ s3.models.getD []) ∧
    ∃ p, parse e.win e.cmp s2.heap (split r.stdout) = Res.ok p ∧ (s3.models.getD []).length = (p.models.getD []).length := by
  have q1 : s1.process = s.process := by
    have := C52_pending h1
    rcases hop with ⟨e, f, rfl⟩ | ⟨e, f, rfl⟩ | ⟨e, rfl⟩ <;> exact this
  have key : ∀ (uops : List UserOp) (a b : MLState), runUser uops a = Res.ok b → b.process = a.process ∧ Keep a b := by
    intro uops
    induction uops with
    | nil => intro a b h; cases h; exact ⟨rfl, .refl _⟩
    | cons o uops ih =>
      intro a b h
      obtain ⟨c, h4, h5⟩ := Res.bind_eq_ok.1 h
      obtain ⟨h6, h7⟩ := ih c b h5
      exact ⟨h6.trans (leaves_user o a c h4).process, (keep_user h4).trans h7⟩
  obtain ⟨q2, k2⟩ := key uops s1 s2 h2
  have w1 : WF s1 := wf_op hs.wf h1
  have w2 : WF s2 := w1.keep k2
  obtain ⟨p, p1, p2⟩ := finished_models w2 h3 hf
  refine ⟨q2.trans (q1.trans hp), ?_, p, p1, ?_⟩
  · intro m hm hm3
    have hlt : m < s1.nextModel := w1.models m hm
    rw [p2] at hm3
    cases hpm : p.models with
    | none => rw [hpm] at hm3; simp at hm3
    | some ms =>
      rw [hpm] at hm3
      have := List.mem_range'.1 hm3
      obtain ⟨i, _, e⟩ := this
      have := k2.nextModel
      omega
  · rw [p2]
    cases p.models <;> simp

/-! ## C53 -/

theorem parent_plain {url : Str → Url} {a b : Str} (ha : PlainPath url a) (hb : PlainPath url b) :
    (url a).isParentOf (url b) = true ↔ a <+: b ∧ (if a.getLast? = some '/' then a.length < b.length else (b.drop a.length).head? = some '/') := by
  rw [ha, hb]
  unfold Url.isParentOf
  split <;> simp [*, List.isPrefixOf_iff_prefix]

/-- **C53.** The name under which an absolute path without empty components is given to the process stands for that file in the working
directory of the process, for every directory that ends in `/` (or none). -/
theorem C53_name (e : Env) {dir to : Str} (hd : dir = [] ∨ PlainPath e.url dir ∧ dir.getLast? = some '/') (ht : PlainPath e.url to)
    (habs : to.head? = some '/') (hne : ¬ str "//" <:+: to) : resolve dir (e.relative dir to) = to := by
  by_cases h0 : dir = []
  · subst h0
    rw [relative_nil]
    simp [resolve, habs]
  · obtain ⟨hp, hl⟩ := hd.resolve_left h0
    unfold Env.relative constructRelativePath
    rw [if_neg h0, if_neg (by rw [hp]; simp)]
    by_cases hpar : (e.url dir).isParentOf (e.url to) = true
    · rw [if_pos hpar]
      obtain ⟨⟨rest, rfl⟩, h2⟩ := (parent_plain hp ht).1 hpar
      rw [hp]
      simp only [List.drop_left]
      have hr : rest.head? ≠ some '/' := by
        intro hr
        cases rest with
        | nil => simp at hr
        | cons x rest =>
          simp only [List.head?_cons, Option.some.injEq] at hr
          subst hr
          apply hne
          obtain ⟨d, rfl⟩ : ∃ d, dir = d ++ ['/'] := by
            obtain ⟨d, hd⟩ := List.getLast?_eq_some_iff.1 hl
            exact ⟨d, hd⟩
          exact ⟨d, rest, by simp [str]⟩
      unfold resolve
      rw [if_neg hr, if_pos hl]
    · rw [if_neg hpar, if_pos (by rw [hp])]
      simp [resolve, habs]

/-- **C53.** So a diff saved with such a directory is made from the two files of the comparison, in that directory. -/
theorem C53_saveDiff {e : Env} {s s' : MLState} {url dir : Str} {settings : Option Settings} {i : Info} (hi : s.info = some i)
    (h : s.saveDiff e true url dir settings = Res.ok (s', true)) (hd : dir = [] ∨ PlainPath e.url dir ∧ dir.getLast? = some '/')
    (hs : ∀ f, f = i.localSource ∨ f = i.localDestination → PlainPath e.url f ∧ f.head? = some '/' ∧ ¬ str "//" <:+: f) :
    ∃ options a b, s'.process = some (.saveDiff dir (options ++ [str "--", a, b]) none) ∧
      resolve dir a = i.localSource ∧ resolve dir b = i.localDestination := by
  have hr : (MLOp.saveDiff e true url dir settings).run s = Res.ok s' := by
    simp only [MLOp.run, h, Res.bind_ok]
  obtain ⟨j, args, h1, h2, h3⟩ := C52_pending hr
  have : i = j := Option.some.inj (hi.symm.trans h1)
  subst this
  obtain ⟨cmd, h2⟩ : ∃ cmd, (cmd ++ [str "--", e.relative dir i.localSource, e.relative dir i.localDestination], none) = args := by
    unfold processArgs at h2
    dsimp only at h2
    cases settings with
    | none => cases h2
    | some st => exact ⟨_, Res.ok.inj h2⟩
  refine ⟨cmd, e.relative dir i.localSource, e.relative dir i.localDestination, ?_, ?_, ?_⟩
  · rw [h3, ← h2]
  · obtain ⟨a, b, c⟩ := hs _ (.inl rfl)
    exact C53_name e hd a b c
  · obtain ⟨a, b, c⟩ := hs _ (.inr rfl)
    exact C53_name e hd a b c

/-- **C53, defect.** A directory without `/` at its end: every file below it is given to the process by a name that stands for another
file, the one at the same place below the root directory. -/
theorem C53_slash_defect (e : Env) {dir rest : Str} (hp : PlainPath e.url dir) (hne : dir ≠ []) (hl : dir.getLast? ≠ some '/')
    (ht : PlainPath e.url (dir ++ '/' :: rest)) :
    e.relative dir (dir ++ '/' :: rest) = '/' :: rest ∧ resolve dir (e.relative dir (dir ++ '/' :: rest)) = '/' :: rest ∧
      '/' :: rest ≠ dir ++ '/' :: rest := by
  have hpar : (e.url dir).isParentOf (e.url (dir ++ '/' :: rest)) = true := by
    rw [parent_plain hp ht, if_neg hl]
    exact ⟨List.prefix_append _ _, by simp⟩
  have hr : e.relative dir (dir ++ '/' :: rest) = '/' :: rest := by
    unfold Env.relative constructRelativePath
    rw [if_neg hne, if_neg (by rw [hp]; simp), if_pos hpar, hp]
    simp
  refine ⟨hr, by rw [hr]; simp [resolve], ?_⟩
  intro h
  have := congrArg List.length h
  simp only [List.length_cons, List.length_append] at this
  exact hne (List.length_eq_zero_iff.1 (by omega))

/-- **C53, defect.** A relative name of a file outside the directory is passed unchanged, so that in the working directory of the process it
stands for a file below that directory. -/
theorem C53_relative_defect (e : Env) {dir to : Str} (hp : PlainPath e.url dir) (hne : dir ≠ []) (hl : dir.getLast? = some '/')
    (ht : PlainPath e.url to) (hrel : to.head? ≠ some '/') (hout : ¬ dir <+: to) : resolve dir (e.relative dir to) = dir ++ to := by
  have hpar : ¬ (e.url dir).isParentOf (e.url to) = true := by
    rw [parent_plain hp ht]
    exact fun h => hout h.1
  unfold Env.relative constructRelativePath
  rw [if_neg hne, if_neg (by rw [hp]; simp), if_neg hpar, if_pos (by rw [hp])]
  simp [resolve, hrel, hl]

/-- **C53.** A name with a scheme or a host (a remote file) is passed unchanged, whatever the local directory is. -/
theorem C53_remote (e : Env) {dir to : Str} (hp : PlainPath e.url dir) (ht : (e.url to).scheme ≠ [] ∨ (e.url to).authority ≠ []) :
    e.relative dir to = to := by
  have hpar : ¬ (e.url dir).isParentOf (e.url to) = true := by
    rw [hp]
    unfold Url.isParentOf
    rcases ht with ht | ht
    · simp [ht, Ne.symm ht]
    · simp [ht, Ne.symm ht]
  unfold Env.relative constructRelativePath
  by_cases hne : dir = []
  · rw [if_pos hne]
  · rw [if_neg hne, if_neg (by rw [hp]; simp), if_neg hpar, if_pos (by rw [hp])]

/-- A file on a server. -/
example : ∃ (e : Env) (dir to : Str), dir ≠ [] ∧ PlainPath e.url dir ∧ (e.url to).scheme ≠ [] :=
  ⟨{ emptyEnv with url := fun u => if u.contains ':' then ⟨true, str "ftp", str "host", u⟩ else ⟨true, [], [], u⟩ }, str "/d/",
    str "ftp://host/f", by decide, by unfold PlainPath; decide, by decide⟩

/-! ### Examples -/

/-- Operands and settings. -/
def exampleOperands : Info := { mode := .ComparingFiles, localSource := str "/d/a", localDestination := str "/e/b" }

/-- The history: a diff is to be saved, then again, but this time there is no temporary file. -/
def exampleSaves : List MLOp :=
  [.setInfo (some exampleOperands), .saveDiff emptyEnv true (str "file:/x.diff") (str "/d/") (some { diffProgram := str "mydiff" }),
   .saveDiff emptyEnv false (str "file:/y.diff") [] (some {})]

/-- The state after the first `saveDiff`. -/
def exampleSaving : MLState :=
  { (MLState.init none true ⟨fun _ => Diff.new 0 0 .Unchanged, 0⟩) with
    info := some exampleOperands
    process := some (.saveDiff (str "/d/") ({ diffProgram := str "mydiff" : Settings }.commandLine ++ [str "--", str "a", str "/e/b"]) none)
    diffTemp := true
    diffURL := str "file:/x.diff"
    log := [.status .RunningDiff] }

/-- The state after both. -/
def exampleSavingTwice : MLState :=
  { exampleSaving with diffTemp := false, diffURL := str "file:/y.diff", log := [.status .RunningDiff, .error .tempFile] }

theorem exampleSaving_run : (MLOp.saveDiff emptyEnv true (str "file:/x.diff") (str "/d/") (some { diffProgram := str "mydiff" })).run
    ((MLState.init none true ⟨fun _ => Diff.new 0 0 .Unchanged, 0⟩).setInfo (some exampleOperands)) = Res.ok exampleSaving := rfl

theorem exampleSaving_history : History (exampleSaves.take 2) exampleSaving :=
  .call (ops := [.setInfo (some exampleOperands)]) (.call (ops := []) (.new none true ⟨fun _ => Diff.new 0 0 .Unchanged, 0⟩)
    (op := .setInfo (some exampleOperands)) trivial rfl)
    (op := .saveDiff emptyEnv true (str "file:/x.diff") (str "/d/") (some { diffProgram := str "mydiff" })) trivial exampleSaving_run

theorem exampleSavingTwice_history : History exampleSaves exampleSavingTwice :=
  .call exampleSaving_history (op := .saveDiff emptyEnv false (str "file:/y.diff") [] (some {})) trivial rfl

example : ∃ s', exampleSaving.saveDiff emptyEnv false (str "file:/y.diff") [] (some {}) = Res.ok (s', false) := ⟨exampleSavingTwice, rfl⟩

example (out : Str) : exampleSaving.slotWriteDiffOutput true ⟨1, .NormalExit, out, []⟩ = Res.ok { exampleSaving with
      process := none, diffTemp := false, diffURL := [],
      log := [.status .RunningDiff, .upload (str "file:/x.diff") out, .status .FinishedWritingDiff] } :=
  C52_written exampleSaving_history rfl rfl true _

example (r : ProcessResult) : exampleSavingTwice.slotWriteDiffOutput true r = Res.ub := C52_failed_save_ub exampleSavingTwice_history rfl rfl true r

/-- The names are right: `a` in `/d/` is `/d/a`. -/
example : ∃ options a b, exampleSaving.process = some (.saveDiff (str "/d/") (options ++ [str "--", a, b]) none) ∧
    resolve (str "/d/") a = str "/d/a" ∧ resolve (str "/d/") b = str "/e/b" :=
  C53_saveDiff (e := emptyEnv) (s := (MLState.init none true ⟨fun _ => Diff.new 0 0 .Unchanged, 0⟩).setInfo (some exampleOperands))
    (i := exampleOperands) (url := str "file:/x.diff") (settings := some { diffProgram := str "mydiff" }) rfl rfl (.inr ⟨by decide, by decide⟩)
    (by rintro f (rfl | rfl) <;> exact ⟨by decide, by decide, by decide⟩)

example : emptyEnv.relative (str "/d") (str "/d/a") = str "/a" := 
  (C53_slash_defect emptyEnv (dir := str "/d") (rest := str "a") (by decide) (by decide) (by decide) (by decide)).1

example : resolve (str "/d/") (emptyEnv.relative (str "/d/") (str "x/a")) = str "/d/x/a" :=
  C53_relative_defect emptyEnv (by decide) (by decide) (by decide) (by decide) (by decide) (by decide)

/-- A comparison is running while a diff is opened: the opened models are gone at the end. -/
example : ∃ s args input s1 s3, Reachable s ∧ s.process = some (.compare args input) ∧
    (MLOp.parseAndOpenDiff emptyEnv exampleDiff.render.flatten).run s = Res.ok s1 ∧ runUser [] s1 = Res.ok s1 ∧
    s1.slotDiffProcessFinished emptyEnv ⟨1, .NormalExit, exampleDiff.render.flatten, []⟩ = Res.ok s3 ∧
    s1.models.getD [] ≠ [] ∧ ∀ m ∈ s1.models.getD [], m ∉ s3.models.getD [] := by
  have hr : Reachable _ := ⟨some {}, true, ⟨fun _ => Diff.new 0 0 .Unchanged, 0⟩, [.setInfo (some exampleOperands), .refresh emptyEnv], rfl⟩
  generalize hs : MLState.emit _ (Event.status Status.RunningDiff) = s at hr
  have hp : ∃ args input, s.process = some (.compare args input) := by rw [← hs]; exact ⟨_, _, rfl⟩
  have hi : s.info ≠ none := by rw [← hs]; simp [MLState.emit, MLState.clear, MLState.setInfo]
  obtain ⟨args, input, hp⟩ := hp
  obtain ⟨s1, h1⟩ := opens_unified hr hi emptyEnv exampleDiff exampleDiff_ok (by decide) rfl
  obtain ⟨_, ms, k, j, m, d, h2, hms, hsel⟩ := C37_selection_valid hr h1 [] (by simp)
  have h1' : s.parseAndOpenDiff emptyEnv exampleDiff.render.flatten = Res.ok (s1, true) := h1
  have hrun : (MLOp.parseAndOpenDiff emptyEnv exampleDiff.render.flatten).run s = Res.ok s1 := by
    simp only [MLOp.run, h1', Res.bind_ok]
  have hi1 : s1.info ≠ none := by
    unfold MLState.parseAndOpenDiff at h1'
    dsimp only at h1'
    obtain ⟨⟨t, ok⟩, a, b⟩ := Res.bind_eq_ok.1 h1'
    obtain ⟨_, ⟨_, i', _, hi', _⟩, _⟩ := parseDiffOutput_events a
    dsimp only at b
    split at b
    · cases b
    · obtain ⟨u, c, b⟩ := Res.bind_eq_ok.1 b
      have : _ = s1 := congrArg Prod.fst (Res.ok.inj b)
      rw [← this]
      show u.info ≠ none
      rw [(quiet_updateActions c).info, hi']; simp
  have hr1 : Reachable s1 := by
    obtain ⟨st, rw', hp, ops, h⟩ := hr
    refine ⟨st, rw', hp, ops ++ [.parseAndOpenDiff emptyEnv exampleDiff.render.flatten], ?_⟩
    have key : ∀ (ops : List MLOp) (a b : MLState) (l : List MLOp), runSession ops a = Res.ok b → runSession (ops ++ l) a = runSession l b := by
      intro ops
      induction ops with
      | nil => intro a b l h; cases h; rfl
      | cons o ops ih =>
        intro a b l h
        obtain ⟨c, h4, h5⟩ := Res.bind_eq_ok.1 h
        simp only [List.cons_append, runSession, h4, Res.bind_ok]
        exact ih c b l h5
    rw [key ops _ s _ h]
    simp only [runSession, hrun, Res.bind_ok]
  obtain ⟨p, hp2, _⟩ := C26_unified exampleDiff exampleDiff_ok (by decide) false emptyEnv.cmp s1.heap
  obtain ⟨s3, h3⟩ := C46_total (e := emptyEnv) (r := ⟨1, .NormalExit, exampleDiff.render.flatten, []⟩) hr1 hi1 hp2
  refine ⟨s, args, input, s1, s3, hr, hp, hrun, rfl, h3, ?_, ?_⟩
  · rw [hms]
    intro h
    have := hsel.model
    simp only [Option.getD_some] at h
    rw [h] at this
    cases this
  · exact (C52_stale_result_defect hr hp (.inr (.inl ⟨_, _, rfl⟩)) hrun (uops := []) rfl (by decide) h3).2.1

end KompareDiff2
