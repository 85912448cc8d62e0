import Verif.Proofs.Events
import Verif.Proofs.OpenTotal
import Verif.Props.ModelList
/-
Properties of comparing, of the result of the diff program and of saving: C36, C41, C46.
-/
namespace KompareDiff2
open Spec

/-! ## C41 -/

/-- What an operand of a comparison can be. -/
inductive Operand where
  | directory
  | patch
  | file
  deriving DecidableEq

/-- The kind of the operand with a local path. -/
def Env.kind (e : Env) (p : Str) : Operand :=
  if e.isDir p then .directory else if e.isPatch p then .patch else .file

/-- The mode for two operands, and whether they are to be swapped: the patch becomes the destination, the directory the source. -/
def Operand.decide : Operand → Operand → Mode × Bool
  | .directory, .directory => (.ComparingDirs, false)
  | .directory, _ => (.BlendingDir, false)
  | _, .directory => (.BlendingDir, true)
  | .file, .patch => (.BlendingFile, false)
  | .patch, .file => (.BlendingFile, true)
  | .file, .file => (.ComparingFiles, false)
  | .patch, .patch => (.ComparingFiles, false)

/-- The kind of the destination when a patch is blended, the kind of the source when a directory is involved: whichever way round the
operands were given, the destination is what is read as a diff and the source what it is blended with. -/
theorem C41_roles (a b : Operand) :
    ((Operand.decide a b).1 = .BlendingFile → (if (Operand.decide a b).2 then a else b) = .patch ∧ (if (Operand.decide a b).2 then b else a) = .file) ∧
    ((Operand.decide a b).1 = .BlendingDir → (if (Operand.decide a b).2 then b else a) = .directory ∧ (if (Operand.decide a b).2 then a else b) ≠ .directory) ∧
    ((Operand.decide a b).1 = .ComparingFiles → a = b ∧ a ≠ .directory) ∧ ((Operand.decide a b).1 = .ComparingDirs → a = .directory ∧ b = .directory) := by
  cases a <;> cases b <;> simp [Operand.decide]

/-- Without a directory the names are passed as they are. -/
theorem relative_nil (e : Env) : e.relative [] = id := by funext p; simp [Env.relative, constructRelativePath]

theorem compareMode_info {e : Env} {s s' : MLState} {mode : Mode} {b : Bool} (h : s.compareMode e mode = Res.ok (s', b)) :
    ∃ i args, s.info = some i ∧ s'.info = some i ∧ b = true ∧
      processArgs id s.settings .Custom mode i.localSource i.localDestination = Res.ok args ∧ s'.process = some (.compare args.1 args.2) ∧
      s'.log = s.log ++ [.modelsChanged (s.models.map (fun _ => [])), .status .RunningDiff] := by
  unfold MLState.compareMode at h
  dsimp only at h
  have hc : s.clear.info = s.info := rfl
  cases hi : s.info with
  | none => rw [hc, hi] at h; cases h
  | some i =>
    rw [hc, hi] at h
    dsimp only at h
    obtain ⟨p, hp, h⟩ := Res.bind_eq_ok.1 h
    rw [relative_nil] at hp
    have := Res.ok.inj h
    injection this with e1 e2
    subst e1
    refine ⟨i, p, rfl, rfl, e2.symm, hp, rfl, ?_⟩
    show (s.log ++ [_]) ++ [_] = _
    rw [List.append_assoc]; rfl

/-- C41: `compare()` chooses the mode and the roles of the operands by their kinds; both operands are kept, all of what belongs to them is
swapped together or not at all; exactly in the comparing modes the diff program is started, with the operands in their order. -/
theorem C41_compare {e : Env} {s s' : MLState} {b : Bool} (h : s.compare e = Res.ok (s', b)) :
    ∃ i i' : Info, s.info = some i ∧ s'.info = some i' ∧
      i'.mode = (Operand.decide (e.kind i.localSource) (e.kind i.localDestination)).1 ∧
      Info.SameOperands (if (Operand.decide (e.kind i.localSource) (e.kind i.localDestination)).2 then { i with mode := i'.mode }.swap
        else { i with mode := i'.mode }) i' ∧
      (if i'.mode = .ComparingFiles ∨ i'.mode = .ComparingDirs then
        ∃ args, processArgs id s.settings .Custom i'.mode i.localSource i.localDestination = Res.ok args ∧
          s'.process = some (.compare args.1 args.2) ∧ b = true
       else s'.process = s.process) := by
  unfold MLState.compare at h
  cases hi : s.info with
  | none => rw [hi] at h; cases h
  | some i =>
    rw [hi] at h
    dsimp only at h
    refine ⟨i, ?_⟩
    split at h
    · rename_i hk
      have e1 : Operand.decide (e.kind i.localSource) (e.kind i.localDestination) = (.ComparingDirs, false) := by
        simp [Env.kind, hk, Operand.decide]
      obtain ⟨j, args, h1, h2, h3, h4, h5, _⟩ := compareMode_info h
      have h1 := Option.some.inj h1
      subst h1
      rw [e1]
      exact ⟨_, rfl, h2, rfl, rfl, by rw [if_pos (.inr rfl)]; exact ⟨args, h4, h5, h3⟩⟩
    · rename_i hk
      split at h
      · rename_i hk2
        split at h
        · rename_i hp
          have e1 : Operand.decide (e.kind i.localSource) (e.kind i.localDestination) = (.BlendingFile, false) := by
            simp [Env.kind, hk2, hp, Operand.decide]
          obtain ⟨⟨j, i', h1, h2, h3⟩, h4⟩ := openAndDiff_info h
          have h1 := Option.some.inj h1
          subst h1
          rw [e1]
          have hm : i'.mode = .BlendingFile := congrArg Info.mode h3
          refine ⟨i', rfl, h2, hm, ?_, by rw [hm, if_neg (by decide)]; exact h4⟩
          rw [hm]; exact h3
        · rename_i hp
          split at h
          · rename_i hp2
            have e1 : Operand.decide (e.kind i.localSource) (e.kind i.localDestination) = (.BlendingFile, true) := by
              simp [Env.kind, hk2, hp2, Operand.decide]
            obtain ⟨⟨j, i', h1, h2, h3⟩, h4⟩ := openAndDiff_info h
            have h1 := Option.some.inj h1
            subst h1
            rw [e1]
            have hm : i'.mode = .BlendingFile := congrArg Info.mode h3
            refine ⟨i', rfl, h2, hm, ?_, by rw [hm, if_neg (by decide)]; exact h4⟩
            rw [hm]; exact h3
          · rename_i hp2
            have e1 : Operand.decide (e.kind i.localSource) (e.kind i.localDestination) = (.ComparingFiles, false) := by
              cases ha : e.isPatch i.localSource <;> cases hb : e.isPatch i.localDestination <;>
                simp_all [Env.kind, Operand.decide]
            obtain ⟨j, args, h1, h2, h3, h4, h5, _⟩ := compareMode_info h
            have h1 := Option.some.inj h1
            subst h1
            rw [e1]
            exact ⟨_, rfl, h2, rfl, rfl, by rw [if_pos (.inl rfl)]; exact ⟨args, h4, h5, h3⟩⟩
      · rename_i hk2
        split at h
        · rename_i hk3
          have e1 : Operand.decide (e.kind i.localSource) (e.kind i.localDestination) = (.BlendingDir, false) := by
            cases hb : e.isPatch i.localDestination <;> simp [Env.kind, hk3, hb, Operand.decide]
          obtain ⟨⟨j, i', h1, h2, h3⟩, h4⟩ := openAndDiff_info h
          have h1 := Option.some.inj h1
          subst h1
          rw [e1]
          have hm : i'.mode = .BlendingDir := congrArg Info.mode h3
          refine ⟨i', rfl, h2, hm, ?_, by rw [hm, if_neg (by decide)]; exact h4⟩
          rw [hm]; exact h3
        · rename_i hk3
          have e1 : Operand.decide (e.kind i.localSource) (e.kind i.localDestination) = (.BlendingDir, true) := by
            cases ha : e.isDir i.localSource <;> cases hb : e.isDir i.localDestination <;> cases hc : e.isPatch i.localSource <;>
              simp_all [Env.kind, Operand.decide]
          obtain ⟨⟨j, i', h1, h2, h3⟩, h4⟩ := openAndDiff_info h
          have h1 := Option.some.inj h1
          subst h1
          rw [e1]
          have hm : i'.mode = .BlendingDir := congrArg Info.mode h3
          refine ⟨i', rfl, h2, hm, ?_, by rw [hm, if_neg (by decide)]; exact h4⟩
          rw [hm]; exact h3

/-- C41: with operands of the same kind (and settings) `compare()` always succeeds in starting the diff program. -/
theorem C41_comparing_total {e : Env} {s : MLState} {i : Info} {st : Settings} (hi : s.info = some i) (hs : s.settings = some st)
    (hk : e.kind i.localSource = e.kind i.localDestination) : ∃ s', s.compare e = Res.ok (s', true) := by
  have hm : ∀ (mode : Mode) (t : MLState) (j : Info), t.info = some j → t.settings = some st → ∃ s', t.compareMode e mode = Res.ok (s', true) := by
    intro mode t j h1 h2
    unfold MLState.compareMode
    dsimp only
    rw [show t.clear.info = some j from h1, show t.clear.settings = some st from h2]
    exact ⟨_, rfl⟩
  unfold MLState.compare
  rw [hi]
  dsimp only
  unfold Env.kind at hk
  cases ha : e.isDir i.localSource <;> cases hb : e.isDir i.localDestination <;> cases hc : e.isPatch i.localSource <;>
    cases hd : e.isPatch i.localDestination <;> simp_all
  all_goals exact hm _ _ _ rfl (by first | exact hs | rfl)

/-- C41: reading a patch (whichever operand it is) is well defined whenever parsing the text of that operand is. -/
theorem C41_blending_total {e : Env} {s : MLState} {i : Info} {p : ParseResult} (hs : Reachable s) (hi : s.info = some i)
    (hk : e.kind i.localSource ≠ e.kind i.localDestination)
    (hp : parse e.win e.cmp s.heap (split (e.contents (if (Operand.decide (e.kind i.localSource) (e.kind i.localDestination)).2 then i.localSource
      else i.localDestination))) = Res.ok p) : ∃ r, s.compare e = Res.ok r := by
  have main : ∀ (t : MLState) (j : Info), WF t → t.info = some j → t.heap = s.heap →
      parse e.win e.cmp s.heap (split (e.contents j.localDestination)) = Res.ok p → ∃ r, t.openAndDiff e = Res.ok r := by
    intro t j w hj hh hp
    unfold MLState.openAndDiff
    rw [hj]
    dsimp only
    have wc : WF t.clear := w.keep (keep_clear t)
    obtain ⟨u, hu⟩ := parseDiffOutput_total (s := t.clear) (text := e.contents j.localDestination) wc
      (by show t.info ≠ none; rw [hj]; simp) (by show parse e.win e.cmp t.heap _ = _; rw [hh]; exact hp)
    obtain ⟨wu, _, _, _, _, _, _, htrue⟩ := parseDiffOutput_spec wc hu
    simp only [hu, Res.bind_ok]
    cases hm : p.models.isSome with
    | false => exact ⟨_, rfl⟩
    | true =>
      obtain ⟨ms, m, d, _, ho, ha, _⟩ := htrue hm
      rw [if_neg (by simp)]
      obtain ⟨v, hv, hov, wv, _, hsv, _⟩ := setDepth_ok ho wu ⟨0, 0, m, d, ha⟩
      obtain ⟨x, b, hb, hox, _, _, hsx, _⟩ := blendOriginal_ok e hov wv j.localSource hsv
      rw [hv, Res.bind_ok, hb, Res.bind_ok]
      dsimp only
      cases b with
      | false => exact ⟨_, rfl⟩
      | true =>
        obtain ⟨y, hy⟩ := updateActions_selected hox hsx
        rw [if_neg (by simp), hy]
        exact ⟨_, rfl⟩
  have w := hs.wf
  unfold MLState.compare
  rw [hi]
  dsimp only
  unfold Env.kind at hk hp
  cases ha : e.isDir i.localSource <;> cases hb : e.isDir i.localDestination <;> cases hc : e.isPatch i.localSource <;>
    cases hd : e.isPatch i.localDestination <;> simp [ha, hb, hc, hd, Operand.decide] at hk hp <;>
    simp only [reduceCtorEq, and_true, true_and, and_false, and_self, if_true, if_false, true_implies]
  all_goals
    refine main _ _ (w.info _) rfl rfl ?_
    exact hp

/-- A file system with a patch that contains the diff of C26 and some other file. -/
def exampleEnv : Env :=
  { emptyEnv with
    isFile := fun _ => true, isPatch := fun p => decide (p = str "p.diff")
    contents := fun p => if p = str "p.diff" then exampleDiff.render.flatten else str "x\n" }

/-- The hypotheses are met with the patch as source: the operands are swapped. -/
example : ∃ r, (exampleStart.setInfo (some { localSource := str "p.diff", localDestination := str "f" })).compare exampleEnv = Res.ok r := by
  obtain ⟨_, h⟩ := example_opens
  have h : exampleStart.parseAndOpenDiff emptyEnv exampleDiff.render.flatten = Res.ok (_, true) := h
  unfold MLState.parseAndOpenDiff at h
  obtain ⟨⟨t, b⟩, h1, _⟩ := Res.bind_eq_ok.1 h
  obtain ⟨⟨p, hp, _⟩, _⟩ := parseDiffOutput_events h1
  exact C41_blending_total (i := { localSource := str "p.diff", localDestination := str "f" })
    ⟨none, true, ⟨fun _ => Diff.new 0 0 .Unchanged, 0⟩, [.setInfo (some {}), .setInfo (some { localSource := str "p.diff", localDestination := str "f" })], rfl⟩
    rfl (by decide) hp

/-- `swap()` compares again, exactly as `refresh()`, if two files or two directories were compared, and else changes nothing at all. -/
theorem C41_swap {e : Env} {s : MLState} {i : Info} (hi : s.info = some i) :
    ((i.mode = .ComparingFiles ∨ i.mode = .ComparingDirs) → s.swap e = s.refresh e) ∧
    (¬(i.mode = .ComparingFiles ∨ i.mode = .ComparingDirs) → s.swap e = Res.ok s) := by
  unfold MLState.swap MLState.refresh
  rw [hi]
  exact ⟨fun h => if_pos h, fun h => if_neg h⟩

/-- C41, defect: `swap()` runs the comparison again with the operands as they are: it does not swap them. -/
theorem C41_swap_defect {e : Env} {s s' : MLState} (h : s.swap e = Res.ok s') : s'.info = s.info := by
  unfold MLState.swap at h
  cases hi : s.info with
  | none => rw [hi] at h; cases h
  | some i =>
    rw [hi] at h
    dsimp only at h
    split at h
    · obtain ⟨⟨t, b⟩, h1, h⟩ := Res.bind_eq_ok.1 h
      obtain ⟨j, _, h2, h3, _⟩ := compareMode_info h1
      rw [← Res.ok.inj h]
      rw [hi] at h2
      rw [h2]; exact h3
    · rw [← Res.ok.inj h]; exact hi

/-- C41: `refresh()` empties the list and runs the diff program again on the same operands and in the mode of the comparison. -/
theorem C41_refresh {e : Env} {s s' : MLState} (h : s.refresh e = Res.ok s') :
    ∃ i args, s.info = some i ∧ s'.info = some i ∧ processArgs id s.settings .Custom i.mode i.localSource i.localDestination = Res.ok args ∧
      s'.process = some (.compare args.1 args.2) ∧ s'.log = s.log ++ [.modelsChanged (s.models.map (fun _ => [])), .status .RunningDiff] := by
  unfold MLState.refresh at h
  cases hi : s.info with
  | none => rw [hi] at h; cases h
  | some i =>
    rw [hi] at h
    obtain ⟨⟨t, b⟩, h1, h⟩ := Res.bind_eq_ok.1 h
    obtain ⟨j, args, h2, h3, _, h5, h6, h7⟩ := compareMode_info h1
    rw [hi] at h2
    cases h2
    rw [← Res.ok.inj h]
    exact ⟨i, args, rfl, h3, h5, h6, h7⟩

/-- C41, defect: `refresh()` while a patch is blended into a file or directory does not blend again: the file or directory and the patch are
compared with each other. -/
theorem C41_refresh_defect {e : Env} {s s' : MLState} {i : Info} {st : Settings} (hi : s.info = some i) (hs : s.settings = some st)
    (hm : i.mode = .BlendingFile ∨ i.mode = .BlendingDir) (h : s.refresh e = Res.ok s') :
    s'.process = some (.compare (st.commandLine ++ [str "--", i.localSource, i.localDestination]) none) := by
  obtain ⟨j, args, h1, _, h3, h4, _⟩ := C41_refresh h
  rw [hi] at h1
  cases h1
  rw [h4]
  unfold processArgs at h3
  rw [hs] at h3
  rcases hm with hm | hm <;>
    (rw [hm] at h3
     simp only [if_neg (show ¬ DiffMode.Custom = DiffMode.Default by decide), Res.bind_ok, id_eq] at h3
     rw [← Res.ok.inj h3]
     rfl)

/-- A file with a patch blended into it is refreshed. -/
example (e : Env) (s : MLState) (st : Settings) :
    ∃ s', { s with info := some { localSource := str "f", localDestination := str "p.diff", mode := .BlendingFile }, settings := some st }.refresh e = Res.ok s' ∧
      s'.process = some (.compare (st.commandLine ++ [str "--", str "f", str "p.diff"]) none) :=
  have h : ∃ s', { s with info := some { localSource := str "f", localDestination := str "p.diff", mode := .BlendingFile }, settings := some st }.refresh e = Res.ok s' := by
    simp only [MLState.refresh, MLState.compareMode, MLState.clear, MLState.emit, processArgs, Res.bind_ok, if_neg (show ¬ DiffMode.Custom = DiffMode.Default by decide)]
    exact ⟨_, rfl⟩
  h.elim fun s' h => ⟨s', h, C41_refresh_defect (i := { localSource := str "f", localDestination := str "p.diff", mode := .BlendingFile }) (st := st) rfl rfl (.inl rfl) h⟩

/-- C41: without operands (no `Info` was ever given) all of these are undefined behaviour. -/
theorem C41_no_info_ub {e : Env} {s : MLState} (hi : s.info = none) :
    s.compare e = Res.ub ∧ s.swap e = Res.ub ∧ s.refresh e = Res.ub ∧ s.openAndDiff e = Res.ub := by
  simp only [MLState.compare, MLState.swap, MLState.refresh, MLState.openAndDiff, hi, and_self]

/-! ## C46 -/

/-- C46: the process counts as successful iff it exited normally with a code other than 0 (so also for the code 2 of an error). -/
theorem C46_success (r : ProcessResult) : r.finishedNormally = true ↔ r.exitStatus = .NormalExit ∧ r.exitCode ≠ 0 := by
  simp [ProcessResult.finishedNormally]

/-- C46: what is announced when the diff program has finished, for each way of finishing; afterwards there is no process any more. -/
theorem C46_events {e : Env} {s s' : MLState} {r : ProcessResult} (h : s.slotDiffProcessFinished e r = Res.ok s') :
    (r.exitStatus = .CrashExit → s' = { s with process := none, log := s.log ++ [.error (.stderr r.stderr)] }) ∧
    (r.exitStatus = .NormalExit → r.exitCode = 0 → s' = { s with process := none, log := s.log ++ [.error .identical] }) ∧
    (r.exitStatus = .NormalExit → r.exitCode ≠ 0 → s'.process = none ∧ ∃ p, parse e.win e.cmp s.heap (split r.stdout) = Res.ok p ∧
      (p.models = none → s'.models = none ∧
        s'.log = s.log ++ [.status .Parsing, .diffString r.stdout, .error .couldNotParse, .status .FinishedParsing]) ∧
      (∀ ms, p.models = some ms → ∃ x xs, ms = x :: xs ∧ s'.models ≠ none ∧
        s'.log = s.log ++ [.status .Parsing, .diffString r.stdout] ++ (if p.malformed then [.error .malformed] else []) ++
          [.statusBar 0 0 ms.length x.differences.length 0, .modelsChanged s'.models, .selection s'.selectedModel s'.selectedDifference,
           .status .FinishedParsing])) := by
  unfold MLState.slotDiffProcessFinished at h
  dsimp only at h
  refine ⟨fun hc => ?_, fun hn h0 => ?_, fun hn h0 => ?_⟩
  · rw [if_neg (by simp [ProcessResult.finishedNormally, hc]), if_neg (by simp [hc])] at h
    exact (Res.ok.inj h).symm
  · rw [if_neg (by simp [ProcessResult.finishedNormally, h0]), if_pos hn] at h
    exact (Res.ok.inj h).symm
  · rw [if_pos ((C46_success r).2 ⟨hn, h0⟩)] at h
    obtain ⟨⟨t, ok⟩, hp, h⟩ := Res.bind_eq_ok.1 h
    obtain ⟨⟨p, h1, h2, h3, h4, h5⟩, _⟩ := parseDiffOutput_events hp
    dsimp only at h
    cases hm : p.models with
    | none =>
      rw [hm] at h2 h3
      subst h2
      rw [if_pos (by rfl)] at h
      have := Res.ok.inj h
      subst this
      refine ⟨rfl, p, h1, fun _ => ⟨(by simpa using h3 : t.models = none), ?_⟩, fun ms hx => by rw [hm] at hx; cases hx⟩
      show (t.log ++ [_]) ++ [_] = _
      rw [h4 hm]
      show (((s.log ++ [_]) ++ [_]) ++ [_]) ++ [_] = _
      simp only [List.append_assoc, List.cons_append, List.nil_append]
    | some ms =>
      rw [hm] at h2 h3
      subst h2
      rw [if_neg (by simp)] at h
      obtain ⟨x, xs, hx, hlog⟩ := h5 ms hm
      have fin : ∀ u : MLState, (do
          let s ← u.updateActions
          Res.ok { (MLState.show_ s).emit (.status .FinishedParsing) with process := none }) = Res.ok s' → u.log = t.log → u.models = t.models →
          s'.process = none ∧ s'.models = t.models ∧
          s'.log = t.log ++ [.modelsChanged s'.models, .selection s'.selectedModel s'.selectedDifference, .status .FinishedParsing] := by
        intro u hu hl hmod
        obtain ⟨v, hv, hu⟩ := Res.bind_eq_ok.1 hu
        have q := quiet_updateActions hv
        have := Res.ok.inj hu
        subst this
        refine ⟨rfl, q.models.trans hmod, ?_⟩
        show ((v.log ++ [_]) ++ [_]) ++ [_] = _
        rw [q.log, hl]
        simp only [List.append_assoc, List.cons_append, List.nil_append]
        rfl
      have main : s'.process = none ∧ s'.models = t.models ∧
          s'.log = t.log ++ [.modelsChanged s'.models, .selection s'.selectedModel s'.selectedDifference, .status .FinishedParsing] := by
        cases hi : t.info with
        | none => rw [hi] at h; cases h
        | some i =>
          rw [hi] at h
          dsimp only at h
          by_cases hmode : i.mode ≠ .ShowingDiff
          · rw [if_pos hmode] at h
            obtain ⟨b, hb, h⟩ := Res.bind_eq_ok.1 h
            have q := quiet_blendOriginal hb
            exact fin b.1 h q.log q.models
          · rw [if_neg hmode] at h
            exact fin t h rfl rfl
      obtain ⟨k1, k2, k3⟩ := main
      refine ⟨k1, p, h1, fun hx => (by rw [hm] at hx; cases hx), fun ms' hx' => ?_⟩
      have hx' := Option.some.inj (hm.symm.trans hx')
      subst hx'
      refine ⟨x, xs, hx, ?_, ?_⟩
      · rw [k2]; intro hn'; rw [hn'] at h3; cases h3
      · rw [k3, hlog]
        show (((s.log ++ [_]) ++ [_]) ++ _ ++ [_]) ++ _ = _
        simp only [List.append_assoc, List.cons_append, List.nil_append]

example : ProcessResult.finishedNormally ⟨2, .NormalExit, [], str "diff: x: No such file"⟩ = true := by decide

/-- C46: handling the end of the process is well defined whenever parsing its output is, for every exit code and status. -/
theorem C46_total {e : Env} {s : MLState} {r : ProcessResult} {p : ParseResult} (hs : Reachable s) (hi : s.info ≠ none)
    (hp : parse e.win e.cmp s.heap (split r.stdout) = Res.ok p) : ∃ s', s.slotDiffProcessFinished e r = Res.ok s' := by
  have w := hs.wf
  unfold MLState.slotDiffProcessFinished
  dsimp only
  by_cases hf : r.finishedNormally = true
  · rw [if_pos hf]
    have w1 : WF (s.emit (.status .Parsing)) := w.keep (keep_emit s _)
    obtain ⟨t, ht⟩ := parseDiffOutput_total (s := s.emit (.status .Parsing)) w1 hi hp
    obtain ⟨wt, _, _, _, _, _, _, htrue⟩ := parseDiffOutput_spec w1 ht
    simp only [ht, Res.bind_ok]
    cases hm : p.models.isSome with
    | false => exact ⟨_, rfl⟩
    | true =>
      obtain ⟨ms, m, d, _, ho, ha, _⟩ := htrue hm
      rw [if_neg (by simp)]
      obtain ⟨i, hin⟩ := Option.ne_none_iff_exists'.1 ho.info
      rw [hin]
      dsimp only
      by_cases hmode : i.mode ≠ .ShowingDiff
      · rw [if_pos hmode]
        obtain ⟨u, b, hb, hou, _, _, hsu, _⟩ := blendOriginal_ok e ho wt i.localSource ⟨0, 0, m, d, ha⟩
        obtain ⟨v, hv⟩ := updateActions_selected hou hsu
        rw [hb, Res.bind_ok, hv]
        exact ⟨_, rfl⟩
      · rw [if_neg hmode]
        obtain ⟨v, hv⟩ := updateActions_selected ho ⟨0, 0, m, d, ha⟩
        rw [hv]
        exact ⟨_, rfl⟩
  · rw [if_neg hf]
    split <;> exact ⟨_, rfl⟩

/-- The hypotheses of C46 are met: the output is the diff of C26 (two files), or nothing. -/
example (code : Int) (st : ExitStatus) (err : Str) : ∃ s', exampleStart.slotDiffProcessFinished emptyEnv ⟨code, st, exampleDiff.render.flatten, err⟩ = Res.ok s' := by
  obtain ⟨_, h⟩ := example_opens
  have h : exampleStart.parseAndOpenDiff emptyEnv exampleDiff.render.flatten = Res.ok (_, true) := h
  unfold MLState.parseAndOpenDiff at h
  obtain ⟨⟨t, b⟩, h1, _⟩ := Res.bind_eq_ok.1 h
  obtain ⟨⟨p, hp, _⟩, _⟩ := parseDiffOutput_events h1
  exact C46_total exampleStart_reachable (by simp [exampleStart, MLState.setInfo]) hp

/-- C46, defect: an error of the diff program (exit code 2) without output is reported as output that could not be parsed: what the
program wrote to its error output is not shown. -/
theorem C46_error_defect {e : Env} {s s' : MLState} {err : Str} (h : s.slotDiffProcessFinished e ⟨2, .NormalExit, [], err⟩ = Res.ok s') :
    s'.log = s.log ++ [.status .Parsing, .diffString [], .error .couldNotParse, .status .FinishedParsing] := by
  obtain ⟨_, _, h3⟩ := C46_events h
  obtain ⟨_, p, hp, hn, _⟩ := h3 rfl (show (2 : Int) ≠ 0 by decide)
  have : parse e.win e.cmp s.heap (split []) = Res.ok p := hp
  have hp' : parse e.win e.cmp s.heap (split []) = Res.ok { models := none, malformed := false, heap := s.heap } := rfl
  rw [hp'] at this
  rw [← Res.ok.inj this] at hn
  exact (hn rfl).2

/-! ## C36 -/

/-- The first step of a save that fails, with the message for it. -/
def MLState.SaveEnv.failure (v : MLState.SaveEnv) (mode : Mode) : Option ErrorKind :=
  if v.tempOpens = false ∨ v.writeOk = false ∨ v.closeOk = false then some .tempFile
  else if mode = .ComparingDirs ∧ v.statOk = false ∧ v.mkdirOk = false then some .mkdir
  else if v.copyOk = false then some .upload else none

/-- Where a model is saved. -/
def saveTarget (i : Info) (m : DModel) : Str :=
  if i.mode = .ComparingDirs then MLState.saveDir i m ++ m.destinationFile else i.destination

theorem modifyAll_saved (ids : List Nat) (h : Heap) (d : Nat) :
    (h.modifyAll (fun d => d.setUnsaved false) ids).cell d = if d ∈ ids then { h.cell d with unsaved := false } else h.cell d := by
  induction ids generalizing h with
  | nil => simp [Heap.modifyAll]
  | cons i is ih =>
    simp only [Heap.modifyAll]
    rw [ih]
    by_cases hd : d = i
    · subst hd; simp [Heap.modify, Diff.setUnsaved]
    · simp [Heap.modify, hd]

/-- C36: what saving a model does.  Without unsaved changes: nothing.  If any step fails: the message for it, nothing else changes, and
nothing is uploaded (but the result is true if the last step failed: defect).  Otherwise: one upload of the selected text, the differences
of the model are not unsaved any more, nothing else changes. -/
theorem C36_save {v : MLState.SaveEnv} {s : MLState} {m : Nat} {i : Info} (hm : m ∉ s.dead) (hi : s.info = some i) :
    ((∀ d ∈ (s.store m).differences, (s.heap.cell d).unsaved = false) → s.saveDestination v m = Res.ok (s, true)) ∧
    ((∃ d ∈ (s.store m).differences, (s.heap.cell d).unsaved = true) →
      (∀ err, v.failure i.mode = some err → s.saveDestination v m = Res.ok (s.emit (.error err), decide (err = .upload))) ∧
      (v.failure i.mode = none → ∃ hp, s.saveDestination v m =
          Res.ok ({ s with heap := hp, log := s.log ++ [.upload (saveTarget i (s.store m)) ((s.store m).savedText s.heap)] }, true) ∧
        (∀ d ∈ (s.store m).differences, hp.cell d = { s.heap.cell d with unsaved := false }) ∧
        (∀ d, d ∉ (s.store m).differences → hp.cell d = s.heap.cell d))) := by
  have hmod : s.model (some m) = Res.ok m := by unfold MLState.model; simp [hm]
  unfold MLState.saveDestination
  simp only [hmod, Res.bind_ok]
  constructor
  · intro h
    rw [if_pos]
    unfold DModel.hasUnsavedChanges
    simpa using h
  · rintro ⟨d, hd, hdu⟩
    have hu : (s.store m).hasUnsavedChanges s.heap ≠ false := by
      unfold DModel.hasUnsavedChanges
      simp only [ne_eq, Bool.not_eq_false, List.any_eq_true]
      exact ⟨d, hd, hdu⟩
    rw [if_neg hu, hi]
    dsimp only
    unfold MLState.SaveEnv.failure
    by_cases h1 : v.tempOpens = false
    · rw [if_pos h1, if_pos (.inl h1)]
      exact ⟨fun err he => by cases he; rfl, fun he => by cases he⟩
    rw [if_neg h1]
    by_cases h2 : v.writeOk = false
    · rw [if_pos h2, if_pos (.inr (.inl h2))]
      exact ⟨fun err he => by cases he; rfl, fun he => by cases he⟩
    rw [if_neg h2]
    by_cases h3 : v.closeOk = false
    · rw [if_pos h3, if_pos (.inr (.inr h3))]
      exact ⟨fun err he => by cases he; rfl, fun he => by cases he⟩
    rw [if_neg h3, if_neg (by simp only [not_or]; exact ⟨h1, h2, h3⟩)]
    by_cases h4 : i.mode = .ComparingDirs ∧ v.statOk = false ∧ v.mkdirOk = false
    · rw [if_pos h4, if_pos h4]
      exact ⟨fun err he => by cases he; rfl, fun he => by cases he⟩
    rw [if_neg h4, if_neg h4]
    cases h5 : v.copyOk with
    | false =>
      rw [if_pos rfl, if_neg (by simp)]
      exact ⟨fun err he => by cases he; rfl, fun he => by cases he⟩
    | true =>
      rw [if_neg (by simp), if_pos rfl]
      refine ⟨fun err he => (by cases he), fun _ => ⟨s.heap.modifyAll (fun d => d.setUnsaved false) (s.store m).differences, (by rw [← hi]; rfl), ?_, ?_⟩⟩
      · intro d hd
        exact (modifyAll_saved _ _ _).trans (if_pos hd)
      · intro d hd
        exact (modifyAll_saved _ _ _).trans (if_neg hd)

/-- C36: where it is uploaded to: when comparing directories, the file with the same relative path below the destination. -/
theorem C36_target_dirs {m : DModel} {i : Info} {rel : Str} (hmode : i.mode = .ComparingDirs)
    (hd : m.destinationPath ++ m.destinationFile = i.localDestination ++ rel)
    (hp : i.localDestination.length ≤ m.destinationPath.length) : saveTarget i m = i.destination ++ rel := by
  obtain ⟨t, ht⟩ := List.prefix_of_prefix_length_le (List.prefix_append i.localDestination rel) (hd ▸ List.prefix_append m.destinationPath _) hp
  unfold saveTarget MLState.saveDir
  rw [if_pos hmode, if_pos (by rw [List.isPrefixOf_iff_prefix]; exact ⟨t, ht⟩)]
  rw [← ht, List.drop_left]
  rw [← ht, List.append_assoc] at hd
  rw [List.append_assoc, List.append_cancel_left hd]

/-- C36, defect: in every other mode all models are uploaded to the same place, the destination; when a patch is blended with a file or
directory, this is the patch itself (C41). -/
theorem C36_target_defect {i : Info} (hmode : i.mode ≠ .ComparingDirs) (m m' : DModel) :
    saveTarget i m = i.destination ∧ saveTarget i m = saveTarget i m' := by
  unfold saveTarget
  rw [if_neg hmode, if_neg hmode]
  exact ⟨rfl, rfl⟩

example : saveTarget { mode := .ComparingDirs, destination := str "file:/d", localDestination := str "/d" }
    (DModel.new (str "/s/x/a.c") (str "/d/x/a.c")) = str "file:/d/x/a.c" :=
  C36_target_dirs (rel := str "/x/a.c") rfl (by decide) (by decide)

/-- C36: the slot disables the save action whatever happened, in particular when nothing could be saved (defect). -/
theorem C36_slot_defect {v : MLState.SaveEnv} {s : MLState} {m : Nat} {i : Info} {err : ErrorKind} (hm : m ∉ s.dead) (hi : s.info = some i)
    (hsel : s.selectedModel = some m) (hc : s.canSave = true)
    (hu : ∃ d ∈ (s.store m).differences, (s.heap.cell d).unsaved = true) (hf : v.failure i.mode = some err) :
    ∃ s', s.slotSaveDestination v = Res.ok s' ∧ s'.actions.save = false ∧ s'.heap = s.heap ∧ (s'.store m).hasUnsavedChanges s'.heap = true ∧
      s'.log = s.log ++ [.error err, .updateActions] := by
  have := ((C36_save (v := v) hm hi).2 hu).1 err hf
  unfold MLState.slotSaveDestination
  rw [hsel]
  dsimp only
  rw [this, Res.bind_ok]
  dsimp only
  rw [if_pos (show (s.emit (.error err)).canSave = true from hc)]
  refine ⟨_, rfl, rfl, rfl, ?_, ?_⟩
  · obtain ⟨d, hd, hdu⟩ := hu
    exact List.any_eq_true.2 ⟨d, hd, hdu⟩
  · show (s.log ++ [_]) ++ [_] = _
    rw [List.append_assoc]; rfl

/-- C36: `saveAll` when every step of every save succeeds: nothing is unsaved afterwards. -/
theorem C36_saveAll {v : Nat → MLState.SaveEnv} {s : MLState} {l : List Nat} {i : Info} (hl : s.models = some l) (hne : l ≠ [])
    (hm : ∀ m ∈ l, m ∉ s.dead) (hi : s.info = some i) (hv : ∀ m ∈ l, (v m).failure i.mode = none) :
    ∃ s', s.saveAll v = Res.ok (s', true) ∧ s'.hasUnsavedChanges = false ∧ s'.models = s.models ∧ s'.store = s.store ∧
      (∀ d, (s'.heap.cell d).applied = (s.heap.cell d).applied) := by
  have key : ∀ (l : List Nat) (s : MLState), (∀ m ∈ l, m ∉ s.dead) → s.info = some i → (∀ m ∈ l, (v m).failure i.mode = none) →
      ∃ s', MLState.saveLoop v l s = Res.ok (s', true) ∧ s'.models = s.models ∧ s'.store = s.store ∧
        (∀ m ∈ l, ∀ d ∈ (s.store m).differences, (s'.heap.cell d).unsaved = false) ∧
        (∀ d, (s'.heap.cell d).applied = (s.heap.cell d).applied ∧ ((s.heap.cell d).unsaved = false → (s'.heap.cell d).unsaved = false)) := by
    intro l
    induction l with
    | nil => intro s _ _ _; exact ⟨s, rfl, rfl, rfl, by simp, fun _ => ⟨rfl, id⟩⟩
    | cons m l ih =>
      intro s hd hi hv
      have step : ∃ s1, s.saveDestination (v m) m = Res.ok (s1, true) ∧ s1.models = s.models ∧ s1.store = s.store ∧ s1.dead = s.dead ∧
          s1.info = s.info ∧ (∀ d ∈ (s.store m).differences, (s1.heap.cell d).unsaved = false) ∧
          (∀ d, (s1.heap.cell d).applied = (s.heap.cell d).applied ∧ ((s.heap.cell d).unsaved = false → (s1.heap.cell d).unsaved = false)) := by
        obtain ⟨h1, h2⟩ := C36_save (v := v m) (hd m (by simp)) hi
        by_cases hu : ∃ d ∈ (s.store m).differences, (s.heap.cell d).unsaved = true
        · obtain ⟨hp, k1, k2, k3⟩ := (h2 hu).2 (hv m (by simp))
          refine ⟨_, k1, rfl, rfl, rfl, rfl, fun d hd => ?_, fun d => ?_⟩
          · show (hp.cell d).unsaved = false
            rw [k2 d hd]
          · show (hp.cell d).applied = _ ∧ (_ → (hp.cell d).unsaved = false)
            by_cases hd : d ∈ (s.store m).differences
            · rw [k2 d hd]; exact ⟨rfl, fun _ => rfl⟩
            · rw [k3 d hd]; exact ⟨rfl, id⟩
        · have hu' : ∀ d ∈ (s.store m).differences, (s.heap.cell d).unsaved = false := by
            intro d hd
            cases hx : (s.heap.cell d).unsaved with
            | false => rfl
            | true => exact absurd ⟨d, hd, hx⟩ hu
          exact ⟨s, h1 hu', rfl, rfl, rfl, rfl, hu', fun _ => ⟨rfl, id⟩⟩
      obtain ⟨s1, e1, e2, e3, e4, e5, e6, e7⟩ := step
      obtain ⟨s2, f1, f2, f3, f4, f5⟩ := ih s1 (fun m' hm' => by rw [e4]; exact hd m' (List.mem_cons_of_mem _ hm')) (e5.trans hi)
        (fun m' hm' => hv m' (List.mem_cons_of_mem _ hm'))
      refine ⟨s2, ?_, f2.trans e2, f3.trans e3, ?_, fun d => ⟨(f5 d).1.trans (e7 d).1, fun h => (f5 d).2 ((e7 d).2 h)⟩⟩
      · unfold MLState.saveLoop
        rw [e1, Res.bind_ok]
        dsimp only
        rw [if_neg (by simp)]
        exact f1
      · intro m' hm' d hd'
        rcases List.mem_cons.1 hm' with rfl | hm'
        · exact (f5 d).2 (e6 d hd')
        · exact f4 m' hm' d (by rw [e3]; exact hd')
  obtain ⟨s', h1, h2, h3, h4, h5⟩ := key l s hm hi hv
  refine ⟨s', ?_, ?_, h2, h3, fun d => (h5 d).1⟩
  · unfold MLState.saveAll
    rw [hl]
    cases l with
    | nil => exact absurd rfl hne
    | cons a l => exact h1
  · unfold MLState.hasUnsavedChanges
    rw [h2, hl]
    dsimp only
    rw [List.any_eq_false]
    intro m hm' hx
    obtain ⟨d, hd, hx⟩ := List.any_eq_true.1 hx
    rw [h3] at hd
    rw [h4 m hm' d hd] at hx
    cases hx

/-- C36: `saveAll` says false when there is nothing to save. -/
theorem C36_saveAll_empty {v : Nat → MLState.SaveEnv} {s : MLState} (h : s.models.getD [] = []) : s.saveAll v = Res.ok (s, false) := by
  unfold MLState.saveAll
  split
  · rfl
  · rfl
  · rename_i l hne he
    rw [he] at h
    exact absurd h (by simpa using hne)

end KompareDiff2
