import Verif.Proofs.Disk
import Verif.Props.EndToEnd
import Verif.Props.Nested
import Verif.Props.Edit
/-
C63: the disk while and after saving, and after a crash in between.
-/
namespace KompareDiff2
open Spec

/-- **C63.** Saving a model never puts its text at risk: whenever the program is interrupted, between any two changes of the disk and in the middle of
writing or copying, no other file has changed, and the destination still has its old contents, or has the complete new text, or the
complete new text is in the temporary file. -/
theorem C63_crash (v : MLState.SaveRun) (t : Nat) {s : MLState} {m : Nat} {i : Info} (hm : m ∉ s.dead) (hi : s.info = some i) :
    ∃ steps, s.saveSteps v t m = Res.ok steps ∧ ∀ (d : Disk) (before : List DiskStep), before <+: steps →
      Interrupted d (d.run before) (saveTarget i (s.store m)) ((s.store m).savedText s.heap) t := by
  obtain ⟨steps, h, shape⟩ := saveSteps_shape (v := v) (t := t) hm hi
  exact ⟨steps, h, fun d before hb => shape_interrupted shape hb d⟩

/-- **C63.** When the save has ended, the disk is as the messages say.  Nothing unsaved: nothing is done.  No message: the destination has the text and the
temporary file is gone.  The message that the file could not be uploaded: the text is in the temporary file, which stays.  Another message: no file and no
directory has changed, and no temporary file is left. -/
theorem C63_ended (v : MLState.SaveRun) (t : Nat) {s : MLState} {m : Nat} {i : Info} (hm : m ∉ s.dead) (hi : s.info = some i) (d : Disk) :
    ∃ steps s' ok, s.saveSteps v t m = Res.ok steps ∧ s.saveDestination v.toSaveEnv m = Res.ok (s', ok) ∧
      ((s.store m).hasUnsavedChanges s.heap = false → s' = s ∧ ok = true ∧ d.run steps = d) ∧
      ((s.store m).hasUnsavedChanges s.heap = true →
        (s'.log = s.log ++ [.upload (saveTarget i (s.store m)) ((s.store m).savedText s.heap)] ∧ ok = true ∧ (s.store m).hasUnsavedChanges s'.heap = false ∧
          (d.run steps).file (saveTarget i (s.store m)) = some ((s.store m).savedText s.heap) ∧ (d.run steps).temp t = none) ∨
        (s'.log = s.log ++ [.error .upload] ∧ s'.heap = s.heap ∧ (d.run steps).temp t = some ((s.store m).savedText s.heap)) ∨
        (∃ err, s'.log = s.log ++ [.error err] ∧ ok = false ∧ s'.heap = s.heap ∧ (d.run steps).file = d.file ∧ (d.run steps).dir = d.dir ∧
          (d.temp t = none → (d.run steps).temp t = none))) := by
  obtain ⟨steps, h, shape⟩ := saveSteps_shape (v := v) (t := t) hm hi
  have e := shape_ended shape d
  obtain ⟨h1, h2⟩ := C36_save (v := v.toSaveEnv) hm hi
  cases hu : (s.store m).hasUnsavedChanges s.heap with
  | false =>
    have er : saveResult v.toSaveEnv s i m = none := by unfold saveResult; rw [if_pos hu]
    rw [er] at e
    refine ⟨steps, s, true, h, h1 ?_, fun _ => ⟨rfl, rfl, e⟩, fun q => (by cases q)⟩
    unfold DModel.hasUnsavedChanges at hu
    simpa using hu
  | true =>
    have er : saveResult v.toSaveEnv s i m = some (v.toSaveEnv.failure i.mode) := by
      unfold saveResult
      rw [if_neg (by rw [hu]; simp)]
    obtain ⟨h3, h4⟩ := h2 (by
      unfold DModel.hasUnsavedChanges at hu
      simpa using hu)
    rw [er] at e
    cases hf : v.toSaveEnv.failure i.mode with
    | none =>
      rw [hf] at e
      obtain ⟨hp, e', g1, g2⟩ := h4 hf
      refine ⟨steps, _, _, h, e', fun q => (by cases q), fun _ => .inl ⟨rfl, rfl, ?_, e.1, e.2⟩⟩
      unfold DModel.hasUnsavedChanges
      rw [List.any_eq_false]
      intro x hx
      dsimp only
      rw [g1 x hx]
      simp
    | some err =>
      rw [hf] at e
      refine ⟨steps, _, _, h, h3 err hf, fun q => (by cases q), fun _ => .inr ?_⟩
      cases err with
      | upload => exact .inl ⟨rfl, rfl, e⟩
      | _ => exact .inr ⟨_, rfl, rfl, rfl, e.1, e.2.1, e.2.2⟩

/-- **C63.** Saving all models, interrupted anywhere: the models before some model have been saved or their texts are in temporary files, that model's text
is not lost, the files of all later models and all other files are untouched – provided that the models are saved to different files. -/
theorem C63_all_crash (v : Nat → MLState.SaveRun) (t : Nat → Nat) {s : MLState} (hs : Reachable s) {l : List Nat} (hl : s.models = some l) {i : Info}
    (hi : s.info = some i) (targets : l.Pairwise (fun m m' => saveTarget i (s.store m) ≠ saveTarget i (s.store m')))
    (temps : l.Pairwise (fun m m' => t m ≠ t m')) :
    ∃ steps, s.saveAllSteps v t = Res.ok steps ∧ ∀ (d : Disk) (before : List DiskStep), before <+: steps →
      AllInterrupted d (d.run before) l (fun m => (s.store m).hasUnsavedChanges s.heap = true) (fun m => saveTarget i (s.store m))
        (fun m => (s.store m).savedText s.heap) t := by
  have o := hs.owned
  have ind : Independent s i t l := by
    have e : s.models.getD [] = l := by rw [hl]; rfl
    refine ⟨fun m hm => o.live m (by rw [e]; exact hm), targets, temps, ?_⟩
    have h1 := o.models
    have h2 := o.diffs
    rw [e] at h1 h2
    refine List.Pairwise.imp_of_mem ?_ (List.pairwise_iff_forall_sublist.2 (fun {a b} hab => (List.pairwise_iff_forall_sublist.1 h1 hab : a ≠ b)))
    intro a b ha hb hab d hd
    exact flatMap_nodup_disjoint h1 h2 hb ha (fun q => hab q.symm) hd
  obtain ⟨steps, h, hall⟩ := saveLoop_interrupted v t i l s hi ind
  refine ⟨steps, ?_, fun d before hb => (hall d before hb).1⟩
  unfold MLState.saveAllSteps
  rw [hl]
  cases l with
  | nil => exact h
  | cons _ _ => exact h

theorem saveLoop_same (v : Nat → MLState.SaveRun) (t : Nat → Nat) (i : Info) (l : List Nat) : ∀ (s : MLState), s.info = some i → (∀ m ∈ l, m ∉ s.dead) →
    (∀ m ∈ l, (v m).toSaveEnv.failure i.mode = none) →
    ∃ steps, MLState.saveLoopSteps v t l s = Res.ok steps ∧ ∀ d : Disk, (∀ m ∈ l, d.temp (t m) = none) →
      (∀ m ∈ l, (d.run steps).temp (t m) = none) ∧ (∀ t', (∀ m ∈ l, t' ≠ t m) → (d.run steps).temp t' = d.temp t') ∧
      ∀ u, (∀ m ∈ l, saveTarget i (s.store m) ≠ u) → (d.run steps).file u = d.file u := by
  induction l with
  | nil => exact fun s _ _ _ => ⟨[], rfl, fun d _ => ⟨by simp, fun _ _ => rfl, fun _ _ => rfl⟩⟩
  | cons m l ih =>
    intro s hi hm hv
    obtain ⟨st, hst, shape⟩ := saveSteps_shape (v := v m) (t := t m) (hm m (by simp)) hi
    obtain ⟨s', b, hs, e1, e2, e3, e4, e5, e6⟩ := saveDestination_step (v := (v m).toSaveEnv) (hm m (by simp)) hi
    have hf := hv m (by simp)
    have hb : b = true := by
      obtain ⟨h1, h2⟩ := C36_save (v := (v m).toSaveEnv) (hm m (by simp)) hi
      cases hu : (s.store m).hasUnsavedChanges s.heap with
      | false =>
        rw [h1 (by unfold DModel.hasUnsavedChanges at hu; simpa using hu)] at hs
        exact (congrArg Prod.snd (Res.ok.inj hs)).symm
      | true =>
        obtain ⟨hp, e, _⟩ := (h2 (by unfold DModel.hasUnsavedChanges at hu; simpa using hu)).2 hf
        rw [e] at hs
        exact (congrArg Prod.snd (Res.ok.inj hs)).symm
    subst hb
    obtain ⟨st', hst', hall⟩ := ih s' (by rw [e1]; exact hi) (fun x hx => by rw [e2]; exact hm x (List.mem_cons_of_mem _ hx))
      (fun x hx => hv x (List.mem_cons_of_mem _ hx))
    unfold MLState.saveLoopSteps
    rw [hst, Res.bind_ok, hs, Res.bind_ok, if_neg (by simp)]
    dsimp only
    rw [hst', Res.bind_ok]
    refine ⟨st ++ st', rfl, fun d hd => ?_⟩
    rw [Disk.run_append]
    obtain ⟨j1, j2, _, _⟩ := shape_interrupted shape (List.prefix_refl _) d
    have jt : (d.run st).temp (t m) = none := by
      have e := shape_ended shape d
      unfold saveResult at e
      split at e
      · rw [show d.run st = d from e]
        exact hd m (by simp)
      · rw [hf] at e
        exact e.2
    have hd1 : ∀ x ∈ l, (d.run st).temp (t x) = none := by
      intro x hx
      by_cases q : t x = t m
      · rw [q]; exact jt
      · rw [j2 _ q]; exact hd x (List.mem_cons_of_mem _ hx)
    obtain ⟨k1, k2, k3⟩ := hall (d.run st) hd1
    rw [e3] at k3
    refine ⟨?_, ?_, ?_⟩
    · intro x hx
      rcases List.mem_cons.1 hx with rfl | hx
      · by_cases q : ∃ y ∈ l, t x = t y
        · obtain ⟨y, hy, q⟩ := q
          rw [q]; exact k1 y hy
        · rw [k2 _ (fun y hy e => q ⟨y, hy, e⟩)]; exact jt
      · exact k1 x hx
    · intro t' ht'
      rw [k2 t' (fun x hx => ht' x (List.mem_cons_of_mem _ hx)), j2 t' (ht' m (by simp))]
    · intro u hu
      rw [k3 u (fun x hx => hu x (List.mem_cons_of_mem _ hx)), j1 u (fun q => hu m (by simp) q.symm)]

theorem saveLoop_append {v : Nat → MLState.SaveRun} {t : Nat → Nat} {i : Info} (l1 l2 : List Nat) : ∀ (s : MLState), s.info = some i → (∀ m ∈ l1, m ∉ s.dead) →
    (∀ m ∈ l1, (v m).toSaveEnv.failure i.mode = none) → ∃ s' st, s'.info = s.info ∧ s'.dead = s.dead ∧ s'.store = s.store ∧
      (∀ x, (s.store x).savedText s'.heap = (s.store x).savedText s.heap) ∧
      (∀ x, (∀ m ∈ l1, ∀ d ∈ (s.store x).differences, d ∉ (s.store m).differences) →
        (s.store x).hasUnsavedChanges s'.heap = (s.store x).hasUnsavedChanges s.heap) ∧
      MLState.saveLoopSteps v t l1 s = Res.ok st ∧
      MLState.saveLoopSteps v t (l1 ++ l2) s = (do let r ← MLState.saveLoopSteps v t l2 s'; Res.ok (st ++ r)) := by
  induction l1 with
  | nil =>
    intro s _ _ _
    refine ⟨s, [], rfl, rfl, rfl, fun _ => rfl, fun _ _ => rfl, rfl, ?_⟩
    cases h : MLState.saveLoopSteps v t l2 s <;> simp [h]
  | cons m l ih =>
    intro s hi hm hv
    obtain ⟨st, hst, shape⟩ := saveSteps_shape (v := v m) (t := t m) (hm m (by simp)) hi
    obtain ⟨s1, b, hs, e1, e2, e3, e4, e5, e6⟩ := saveDestination_step (v := (v m).toSaveEnv) (hm m (by simp)) hi
    have hf := hv m (by simp)
    have hb : b = true := by
      obtain ⟨h1, h2⟩ := C36_save (v := (v m).toSaveEnv) (hm m (by simp)) hi
      cases hu : (s.store m).hasUnsavedChanges s.heap with
      | false =>
        rw [h1 (by unfold DModel.hasUnsavedChanges at hu; simpa using hu)] at hs
        exact (congrArg Prod.snd (Res.ok.inj hs)).symm
      | true =>
        obtain ⟨hp, e, _⟩ := (h2 (by unfold DModel.hasUnsavedChanges at hu; simpa using hu)).2 hf
        rw [e] at hs
        exact (congrArg Prod.snd (Res.ok.inj hs)).symm
    subst hb
    obtain ⟨s', st', f1, f2, f3, f4, f5, f6, f7⟩ := ih s1 (by rw [e1]; exact hi) (fun x hx => by rw [e2]; exact hm x (List.mem_cons_of_mem _ hx))
      (fun x hx => hv x (List.mem_cons_of_mem _ hx))
    rw [e3] at f4 f5
    refine ⟨s', st ++ st', f1.trans e1, f2.trans e2, f3.trans e3, fun x => (f4 x).trans (e4 x), fun x hx => ?_, ?_, ?_⟩
    · rw [f5 x (fun y hy => hx y (List.mem_cons_of_mem _ hy)), e5 x (hx m (by simp))]
    · unfold MLState.saveLoopSteps
      rw [hst, Res.bind_ok, hs, Res.bind_ok, if_neg (by simp)]
      dsimp only
      rw [f6, Res.bind_ok]
    · rw [List.cons_append]
      conv => lhs; unfold MLState.saveLoopSteps
      rw [hst, Res.bind_ok, hs, Res.bind_ok, if_neg (by simp)]
      dsimp only
      rw [f7]
      cases MLState.saveLoopSteps v t l2 s' <;> simp [List.append_assoc]

/-- **C63, defect.** Unless directories are compared, all models are saved to the same file (`C36_target_defect`).  When all models are saved and nothing fails, the
file has the text of the last model that had to be saved, and no temporary file is left: the texts of the others are nowhere. -/
theorem C63_same_target_defect (v : Nat → MLState.SaveRun) (t : Nat → Nat) {s : MLState} (hs : Reachable s) {before : List Nat} {m : Nat}
    (hl : s.models = some (before ++ [m])) {i : Info} (hi : s.info = some i) (hmode : i.mode ≠ .ComparingDirs)
    (hv : ∀ x, (v x).toSaveEnv.failure i.mode = none) (hu : (s.store m).hasUnsavedChanges s.heap = true) (d : Disk) (hd : ∀ x, d.temp x = none) :
    ∃ steps, s.saveAllSteps v t = Res.ok steps ∧ (d.run steps).file i.destination = some ((s.store m).savedText s.heap) ∧
      (∀ u, u ≠ i.destination → (d.run steps).file u = d.file u) ∧ ∀ x, (d.run steps).temp x = none := by
  have o := hs.owned
  have e : s.models.getD [] = before ++ [m] := by rw [hl]; rfl
  have hlive : ∀ x ∈ before ++ [m], x ∉ s.dead := fun x hx => o.live x (by rw [e]; exact hx)
  have htar : ∀ x, saveTarget i (s.store x) = i.destination := fun x => (C36_target_defect hmode (s.store x) (s.store x)).1
  obtain ⟨s', st, f1, f2, f3, f4, f5, f6, f7⟩ := saveLoop_append (v := v) (t := t) before [m] s hi (fun x hx => hlive x (List.mem_append_left _ hx)) (fun x _ => hv x)
  obtain ⟨st0, g1, g2⟩ := saveLoop_same v t i before s hi (fun x hx => hlive x (List.mem_append_left _ hx)) (fun x _ => hv x)
  rw [f6] at g1
  cases g1
  obtain ⟨g3, g4, g5⟩ := g2 d (fun x _ => hd _)
  have hm' : m ∉ s'.dead := by rw [f2]; exact hlive m (by simp)
  obtain ⟨st2, hst2, shape⟩ := saveSteps_shape (v := v m) (t := t m) hm' (by rw [f1]; exact hi)
  obtain ⟨s2, b, hs2, _, _, _, _, _, _⟩ := saveDestination_step (v := (v m).toSaveEnv) hm' (by rw [f1]; exact hi)
  have hu' : (s'.store m).hasUnsavedChanges s'.heap = true := by
    rw [f3, f5 m, hu]
    intro x hx y hy
    have h1 := o.models
    have h2 := o.diffs
    rw [e] at h1 h2
    refine flatMap_nodup_disjoint h1 h2 (by simp) (List.mem_append_left _ hx) ?_ hy
    rintro rfl
    exact (List.nodup_append.1 h1).2.2 m hx m (by simp) rfl
  have hend := shape_ended shape (d.run st)
  obtain ⟨j1, j2, _, _⟩ := shape_interrupted shape (List.prefix_refl _) (d.run st)
  unfold saveResult at hend
  rw [if_neg (by rw [hu']; simp), hv m, f3, f4, htar] at hend
  rw [f3, htar] at j1
  refine ⟨st ++ st2, ?_, ?_, ?_, ?_⟩
  · unfold MLState.saveAllSteps
    rw [hl]
    have e2 : MLState.saveLoopSteps v t (before ++ [m]) s = Res.ok (st ++ st2) := by
      rw [f7]
      unfold MLState.saveLoopSteps
      rw [hst2, Res.bind_ok, hs2, Res.bind_ok]
      cases b
      · rw [if_pos rfl]; rfl
      · rw [if_neg (by simp)]
        unfold MLState.saveLoopSteps
        simp
    cases before with
    | nil => exact e2
    | cons _ _ => exact e2
  · rw [Disk.run_append]
    exact hend.1
  · intro u hu
    rw [Disk.run_append, j1 u hu]
    exact g5 u (fun x _ => by rw [htar]; exact fun q => hu q.symm)
  · intro x
    rw [Disk.run_append]
    by_cases q : x = t m
    · rw [q]; exact hend.2
    · rw [j2 x q]
      by_cases q : ∃ y ∈ before, x = t y
      · obtain ⟨y, hy, rfl⟩ := q
        exact g3 y hy
      · rw [g4 x (fun y hy e => q ⟨y, hy, e⟩)]; exact hd x

/-- **C63.** Writing the output of the diff program to a file (`saveDiff`): if everything goes well, the file has the output when the status "finished writing" is sent, and
no temporary file is left. -/
theorem C63_diff (w : MLState.WriteRun) (t : Nat) {s : MLState} {r : ProcessResult} (ht : s.diffTemp = true) (hr : r.finishedNormally = true)
    (hw : r.stdout.length ≤ w.written) (hc : w.copyOk = true) (d : Disk) :
    ∃ steps s', s.writeDiffSteps w t r = Res.ok steps ∧ s.slotWriteDiffOutput w.copyOk r = Res.ok s' ∧
      s'.log = s.log ++ [.upload s.diffURL r.stdout, .status .FinishedWritingDiff] ∧
      (d.run steps).file s.diffURL = some r.stdout ∧ (d.run steps).temp t = none := by
  unfold MLState.writeDiffSteps MLState.slotWriteDiffOutput
  have hq : ¬ (s.diffTemp = false) := by rw [ht]; simp
  rw [if_neg hq, if_neg hq, if_pos hr, if_pos hr, hc]
  refine ⟨_, _, rfl, rfl, ?_, ?_, ?_⟩
  · show (s.log ++ [_]) ++ [_] = _
    rw [List.append_assoc]; rfl
  · rw [Disk.run_append, Disk.run_append, List.take_of_length_le hw]
    exact if_pos rfl
  · rw [Disk.run_append]
    exact if_pos rfl

/-- **C63, defect.** If the copy fails – for instance because the file exists, it is not overwritten – the temporary file is removed all the same, and the program
is told that the diff was written, without an error message: the output is nowhere. -/
theorem C63_diff_lost_defect (w : MLState.WriteRun) (t : Nat) {s : MLState} {r : ProcessResult} (ht : s.diffTemp = true) (hr : r.finishedNormally = true)
    (hc : w.copyOk = false) (hn : w.copied = []) (d : Disk) :
    ∃ steps s', s.writeDiffSteps w t r = Res.ok steps ∧ s.slotWriteDiffOutput w.copyOk r = Res.ok s' ∧
      s'.log = s.log ++ [.status .FinishedWritingDiff] ∧ (d.run steps).file = d.file ∧ (d.run steps).temp t = none := by
  unfold MLState.writeDiffSteps MLState.slotWriteDiffOutput
  have hq : ¬ (s.diffTemp = false) := by rw [ht]; simp
  rw [if_neg hq, if_neg hq, if_pos hr, if_pos hr, hc, hn]
  exact ⟨_, _, rfl, rfl, rfl, rfl, if_pos rfl⟩

/-- **C63, defect.** If the temporary file could not be written completely (the disk is full), what has been written is copied as if it were the whole output, and the
program is told that the diff was written. -/
theorem C63_diff_truncated_defect (w : MLState.WriteRun) (t : Nat) {s : MLState} {r : ProcessResult} (ht : s.diffTemp = true) (hr : r.finishedNormally = true)
    (hw : w.written < r.stdout.length) (hc : w.copyOk = true) (d : Disk) :
    ∃ steps s' c, s.writeDiffSteps w t r = Res.ok steps ∧ s.slotWriteDiffOutput w.copyOk r = Res.ok s' ∧ Event.status .FinishedWritingDiff ∈ s'.log ∧
      (∀ err, Event.error err ∈ s'.log → Event.error err ∈ s.log) ∧ (d.run steps).file s.diffURL = some c ∧ c ≠ r.stdout := by
  unfold MLState.writeDiffSteps MLState.slotWriteDiffOutput
  have hq : ¬ (s.diffTemp = false) := by rw [ht]; simp
  rw [if_neg hq, if_neg hq, if_pos hr, if_pos hr, hc]
  refine ⟨_, _, r.stdout.take w.written, rfl, rfl, ?_, ?_, ?_, ?_⟩
  · show _ ∈ (s.log ++ [_]) ++ [_]
    simp
  · intro err he
    have : Event.error err ∈ (s.log ++ [_]) ++ [_] := he
    simpa using this
  · rw [Disk.run_append, Disk.run_append]
    exact if_pos rfl
  · intro e
    have := congrArg List.length e
    rw [List.length_take] at this
    omega

/-! ### The hypotheses are met -/

/-- Opening the example gives two models. -/
theorem two_models_shown : ∃ (s1 : MLState) (a b : Nat), OpensDiff (.parseAndOpenDiff emptyEnv exampleDiff.render.flatten) exampleStart s1 ∧ s1.models = some [a, b] ∧
    ∃ i, s1.info = some i ∧ i.mode = ({} : Info).mode := by
  obtain ⟨s1, h1⟩ := example_opens
  have h1' : exampleStart.parseAndOpenDiff emptyEnv exampleDiff.render.flatten = Res.ok (s1, true) := h1
  have w0 : WF (exampleStart.clear.emit (.status .Parsing)) := exampleStart_reachable.wf.keep ((keep_clear _).trans (keep_emit _ _))
  unfold MLState.parseAndOpenDiff at h1'
  obtain ⟨⟨t, ok⟩, a, b⟩ := Res.bind_eq_ok.1 h1'
  obtain ⟨wt, _, _, r, hr, hh, hf, ht⟩ := parseDiffOutput_spec w0 a
  dsimp only at b
  split at b
  · cases b
  · rename_i hok
    obtain ⟨u, q, b⟩ := Res.bind_eq_ok.1 b
    have b := congrArg Prod.fst (Res.ok.inj b)
    dsimp only at b
    obtain ⟨ms, m, d, hms, ho, ha, hst⟩ := ht (by simpa using hok)
    obtain ⟨r', hr', _, hv⟩ := C26_unified exampleDiff exampleDiff_ok (by decide) emptyEnv.win emptyEnv.cmp
      (exampleStart.clear.emit (.status .Parsing)).heap
    have er : r' = r := Res.ok.inj (hr'.symm.trans hr)
    subst er
    rw [hms] at hv
    obtain ⟨ac, hac⟩ := updateActions_point (ho.loose wt) (List.mem_of_getElem? ha.model) ha.selectedModel ha.selectedDifference
      (ho.liveDiffs m (List.mem_of_getElem? ha.model) d (List.mem_of_getElem? ha.diff))
    rw [hac] at q
    cases q
    have hl := hv.2.length_eq
    rw [List.length_map, List.length_map] at hl
    have hl1 : (exampleDiff.files.filter UFile.changes).length = 2 := by decide
    have hs1m : s1.models = t.models := by rw [← b]; rfl
    obtain ⟨j, hj, hmode, _⟩ := beyond_info (i := {}) (beyond_parse a).1 rfl
    have hmm := ho.models
    rw [← hs1m, hl, hl1] at hmm
    exact ⟨s1, _, _, h1, hmm, j, by rw [← hj, ← b]; rfl, hmode⟩

/-- In a state in use every model can be made unsaved: select one of its differences and apply or unapply it. -/
theorem make_unsaved {s : MLState} (h : InUse s) (hr : Reachable s) {m : Nat} {ms : List Nat} (hms : s.models = some ms) (hm : m ∈ ms) :
    ∃ s', InUse s' ∧ Reachable s' ∧ s'.models = some ms ∧ s'.info = s.info ∧ (s'.store m).hasUnsavedChanges s'.heap = true := by
  obtain ⟨_, _, ms', _, _, _, _, ho, _⟩ := h.facts
  have e : ms' = ms := by have := ho.models; rw [hms] at this; cases this; rfl
  subst e
  obtain ⟨d, hd⟩ := List.exists_mem_of_ne_nil _ (ho.diffs m hm)
  obtain ⟨s1, k, j, d', g1, g2, _⟩ := slotSelectionChanged_ok ho hm (ho.liveDiffs m hm d hd)
  have ed := g2 hd
  subst ed
  have h1 : InUse s1 := h.step (op := .select m d') ⟨by rw [hms]; exact hm, ho.liveDiffs m hm d' hd⟩ g1.ok
  have r1 : Reachable s1 := hr.step (op := .user (.select m d')) g1.ok
  have hd1 : d' ∈ (s1.store m).differences := by rw [g1.frame.differences]; exact hd
  cases hu : (s1.heap.cell d').unsaved with
  | true => exact ⟨s1, h1, r1, g1.opened.models, g1.frame.info, List.any_eq_true.2 ⟨d', hd1, hu⟩⟩
  | false =>
    obtain ⟨s2, g, _, hrun, _, _⟩ := slotApplyDifference_ok g1.opened g1.atIt (!(s1.heap.cell d').applied)
    refine ⟨s2, h1.step (op := .applySlot _) trivial g.ok, r1.step (op := .user (.applySlot _)) g.ok, g.opened.models, g.frame.info.trans g1.frame.info,
      List.any_eq_true.2 ⟨d', ?_, ?_⟩⟩
    · rw [g.frame.differences]; exact hd1
    · have := apply_unsaved g1.atIt.modelSelected hd1 hrun
      rw [hu] at this; exact this

/-- A diff for two files was opened and a difference of the second file was applied: `C63_crash`, `C63_ended` and `C63_same_target_defect` speak about this state. -/
theorem disk_example : ∃ (s : MLState) (a b : Nat) (i : Info), Reachable s ∧ s.models = some ([a] ++ [b]) ∧ b ∉ s.dead ∧ s.info = some i ∧ i.mode ≠ .ComparingDirs ∧
    (s.store b).hasUnsavedChanges s.heap = true ∧ ∀ _ : Nat, ({} : MLState.SaveRun).toSaveEnv.failure i.mode = none := by
  obtain ⟨s1, a, b, h1, hm, i, hi1, hmode⟩ := two_models_shown
  have u1 := h1.inUse exampleStart_reachable
  obtain ⟨s, u, r, hms, hi, hu⟩ := make_unsaved u1 (h1.reachable exampleStart_reachable) hm (m := b) (by simp)
  have hb : b ∉ s.dead := r.owned.live b (by rw [hms]; simp)
  refine ⟨s, a, b, i, r, hms, hb, by rw [hi, hi1], ?_, hu, fun _ => ?_⟩
  · rw [hmode]; decide
  · rw [hmode]; rfl

/-- A diff for one file was opened and its difference was applied: the hypotheses of `C63_all_crash` are met (for several files see C64). -/
example : ∃ (s : MLState) (m : Nat) (i : Info), Reachable s ∧ s.models = some [m] ∧ s.info = some i ∧ (s.store m).hasUnsavedChanges s.heap = true ∧
    [m].Pairwise (fun m m' => saveTarget i (s.store m) ≠ saveTarget i (s.store m')) := by
  obtain ⟨s1, m, d, h1, hm, _, _⟩ := one_difference_open
  have u1 := h1.inUse exampleStart_reachable
  obtain ⟨s, u, r, hms, _, hu⟩ := make_unsaved u1 (h1.reachable exampleStart_reachable) hm (m := m) (by simp)
  obtain ⟨_, _, _, _, _, _, _, ho, _⟩ := u.facts
  obtain ⟨i, hi⟩ := Option.ne_none_iff_exists'.1 ho.info
  exact ⟨s, m, i, r, hms, hi, hu, List.pairwise_singleton _ _⟩

/-- Saving the output of the diff program has begun: the hypotheses of `C63_diff`, `C63_diff_lost_defect` and `C63_diff_truncated_defect` are met. -/
example : ∃ s : MLState, exampleStart.saveDiff emptyEnv true (str "file:///tmp/x.diff") [] (some {}) = Res.ok (s, true) ∧ s.diffTemp = true ∧
    s.diffURL = str "file:///tmp/x.diff" ∧ (⟨1, .NormalExit, exampleDiff.render.flatten, []⟩ : ProcessResult).finishedNormally = true ∧
    0 < exampleDiff.render.flatten.length := by
  refine ⟨_, rfl, rfl, rfl, rfl, ?_⟩
  decide

end KompareDiff2
