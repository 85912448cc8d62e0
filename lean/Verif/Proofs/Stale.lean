import Verif.Proofs.InUse
/-
States without models, and states in which nothing was ever selected.
-/
namespace KompareDiff2
open Spec

theorem list_none {s : MLState} (h : s.models = none) : s.list = Res.ub := by unfold MLState.list; rw [h]

theorem emitStatusBar_none {s : MLState} (h : s.models = none) : s.emitStatusBar = Res.ub := by
  unfold MLState.emitStatusBar; rw [list_none h]; rfl

theorem atR_cases {α} (l : List α) (i : Int) : atR l i = Res.ub ∨ ∃ a, atR l i = Res.ok a := by
  unfold atR
  split
  · exact .inl rfl
  · split
    · exact .inr ⟨_, rfl⟩
    · exact .inl rfl

theorem model_cases (s : MLState) (p : Option Nat) : s.model p = Res.ub ∨ ∃ a, p = some a ∧ s.model p = Res.ok a := by
  unfold MLState.model
  cases p with
  | none => exact .inl rfl
  | some i =>
    dsimp only
    split
    · exact .inl rfl
    · exact .inr ⟨i, rfl, rfl⟩

theorem next_cases (x : DModel) : x.nextDifference = Res.ub ∨ ∃ r, x.nextDifference = Res.ok r := by
  unfold DModel.nextDifference
  split
  · rcases atR_cases x.differences (x.diffIndex + 1) with h | ⟨a, h⟩ <;> rw [h]
    · exact .inl rfl
    · exact .inr ⟨_, rfl⟩
  · exact .inr ⟨_, rfl⟩

theorem prev_cases (x : DModel) : x.prevDifference = Res.ub ∨ ∃ r, x.prevDifference = Res.ok r := by
  unfold DModel.prevDifference
  split
  · rcases atR_cases x.differences (x.diffIndex - 1) with h | ⟨a, h⟩ <;> simp only [h]
    · exact .inl rfl
    · exact .inr ⟨_, rfl⟩
  · exact .inr ⟨_, rfl⟩

theorem selectWith_cases {s : MLState} {m : Nat} {f : DModel → Res (DModel × Option Nat)} (h : f (s.store m) = Res.ub ∨ ∃ r, f (s.store m) = Res.ok r) :
    s.selectWith m f = Res.ub ∨ ∃ s', s.selectWith m f = Res.ok s' ∧ s'.models = s.models ∧ s'.modelIndex = s.modelIndex := by
  unfold MLState.selectWith
  rcases h with h | ⟨r, h⟩ <;> rw [h]
  · exact .inl rfl
  · exact .inr ⟨_, rfl, rfl, rfl⟩

theorem noModels_next {s : MLState} (h : s.models = none) : s.slotNextDifference = Res.ub := by
  unfold MLState.slotNextDifference
  rcases model_cases s s.selectedModel with hm | ⟨m, hsm, hm⟩ <;> rw [hm]
  · rfl
  rw [Res.bind_ok]
  rcases selectWith_cases (s := s) (m := m) (next_cases _) with hc | ⟨t, hc, ht, _⟩ <;> rw [hc]
  · rfl
  rw [Res.bind_ok]
  rw [h] at ht
  split
  · rw [emitStatusBar_none (s := t.emit _) ht]; rfl
  · unfold MLState.nextModel_; rw [list_none ht]; rfl

theorem noModels_previousModel {s : MLState} (h : s.models = none) (f : MLState → Res MLState) :
    (s.prevModel >>= fun s => if s.selectedModel ≠ none then f s else s.firstModel >>= f) = Res.ub := by
  unfold MLState.prevModel
  split
  · rw [list_none h]; rfl
  · rw [Res.bind_ok, if_neg (by simp)]
    unfold MLState.firstModel
    rw [list_none (s := { s with modelIndex := 0, selectedModel := none }) h]; rfl

theorem noModels_previous {s : MLState} (h : s.models = none) : s.slotPreviousDifference = Res.ub := by
  unfold MLState.slotPreviousDifference
  rcases model_cases s s.selectedModel with hm | ⟨m, hsm, hm⟩ <;> rw [hm]
  · rfl
  rw [Res.bind_ok]
  rcases selectWith_cases (s := s) (m := m) (prev_cases _) with hc | ⟨t, hc, ht, _⟩ <;> rw [hc]
  · rfl
  rw [Res.bind_ok]
  rw [h] at ht
  split
  · rw [emitStatusBar_none (s := t.emit _) ht]; rfl
  · unfold MLState.prevModel
    split
    · rw [list_none ht]; rfl
    · rw [Res.bind_ok, if_neg (by simp)]
      unfold MLState.firstModel
      rw [list_none (s := { t with modelIndex := 0, selectedModel := none }) ht]; rfl

theorem noModels_nextFile {s : MLState} (h : s.models = none) : s.slotNextModel = Res.ub := by
  unfold MLState.slotNextModel MLState.nextModel_
  rw [list_none h]; rfl

theorem noModels_previousFile {s : MLState} (h : s.models = none) : s.slotPreviousModel = Res.ub := by
  unfold MLState.slotPreviousModel MLState.prevModel
  dsimp only
  split
  · rw [list_none h]; rfl
  · rw [Res.bind_ok, if_neg (by simp)]
    unfold MLState.firstModel
    rw [list_none (s := { s with modelIndex := 0, selectedModel := none }) h]; rfl

/-! ### Nothing was ever selected -/

/-- All actions disabled. -/
def noActions : Actions := ⟨false, false, false, false, false, false, false, false, false⟩

theorem updateActions_selected_eq {s s' : MLState} (h : s.updateActions = Res.ok s') : s'.selectedModel = s.selectedModel ∧
    (s.selectedModel = none → s.actions = noActions → s'.actions = noActions) := by
  unfold MLState.updateActions at h
  split at h
  · rename_i hc
    obtain ⟨_, _, h⟩ := Res.bind_eq_ok.1 h
    obtain ⟨_, _, h⟩ := Res.bind_eq_ok.1 h
    obtain ⟨_, _, h⟩ := Res.bind_eq_ok.1 h
    obtain ⟨_, _, h⟩ := Res.bind_eq_ok.1 h
    cases h
    exact ⟨rfl, fun hn => absurd hn hc.2.1⟩
  · cases h
    refine ⟨rfl, fun _ ha => ?_⟩
    dsimp only
    rw [ha]
    split <;> rfl

theorem emitStatusBar_selected {s s' : MLState} (h : s.emitStatusBar = Res.ok s') : s'.selectedModel ≠ none := by
  unfold MLState.emitStatusBar at h
  obtain ⟨_, _, h⟩ := Res.bind_eq_ok.1 h
  obtain ⟨m, hm, h⟩ := Res.bind_eq_ok.1 h
  obtain ⟨_, _, h⟩ := Res.bind_eq_ok.1 h
  cases h
  show s.selectedModel ≠ none
  intro hn
  rw [hn] at hm
  simp [MLState.model] at hm

theorem finish_selected {s s' : MLState} (h : (s.emitStatusBar >>= fun s => s.updateActions) = Res.ok s') : s'.selectedModel ≠ none := by
  obtain ⟨t, h1, h2⟩ := Res.bind_eq_ok.1 h
  rw [(updateActions_selected_eq h2).1]
  exact emitStatusBar_selected h1

theorem announce_selected {s s' : MLState} (h : s.announce = Res.ok s') : s'.selectedModel ≠ none := finish_selected h

theorem next_selected {s s' : MLState} (h : s.slotNextDifference = Res.ok s') : s'.selectedModel ≠ none := by
  unfold MLState.slotNextDifference at h
  obtain ⟨_, _, h⟩ := Res.bind_eq_ok.1 h
  obtain ⟨_, _, h⟩ := Res.bind_eq_ok.1 h
  split at h
  · exact finish_selected h
  · obtain ⟨_, _, h⟩ := Res.bind_eq_ok.1 h
    split at h
    · obtain ⟨_, _, h⟩ := Res.bind_eq_ok.1 h; exact announce_selected h
    · obtain ⟨_, _, h⟩ := Res.bind_eq_ok.1 h
      obtain ⟨_, _, h⟩ := Res.bind_eq_ok.1 h; exact announce_selected h

theorem previous_selected {s s' : MLState} (h : s.slotPreviousDifference = Res.ok s') : s'.selectedModel ≠ none := by
  unfold MLState.slotPreviousDifference at h
  obtain ⟨_, _, h⟩ := Res.bind_eq_ok.1 h
  obtain ⟨_, _, h⟩ := Res.bind_eq_ok.1 h
  split at h
  · exact finish_selected h
  · obtain ⟨_, _, h⟩ := Res.bind_eq_ok.1 h
    split at h
    · obtain ⟨_, _, h⟩ := Res.bind_eq_ok.1 h; exact announce_selected h
    · obtain ⟨_, _, h⟩ := Res.bind_eq_ok.1 h
      obtain ⟨_, _, h⟩ := Res.bind_eq_ok.1 h; exact announce_selected h

theorem nextFile_selected {s s' : MLState} (h : s.slotNextModel = Res.ok s') : s'.selectedModel ≠ none := by
  unfold MLState.slotNextModel at h
  obtain ⟨_, _, h⟩ := Res.bind_eq_ok.1 h
  dsimp only at h
  split at h
  · obtain ⟨_, _, h⟩ := Res.bind_eq_ok.1 h; exact announce_selected h
  · obtain ⟨_, _, h⟩ := Res.bind_eq_ok.1 h
    obtain ⟨_, _, h⟩ := Res.bind_eq_ok.1 h; exact announce_selected h

theorem previousFile_selected {s s' : MLState} (h : s.slotPreviousModel = Res.ok s') : s'.selectedModel ≠ none := by
  unfold MLState.slotPreviousModel at h
  obtain ⟨_, _, h⟩ := Res.bind_eq_ok.1 h
  dsimp only at h
  split at h
  · obtain ⟨_, _, h⟩ := Res.bind_eq_ok.1 h; exact announce_selected h
  · obtain ⟨_, _, h⟩ := Res.bind_eq_ok.1 h
    obtain ⟨_, _, h⟩ := Res.bind_eq_ok.1 h; exact announce_selected h

theorem select_selected {s s' : MLState} {p q : Option Nat} (h : s.slotSelectionChanged p q = Res.ok s') : s'.selectedModel ≠ none := by
  unfold MLState.slotSelectionChanged at h
  obtain ⟨_, _, h⟩ := Res.bind_eq_ok.1 h
  obtain ⟨_, _, h⟩ := Res.bind_eq_ok.1 h
  obtain ⟨r, _, h⟩ := Res.bind_eq_ok.1 h
  cases r with
  | none =>
    obtain ⟨_, _, h⟩ := Res.bind_eq_ok.1 h
    obtain ⟨_, _, h⟩ := Res.bind_eq_ok.1 h
    exact finish_selected h
  | some t =>
    obtain ⟨_, _, h⟩ := Res.bind_eq_ok.1 h
    dsimp only at h
    split at h
    · obtain ⟨_, _, h⟩ := Res.bind_eq_ok.1 h; exact finish_selected h
    · exact finish_selected h

theorem selectDiff_selected {s s' : MLState} {q : Option Nat} (h : s.slotDiffSelectionChanged q = Res.ok s') : s'.selectedModel ≠ none := by
  unfold MLState.slotDiffSelectionChanged at h
  obtain ⟨_, _, h⟩ := Res.bind_eq_ok.1 h
  dsimp only at h
  split at h
  · obtain ⟨_, _, h⟩ := Res.bind_eq_ok.1 h; exact finish_selected h
  · exact finish_selected h

theorem model_selected {s : MLState} {m : Nat} (h : s.model s.selectedModel = Res.ok m) : s.selectedModel ≠ none := by
  intro hn; rw [hn] at h; simp [MLState.model] at h

theorem slotApply_selected {s s' : MLState} {b : Bool} (h : s.slotApplyDifference b = Res.ok s') : s'.selectedModel ≠ none := by
  unfold MLState.slotApplyDifference at h
  obtain ⟨m, hm, h⟩ := Res.bind_eq_ok.1 h
  obtain ⟨_, _, h⟩ := Res.bind_eq_ok.1 h
  obtain ⟨_, _, h⟩ := Res.bind_eq_ok.1 h
  cases h
  exact model_selected hm

theorem slotApplyAll_selected {s s' : MLState} {b : Bool} (h : s.slotApplyAllDifferences b = Res.ok s') : s'.selectedModel ≠ none := by
  unfold MLState.slotApplyAllDifferences at h
  obtain ⟨m, hm, h⟩ := Res.bind_eq_ok.1 h
  cases h
  exact model_selected hm

/-- Either something is selected, or nothing was selected before and the actions are as before or have been updated. -/
def NoSel (s s' : MLState) : Prop := s'.selectedModel = none → s.selectedModel = none ∧ (s.actions = noActions → s'.actions = noActions)

theorem NoSel.of {s s' : MLState} (h : s'.selectedModel ≠ none) : NoSel s s' := fun hn => absurd hn h
theorem NoSel.same {s s' : MLState} (h1 : s'.selectedModel = s.selectedModel) (h2 : s'.actions = s.actions) : NoSel s s' :=
  fun hn => ⟨h1 ▸ hn, fun ha => h2.trans ha⟩

theorem saveDestination_selected {s : MLState} {v : MLState.SaveEnv} {m : Nat} {r : MLState × Bool} (h : s.saveDestination v m = Res.ok r) :
    r.1.selectedModel = s.selectedModel := by
  unfold MLState.saveDestination at h
  obtain ⟨m, _, h⟩ := Res.bind_eq_ok.1 h
  split at h
  · cases h; rfl
  split at h
  · cases h; rfl
  split at h
  · cases h; rfl
  split at h
  · cases h; rfl
  split at h
  · cases h
  split at h
  · cases h; rfl
  dsimp only at h
  split at h
  · cases h; rfl
  · cases h; rfl

theorem saveLoop_selected {v : Nat → MLState.SaveEnv} {l : List Nat} {s : MLState} {r : MLState × Bool} (h : MLState.saveLoop v l s = Res.ok r) :
    r.1.selectedModel = s.selectedModel := by
  induction l generalizing s with
  | nil => cases h; rfl
  | cons m ms ih =>
    unfold MLState.saveLoop at h
    obtain ⟨⟨t, b⟩, h1, h⟩ := Res.bind_eq_ok.1 h
    have k1 := saveDestination_selected h1
    dsimp only at h
    split at h
    · cases h; exact k1
    · exact (ih h).trans k1

theorem noSel_user {op : UserOp} {s s' : MLState} (h : op.run s = Res.ok s') : NoSel s s' := by
  cases op with
  | nextDifference => exact .of (next_selected h)
  | previousDifference => exact .of (previous_selected h)
  | nextFile => exact .of (nextFile_selected h)
  | previousFile => exact .of (previousFile_selected h)
  | select m d => exact .of (select_selected h)
  | selectDiff d => exact .of (selectDiff_selected h)
  | apply =>
    simp only [UserOp.run, MLState.actionApply] at h
    obtain ⟨_, _, h⟩ := Res.bind_eq_ok.1 h
    split at h
    · obtain ⟨_, _, h⟩ := Res.bind_eq_ok.1 h
      obtain ⟨_, h1, h⟩ := Res.bind_eq_ok.1 h
      exact .of (by rw [(updateActions_selected_eq h).1]; exact next_selected h1)
    · rw [Res.bind_ok] at h
      obtain ⟨_, h1, h⟩ := Res.bind_eq_ok.1 h
      exact .of (by rw [(updateActions_selected_eq h).1]; exact next_selected h1)
  | unapply =>
    simp only [UserOp.run, MLState.actionUnapply] at h
    obtain ⟨_, _, h⟩ := Res.bind_eq_ok.1 h
    split at h
    · obtain ⟨_, _, h⟩ := Res.bind_eq_ok.1 h
      obtain ⟨_, h1, h⟩ := Res.bind_eq_ok.1 h
      exact .of (by rw [(updateActions_selected_eq h).1]; exact previous_selected h1)
    · rw [Res.bind_ok] at h
      obtain ⟨_, h1, h⟩ := Res.bind_eq_ok.1 h
      exact .of (by rw [(updateActions_selected_eq h).1]; exact previous_selected h1)
  | applyAll =>
    obtain ⟨_, h1, h⟩ := Res.bind_eq_ok.1 h
    exact .of (by rw [(updateActions_selected_eq h).1]; exact slotApplyAll_selected h1)
  | unapplyAll =>
    obtain ⟨_, h1, h⟩ := Res.bind_eq_ok.1 h
    exact .of (by rw [(updateActions_selected_eq h).1]; exact slotApplyAll_selected h1)
  | applySlot b => exact .of (slotApply_selected h)
  | applyAllSlot b => exact .of (slotApplyAll_selected h)
  | setReadWrite b =>
    simp only [UserOp.run, MLState.setReadWrite] at h
    split at h
    · cases h; exact .same rfl rfl
    · intro hn
      have := updateActions_selected_eq h
      exact ⟨this.1 ▸ hn, fun ha => this.2 (this.1 ▸ hn) ha⟩
  | save v =>
    simp only [UserOp.run, MLState.slotSaveDestination] at h
    split at h
    · cases h; exact .same rfl rfl
    · rename_i m hm
      obtain ⟨r, h1, h⟩ := Res.bind_eq_ok.1 h
      cases h
      have := saveDestination_selected h1
      refine .of ?_
      show (if _ then _ else _ : MLState).selectedModel ≠ none
      split
      · show r.1.selectedModel ≠ none; rw [this, hm]; simp
      · rw [this, hm]; simp
  | saveModel v m =>
    obtain ⟨r, h1, h⟩ := Res.bind_eq_ok.1 h
    cases h
    exact .same (saveDestination_selected h1) (saveDestination_actions h1).1
  | saveAll v =>
    obtain ⟨r, h1, h⟩ := Res.bind_eq_ok.1 h
    cases h
    unfold MLState.saveAll at h1
    split at h1
    · cases h1; exact .same rfl rfl
    · cases h1; exact .same rfl rfl
    · exact .same (saveLoop_selected h1) (saveLoop_actions h1).1

theorem OpenOk.selected {s : MLState} (h : OpenOk s) : s.selectedModel ≠ none := by
  obtain ⟨ms, _, ⟨k, j, m, d, a⟩, _⟩ := h
  rw [a.selectedModel]; simp

theorem Selected.ne {s : MLState} {ms : List Nat} (h : Selected s ms) : s.selectedModel ≠ none := by
  obtain ⟨k, j, m, d, a⟩ := h
  rw [a.selectedModel]; simp

theorem noSel_parseAndOpenDiff {e : Env} {s : MLState} {text : Str} {r : MLState × Bool} (w : WF s) (h : s.parseAndOpenDiff e text = Res.ok r) :
    NoSel s r.1 := by
  obtain ⟨s', b⟩ := r
  cases b with
  | true => exact .of ((parseAndOpenDiff_spec w h).2 rfl).selected
  | false =>
    unfold MLState.parseAndOpenDiff at h
    obtain ⟨⟨t, ok⟩, h1, h⟩ := Res.bind_eq_ok.1 h
    obtain ⟨_, _, _, r, _, _, hf, _⟩ := parseDiffOutput_spec (w.keep ((keep_clear s).trans (keep_emit _ _))) h1
    dsimp only at h
    split at h
    · rename_i hb
      obtain ⟨_, m1, m2, m3, m4, m5, _⟩ := hf hb
      cases h
      exact .same m2 m5
    · obtain ⟨_, _, h⟩ := Res.bind_eq_ok.1 h
      cases h

theorem noSel_openAndDiff {e : Env} {s : MLState} {r : MLState × Bool} (w : WF s) (h : s.openAndDiff e = Res.ok r) : NoSel s r.1 := by
  obtain ⟨s', b⟩ := r
  unfold MLState.openAndDiff at h
  split at h
  · cases h
  · rename_i i hi
    obtain ⟨⟨t, ok⟩, h1, h⟩ := Res.bind_eq_ok.1 h
    obtain ⟨wt, _, _, r, hr, hh, hf, ht⟩ := parseDiffOutput_spec (w.keep (keep_clear s)) h1
    dsimp only at h
    split at h
    · rename_i hb
      obtain ⟨_, m1, m2, m3, m4, m5, _⟩ := hf hb
      cases h
      exact .same m2 m5
    · rename_i hok
      obtain ⟨ms, m, d, _, ho, ha, _⟩ := ht (by simpa using hok)
      obtain ⟨u, hu, ou, wu, ku, su, _⟩ := setDepth_ok ho wt ⟨0, 0, m, d, ha⟩
      rw [hu, Res.bind_ok] at h
      obtain ⟨v, b', hv, ov, wv, kv, sv, _⟩ := blendOriginal_ok e ou wu i.localSource su
      rw [hv, Res.bind_ok] at h
      dsimp only at h
      split at h
      · cases h; exact .of (Selected.ne (s := v) sv)
      · obtain ⟨x, hx, h⟩ := Res.bind_eq_ok.1 h
        cases h
        refine .of ?_
        show x.selectedModel ≠ none
        rw [(updateActions_selected_eq hx).1]; exact sv.ne

theorem noSel_compareMode {e : Env} {s : MLState} {mode : Mode} {r : MLState × Bool} (h : s.compareMode e mode = Res.ok r) : NoSel s r.1 := by
  unfold MLState.compareMode at h
  dsimp only at h
  split at h
  · cases h
  · obtain ⟨x, _, h⟩ := Res.bind_eq_ok.1 h
    cases h
    exact .same rfl rfl

theorem noSel_compare {e : Env} {s : MLState} {r : MLState × Bool} (w : WF s) (h : s.compare e = Res.ok r) : NoSel s r.1 := by
  unfold MLState.compare at h
  split at h
  · cases h
  · dsimp only at h
    have key : ∀ i, NoSel { s with info := i } r.1 → NoSel s r.1 := fun _ q => q
    split at h
    · exact key _ (noSel_compareMode h)
    · split at h
      · split at h
        · exact key _ (noSel_openAndDiff (w.info _) h)
        · split at h
          · exact key _ (noSel_openAndDiff (w.info _) h)
          · exact key _ (noSel_compareMode h)
      · split at h
        · exact key _ (noSel_openAndDiff (w.info _) h)
        · exact key _ (noSel_openAndDiff (w.info _) h)

theorem noSel_diffFinished {e : Env} {s s' : MLState} {r : ProcessResult} (w : WF s) (h : s.slotDiffProcessFinished e r = Res.ok s') :
    NoSel s s' := by
  have hspec := diffFinished_spec w h
  unfold MLState.slotDiffProcessFinished at h
  dsimp only at h
  split at h
  · rename_i hfn
    by_cases hm : s'.models = none
    · obtain ⟨⟨u, ok⟩, hp, h⟩ := Res.bind_eq_ok.1 h
      obtain ⟨wu, _, _, pr, hr, hh, hf, ht⟩ := parseDiffOutput_spec (w.keep (keep_emit s (.status .Parsing))) hp
      dsimp only at h
      split at h
      · rename_i hok
        obtain ⟨_, m1, m2, m3, m4, m5, _⟩ := hf hok
        cases h
        exact .same m2 m5
      · rename_i hok
        obtain ⟨ms, m, d, _, ho, ha, _⟩ := ht (by simpa using hok)
        split at h
        · cases h
        · rename_i i hi
          split at h
          · obtain ⟨v, b', hv, ov, wv, kv, sv, _⟩ := blendOriginal_ok e ho wu i.localSource ⟨0, 0, m, d, ha⟩
            rw [hv] at h
            simp only [Res.bind_ok] at h
            obtain ⟨x, hx, h⟩ := Res.bind_eq_ok.1 h
            cases h
            refine .of ?_
            show x.selectedModel ≠ none
            rw [(updateActions_selected_eq hx).1]; exact sv.ne
          · simp only [Res.bind_ok] at h
            obtain ⟨x, hx, h⟩ := Res.bind_eq_ok.1 h
            cases h
            refine .of ?_
            show x.selectedModel ≠ none
            rw [(updateActions_selected_eq hx).1]; exact Selected.ne ⟨0, 0, m, d, ha⟩
    · exact .of (hspec.2 hfn hm).selected
  · split at h
    · cases h; exact .same rfl rfl
    · cases h; exact .same rfl rfl

theorem noSel_op {op : MLOp} {s s' : MLState} (w : WF s) (h : op.run s = Res.ok s') : NoSel s s' := by
  cases op with
  | user o => exact noSel_user h
  | select m d => exact .of (select_selected h)
  | selectDiff d => exact .of (selectDiff_selected h)
  | openDiff e f =>
    obtain ⟨t, h1, h⟩ := Res.bind_eq_ok.1 h
    cases h
    unfold MLState.openDiff at h1
    split at h1
    · cases h1; exact .same rfl rfl
    · exact noSel_parseAndOpenDiff (e := e) (text := e.contents f) w h1
  | parseAndOpenDiff e f => obtain ⟨t, h1, h⟩ := Res.bind_eq_ok.1 h; cases h; exact noSel_parseAndOpenDiff w h1
  | openFileAndDiff e => obtain ⟨t, h1, h⟩ := Res.bind_eq_ok.1 h; cases h; exact noSel_openAndDiff w h1
  | compare e => obtain ⟨t, h1, h⟩ := Res.bind_eq_ok.1 h; cases h; exact noSel_compare w h1
  | refresh e =>
    simp only [MLOp.run, MLState.refresh] at h
    split at h
    · cases h
    · obtain ⟨t, h1, h⟩ := Res.bind_eq_ok.1 h; cases h; exact noSel_compareMode h1
  | swap e =>
    simp only [MLOp.run, MLState.swap] at h
    split at h
    · cases h
    · split at h
      · obtain ⟨t, h1, h⟩ := Res.bind_eq_ok.1 h; cases h; exact noSel_compareMode h1
      · cases h; exact .same rfl rfl
  | diffFinished e r => exact noSel_diffFinished w h
  | setInfo i => cases h; exact .same rfl rfl
  | saveDiff e t u d st =>
    obtain ⟨x, h1, h⟩ := Res.bind_eq_ok.1 h
    cases h
    unfold MLState.saveDiff at h1
    dsimp only at h1
    split at h1
    · cases h1; exact .same rfl rfl
    · split at h1
      · cases h1
      · obtain ⟨y, _, h1⟩ := Res.bind_eq_ok.1 h1
        cases h1; exact .same rfl rfl
  | diffWritten c r =>
    simp only [MLOp.run, MLState.slotWriteDiffOutput] at h
    split at h
    · cases h
    · cases h
      split
      · split <;> exact .same rfl rfl
      · exact .same rfl rfl

theorem reachable_noSel {s : MLState} (h : Reachable s) : s.selectedModel = none → s.actions = noActions := by
  obtain ⟨st, rw', hp, ops, h⟩ := h
  have key : ∀ (ops : List MLOp) (x s : MLState), WF x → (x.selectedModel = none → x.actions = noActions) → runSession ops x = Res.ok s →
      s.selectedModel = none → s.actions = noActions := by
    intro ops
    induction ops with
    | nil => intro x s _ hx hr; cases hr; exact hx
    | cons op ops ih =>
      intro x s w hx hr
      obtain ⟨t, h1, h2⟩ := Res.bind_eq_ok.1 hr
      refine ih t s (wf_op w h1) (fun hn => ?_) h2
      have q := noSel_op w h1 hn
      exact q.2 (hx q.1)
  exact key ops _ _ (wf_init st rw' hp) (fun _ => rfl) h

end KompareDiff2
