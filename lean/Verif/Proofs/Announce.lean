import Verif.Spec.Announce
import Verif.Proofs.InUse
/-
What the operations tell a listener.
-/
namespace KompareDiff2
open Spec

theorem heard_snoc (l : List Event) (e : Event) : heard (l ++ [e]) = (heard l).hear e := by
  unfold heard; rw [List.foldl_append]; rfl

/-- `updateActions` changes nothing but the actions. -/
theorem updateActions_only {s s' : MLState} (h : s.updateActions = Res.ok s') : ∃ ac, s' = { s with actions := ac } := by
  unfold MLState.updateActions at h
  split at h
  · obtain ⟨a, _, h⟩ := Res.bind_eq_ok.1 h
    obtain ⟨b, _, h⟩ := Res.bind_eq_ok.1 h
    obtain ⟨c, _, h⟩ := Res.bind_eq_ok.1 h
    obtain ⟨d, _, h⟩ := Res.bind_eq_ok.1 h
    exact ⟨_, (Res.ok.inj h).symm⟩
  · exact ⟨_, (Res.ok.inj h).symm⟩

/-- Every announcement of the selection ends with the same status bar. -/
theorem finish_told {s s' : MLState} {e : Event} (h : ((s.emit e).emitStatusBar >>= fun s => s.updateActions) = Res.ok s')
    (h1 : ((heard s.log).hear e).model = s.selectedModel) (h2 : ((heard s.log).hear e).diff = s.selectedDifference) :
    Announced s' ∧ CountShown s' := by
  obtain ⟨t, ht, h⟩ := Res.bind_eq_ok.1 h
  obtain ⟨ac, rfl⟩ := updateActions_only h
  unfold MLState.emitStatusBar at ht
  obtain ⟨l, hl, ht⟩ := Res.bind_eq_ok.1 ht
  obtain ⟨m, hm, ht⟩ := Res.bind_eq_ok.1 ht
  obtain ⟨dc, hd, ht⟩ := Res.bind_eq_ok.1 ht
  have ht := Res.ok.inj ht
  subst ht
  have hl' : s.list = Res.ok l := hl
  have hm' : s.model s.selectedModel = Res.ok m := hm
  have hd' : s.differenceCount = Res.ok dc := hd
  have hs : s.selectedModel = some m := by
    unfold MLState.model at hm'
    split at hm'
    · cases hm'
    · rename_i i hi
      split at hm'
      · cases hm'
      · rw [hi, Res.ok.inj hm']
  have hb : heard (s.log ++ [e] ++ [.statusBar (MLState.indexOfPtr l s.selectedModel)
      (MLState.indexOfPtr (s.store m).differences s.selectedDifference) s.modelCount dc (s.store m).appliedCount]) =
      { (heard s.log).hear e with bar := some ⟨MLState.indexOfPtr l s.selectedModel, MLState.indexOfPtr (s.store m).differences s.selectedDifference,
        s.modelCount, dc, (s.store m).appliedCount⟩ } := by
    rw [heard_snoc, heard_snoc]; rfl
  refine ⟨⟨?_, ?_, ?_⟩, ?_⟩
  · show (heard (s.log ++ [e] ++ [_])).model = s.selectedModel
    rw [heard_snoc, heard_snoc]; exact h1
  · show (heard (s.log ++ [e] ++ [_])).diff = s.selectedDifference
    rw [heard_snoc, heard_snoc]; exact h2
  · refine ⟨_, congrArg Listener.bar hb, ?_, ?_, rfl, hd'⟩
    · show s.currentModel = _
      unfold MLState.currentModel
      rw [hl']; rfl
    · show s.currentDifference = _
      unfold MLState.currentDifference
      rw [hm']
      rw [hs]; rfl
  · refine ⟨_, congrArg Listener.bar hb, ?_⟩
    show s.appliedCount = _
    unfold MLState.appliedCount
    rw [hm', hs]; rfl

theorem announce_told {s s' : MLState} (h : s.announce = Res.ok s') : Announced s' ∧ CountShown s' := finish_told h rfl rfl

/-- What decides about the getters and what a listener hears of it. -/
structure Unheard (s s' : MLState) : Prop where
  heard : heard s'.log = heard s.log
  models : s'.models = s.models
  selectedModel : s'.selectedModel = s.selectedModel
  selectedDifference : s'.selectedDifference = s.selectedDifference
  dead : s'.dead = s.dead
  differences : ∀ m, (s'.store m).differences = (s.store m).differences

theorem Unheard.refl (s : MLState) : Unheard s s := ⟨rfl, rfl, rfl, rfl, rfl, fun _ => rfl⟩
theorem Unheard.trans {a b c : MLState} (h : Unheard a b) (g : Unheard b c) : Unheard a c :=
  ⟨g.heard.trans h.heard, g.models.trans h.models, g.selectedModel.trans h.selectedModel,
    g.selectedDifference.trans h.selectedDifference, g.dead.trans h.dead, fun m => (g.differences m).trans (h.differences m)⟩

theorem Unheard.model {s s' : MLState} (h : Unheard s s') (p : Option Nat) : s'.model p = s.model p := by
  unfold MLState.model; rw [h.dead]

theorem Unheard.announced {s s' : MLState} (h : Unheard s s') (a : Announced s) : Announced s' := by
  obtain ⟨a1, a2, b, hb, h1, h2, h3, h4⟩ := a
  refine ⟨by rw [h.heard, h.selectedModel]; exact a1, by rw [h.heard, h.selectedDifference]; exact a2, b, by rw [h.heard]; exact hb, ?_, ?_, ?_, ?_⟩
  · rw [← h1]; unfold MLState.currentModel MLState.list; rw [h.models, h.selectedModel]
  · rw [← h2]; unfold MLState.currentDifference; simp only [h.selectedModel, h.selectedDifference, h.model, h.differences]
  · rw [← h3]; unfold MLState.modelCount; rw [h.models]
  · rw [← h4]; unfold MLState.differenceCount; simp only [h.selectedModel, h.model, h.differences]

theorem Unheard.count {s s' : MLState} (h : Unheard s s') (hc : ∀ m, (s'.store m).appliedCount = (s.store m).appliedCount) (a : CountShown s) :
    CountShown s' := by
  obtain ⟨b, hb, h1⟩ := a
  refine ⟨b, by rw [h.heard]; exact hb, ?_⟩
  rw [← h1]; unfold MLState.appliedCount; simp only [h.selectedModel, h.model, hc]

theorem unheard_update {s s' : MLState} (h : s.updateActions = Res.ok s') : Unheard s s' ∧ s'.store = s.store := by
  obtain ⟨ac, rfl⟩ := updateActions_only h
  exact ⟨⟨rfl, rfl, rfl, rfl, rfl, fun _ => rfl⟩, rfl⟩

/-! ### Navigation -/

/-- Selecting inside the current file: nothing is emitted, the selected file stays. -/
theorem selectWith_log {s s' : MLState} {i : Nat} {f : DModel → Res (DModel × Option Nat)} (h : s.selectWith i f = Res.ok s') :
    s'.log = s.log ∧ s'.selectedModel = s.selectedModel := by
  unfold MLState.selectWith at h
  obtain ⟨r, _, h⟩ := Res.bind_eq_ok.1 h
  rw [← Res.ok.inj h]
  exact ⟨rfl, rfl⟩

theorem told_nextDifference {s s' : MLState} (a : (heard s.log).model = s.selectedModel) (h : s.slotNextDifference = Res.ok s') : Announced s' ∧ CountShown s' := by
  unfold MLState.slotNextDifference at h
  obtain ⟨m, _, h⟩ := Res.bind_eq_ok.1 h
  obtain ⟨t, ht, h⟩ := Res.bind_eq_ok.1 h
  obtain ⟨hl, hs⟩ := selectWith_log ht
  split at h
  · exact finish_told h (by rw [hl, hs]; exact a) rfl
  · obtain ⟨u, _, h⟩ := Res.bind_eq_ok.1 h
    split at h
    · obtain ⟨v, _, h⟩ := Res.bind_eq_ok.1 h
      exact announce_told h
    · obtain ⟨v, _, h⟩ := Res.bind_eq_ok.1 h
      obtain ⟨w, _, h⟩ := Res.bind_eq_ok.1 h
      exact announce_told h

theorem told_previousDifference {s s' : MLState} (a : (heard s.log).model = s.selectedModel) (h : s.slotPreviousDifference = Res.ok s') : Announced s' ∧ CountShown s' := by
  unfold MLState.slotPreviousDifference at h
  obtain ⟨m, _, h⟩ := Res.bind_eq_ok.1 h
  obtain ⟨t, ht, h⟩ := Res.bind_eq_ok.1 h
  obtain ⟨hl, hs⟩ := selectWith_log ht
  split at h
  · exact finish_told h (by rw [hl, hs]; exact a) rfl
  · obtain ⟨u, _, h⟩ := Res.bind_eq_ok.1 h
    split at h
    · obtain ⟨v, _, h⟩ := Res.bind_eq_ok.1 h
      exact announce_told h
    · obtain ⟨v, _, h⟩ := Res.bind_eq_ok.1 h
      obtain ⟨w, _, h⟩ := Res.bind_eq_ok.1 h
      exact announce_told h

theorem told_nextFile {s s' : MLState} (h : s.slotNextModel = Res.ok s') : Announced s' ∧ CountShown s' := by
  unfold MLState.slotNextModel at h
  obtain ⟨t, _, h⟩ := Res.bind_eq_ok.1 h
  dsimp only at h
  split at h
  · obtain ⟨u, _, h⟩ := Res.bind_eq_ok.1 h
    exact announce_told h
  · obtain ⟨u, _, h⟩ := Res.bind_eq_ok.1 h
    obtain ⟨v, _, h⟩ := Res.bind_eq_ok.1 h
    exact announce_told h

theorem told_previousFile {s s' : MLState} (h : s.slotPreviousModel = Res.ok s') : Announced s' ∧ CountShown s' := by
  unfold MLState.slotPreviousModel at h
  obtain ⟨t, _, h⟩ := Res.bind_eq_ok.1 h
  dsimp only at h
  split at h
  · obtain ⟨u, _, h⟩ := Res.bind_eq_ok.1 h
    exact announce_told h
  · obtain ⟨u, _, h⟩ := Res.bind_eq_ok.1 h
    obtain ⟨v, _, h⟩ := Res.bind_eq_ok.1 h
    exact announce_told h

/-! ### Applying -/

theorem unheard_applySlot {s s' : MLState} {b : Bool} (h : s.slotApplyDifference b = Res.ok s') : Unheard s s' := by
  have hk := keep_slotApplyDifference h
  unfold MLState.slotApplyDifference at h
  obtain ⟨m, _, h⟩ := Res.bind_eq_ok.1 h
  obtain ⟨d, _, h⟩ := Res.bind_eq_ok.1 h
  obtain ⟨r, hr, h⟩ := Res.bind_eq_ok.1 h
  rw [← Res.ok.inj h] at hk ⊢
  exact ⟨by show heard (s.log ++ [_]) = _; rw [heard_snoc]; rfl, rfl, rfl, rfl, rfl, hk.differences⟩

theorem unheard_applyAllSlot {s s' : MLState} {b : Bool} (h : s.slotApplyAllDifferences b = Res.ok s') : Unheard s s' := by
  have hk := keep_slotApplyAll h
  unfold MLState.slotApplyAllDifferences at h
  obtain ⟨m, _, h⟩ := Res.bind_eq_ok.1 h
  rw [← Res.ok.inj h] at hk ⊢
  exact ⟨by show heard (s.log ++ [_]) = _; rw [heard_snoc]; rfl, rfl, rfl, rfl, rfl, hk.differences⟩

theorem told_actionApply {s s' : MLState} (a : (heard s.log).model = s.selectedModel) (h : s.actionApply = Res.ok s') : Announced s' ∧ CountShown s' := by
  unfold MLState.actionApply at h
  obtain ⟨d, _, h⟩ := Res.bind_eq_ok.1 h
  have rest : ∀ t : MLState, (heard t.log).model = t.selectedModel → (do let s ← t.slotNextDifference; s.updateActions) = Res.ok s' →
      Announced s' ∧ CountShown s' := by
    intro t ht h
    obtain ⟨u, hu, h⟩ := Res.bind_eq_ok.1 h
    obtain ⟨a1, a2⟩ := told_nextDifference ht hu
    obtain ⟨b1, b2⟩ := unheard_update h
    exact ⟨b1.announced a1, b1.count (fun m => by rw [b2]) a2⟩
  dsimp only at h
  split at h
  · obtain ⟨t, ht, h⟩ := Res.bind_eq_ok.1 h
    have := unheard_applySlot ht
    exact rest t (by rw [this.heard, this.selectedModel]; exact a) h
  · exact rest s a h

theorem told_actionUnapply {s s' : MLState} (a : (heard s.log).model = s.selectedModel) (h : s.actionUnapply = Res.ok s') : Announced s' ∧ CountShown s' := by
  unfold MLState.actionUnapply at h
  obtain ⟨d, _, h⟩ := Res.bind_eq_ok.1 h
  have rest : ∀ t : MLState, (heard t.log).model = t.selectedModel → (do let s ← t.slotPreviousDifference; s.updateActions) = Res.ok s' →
      Announced s' ∧ CountShown s' := by
    intro t ht h
    obtain ⟨u, hu, h⟩ := Res.bind_eq_ok.1 h
    obtain ⟨a1, a2⟩ := told_previousDifference ht hu
    obtain ⟨b1, b2⟩ := unheard_update h
    exact ⟨b1.announced a1, b1.count (fun m => by rw [b2]) a2⟩
  dsimp only at h
  split at h
  · obtain ⟨t, ht, h⟩ := Res.bind_eq_ok.1 h
    have := unheard_applySlot ht
    exact rest t (by rw [this.heard, this.selectedModel]; exact a) h
  · exact rest s a h

/-! ### Saving -/

theorem unheard_emit (s : MLState) {e : Event} (h : ∀ l : Listener, l.hear e = l) : Unheard s (s.emit e) :=
  ⟨by show heard (s.log ++ [e]) = _; rw [heard_snoc, h], rfl, rfl, rfl, rfl, fun _ => rfl⟩

theorem unheard_saveDestination {s : MLState} {v : MLState.SaveEnv} {m : Nat} {r : MLState × Bool} (h : s.saveDestination v m = Res.ok r) :
    Unheard s r.1 ∧ r.1.store = s.store := by
  unfold MLState.saveDestination at h
  obtain ⟨m, _, h⟩ := Res.bind_eq_ok.1 h
  split at h
  · cases h; exact ⟨.refl _, rfl⟩
  split at h
  · cases h; exact ⟨unheard_emit _ (fun _ => rfl), rfl⟩
  split at h
  · cases h; exact ⟨unheard_emit _ (fun _ => rfl), rfl⟩
  split at h
  · cases h; exact ⟨unheard_emit _ (fun _ => rfl), rfl⟩
  split at h
  · cases h
  split at h
  · cases h; exact ⟨unheard_emit _ (fun _ => rfl), rfl⟩
  dsimp only at h
  split at h
  · cases h
    exact ⟨⟨(unheard_emit s (e := .upload _ _) (fun _ => rfl)).heard, rfl, rfl, rfl, rfl, fun _ => rfl⟩, rfl⟩
  · cases h; exact ⟨unheard_emit _ (fun _ => rfl), rfl⟩

theorem unheard_saveLoop {v : Nat → MLState.SaveEnv} {l : List Nat} {s : MLState} {r : MLState × Bool} (h : MLState.saveLoop v l s = Res.ok r) :
    Unheard s r.1 ∧ r.1.store = s.store := by
  induction l generalizing s with
  | nil => cases h; exact ⟨.refl _, rfl⟩
  | cons m ms ih =>
    unfold MLState.saveLoop at h
    obtain ⟨⟨t, b⟩, h1, h⟩ := Res.bind_eq_ok.1 h
    have k1 := unheard_saveDestination h1
    dsimp only at h
    split at h
    · cases h; exact k1
    · obtain ⟨a, b⟩ := ih h
      exact ⟨k1.1.trans a, b.trans k1.2⟩

/-! ### All operations -/

theorem select_member (x : DModel) {d : Nat} (hd : d ∈ x.differences) : (x.setSelectedDifference (some d)).2 = true := by
  unfold DModel.setSelectedDifference
  rcases indexOfI_spec x.differences d with q | q
  · exact absurd hd q.2
  · have q' : indexOfI x.differences d ≠ -1 := by omega
    unfold DModel.findDifference
    simp only [q', if_false]
    split <;> rfl

theorem told_select {s s' : MLState} {m d : Nat} (hd : d ∈ (s.store m).differences) (h : s.slotSelectionChanged (some m) (some d) = Res.ok s') :
    Announced s' ∧ CountShown s' := by
  unfold MLState.slotSelectionChanged at h
  obtain ⟨l, _, h⟩ := Res.bind_eq_ok.1 h
  obtain ⟨x, hx, h⟩ := Res.bind_eq_ok.1 h
  have : m = x := by
    simp only [MLState.model] at hx
    split at hx
    · cases hx
    · exact Res.ok.inj hx
  subst this
  generalize ht : MLState.setModel { s with selectedModel := some m, modelIndex := MLState.indexOfPtr l (some m), selectedDifference := some d } m
    ((s.store m).setSelectedDifference (some d)).1 = t at h
  have f0 : t.log = s.log := by rw [← ht]; rfl
  have f1 : t.selectedModel = some m := by rw [← ht]; rfl
  have f2 : t.selectedDifference = some d := by rw [← ht]; rfl
  have f3 : (t.store m).differences = (s.store m).differences := by
    rw [← ht]; show (if m = m then _ else _ : DModel).differences = _; rw [if_pos rfl]; exact select_diffs _ _
  obtain ⟨r, hr, h⟩ := Res.bind_eq_ok.1 h
  unfold MLState.setSelectedModel at hr
  rw [if_neg (by simp)] at hr
  obtain ⟨u, hu, hr⟩ := Res.bind_eq_ok.1 hr
  obtain ⟨ac, rfl⟩ := updateActions_only hu
  have := Res.ok.inj hr
  subst this
  dsimp only at h
  obtain ⟨y, hy, h⟩ := Res.bind_eq_ok.1 h
  have : m = y := by
    rw [f1] at hy
    simp only [MLState.model] at hy
    split at hy
    · cases hy
    · exact Res.ok.inj hy
  subst this
  rw [if_neg (by rw [f2, select_member _ (by rw [f3]; exact hd)]; simp)] at h
  refine finish_told h ?_ ?_
  · exact f1.symm
  · exact f2.symm

theorem told_selectDiff {s s' : MLState} {m d : Nat} (a : (heard s.log).model = s.selectedModel) (hm : s.selectedModel = some m)
    (hd : d ∈ (s.store m).differences) (h : s.slotDiffSelectionChanged (some d) = Res.ok s') : Announced s' ∧ CountShown s' := by
  unfold MLState.slotDiffSelectionChanged at h
  obtain ⟨x, hx, h⟩ := Res.bind_eq_ok.1 h
  have : m = x := by
    dsimp only at hx
    rw [hm] at hx
    simp only [MLState.model] at hx
    split at hx
    · cases hx
    · exact Res.ok.inj hx
  subst this
  dsimp only at h
  rw [if_neg (by rw [select_member _ hd]; simp)] at h
  exact finish_told h a rfl

/-- Every operation that sets the selection tells it. -/
theorem told_selects {s s' : MLState} {op : UserOp} (a : (heard s.log).model = s.selectedModel) (hop : op.Proper s) (hs : op.selects = true)
    (h : op.run s = Res.ok s') : Announced s' ∧ CountShown s' := by
  cases op with
  | nextDifference => exact told_nextDifference a h
  | previousDifference => exact told_previousDifference a h
  | nextFile => exact told_nextFile h
  | previousFile => exact told_previousFile h
  | select m d => exact told_select hop.2 h
  | selectDiff d => obtain ⟨m, hm, hd⟩ := hop; exact told_selectDiff a hm hd h
  | apply => exact told_actionApply a h
  | unapply => exact told_actionUnapply a h
  | _ => cases hs

/-- Every other one leaves it, and emits nothing a listener of the selection would hear. -/
theorem unheard_others {s s' : MLState} {op : UserOp} (hs : op.selects = false) (h : op.run s = Res.ok s') :
    Unheard s s' ∧ (op.applies = false → s'.store = s.store) := by
  cases op with
  | applyAll =>
    obtain ⟨t, h1, h2⟩ := Res.bind_eq_ok.1 h
    exact ⟨(unheard_applyAllSlot h1).trans (unheard_update h2).1, by simp [UserOp.applies]⟩
  | unapplyAll =>
    obtain ⟨t, h1, h2⟩ := Res.bind_eq_ok.1 h
    exact ⟨(unheard_applyAllSlot h1).trans (unheard_update h2).1, by simp [UserOp.applies]⟩
  | applySlot b => exact ⟨unheard_applySlot h, by simp [UserOp.applies]⟩
  | applyAllSlot b => exact ⟨unheard_applyAllSlot h, by simp [UserOp.applies]⟩
  | setReadWrite b =>
    simp only [UserOp.run, MLState.setReadWrite] at h
    split at h
    · cases h; exact ⟨.refl _, fun _ => rfl⟩
    · obtain ⟨h1, h2⟩ := unheard_update h
      exact ⟨⟨h1.heard, h1.models, h1.selectedModel, h1.selectedDifference, h1.dead, h1.differences⟩, fun _ => h2⟩
  | save v =>
    simp only [UserOp.run, MLState.slotSaveDestination] at h
    split at h
    · cases h; exact ⟨.refl _, fun _ => rfl⟩
    · obtain ⟨r, h1, h⟩ := Res.bind_eq_ok.1 h
      obtain ⟨k1, k2⟩ := unheard_saveDestination h1
      have := Res.ok.inj h
      subst this
      refine ⟨k1.trans (Unheard.trans ?_ (unheard_emit _ (fun _ => rfl))), fun _ => ?_⟩
      · split
        · exact ⟨rfl, rfl, rfl, rfl, rfl, fun _ => rfl⟩
        · exact .refl _
      · rw [← k2]; dsimp only [MLState.emit]; split <;> rfl
  | saveModel v m =>
    obtain ⟨r, h1, h⟩ := Res.bind_eq_ok.1 h
    obtain ⟨k1, k2⟩ := unheard_saveDestination h1
    rw [← Res.ok.inj h]
    exact ⟨k1, fun _ => k2⟩
  | saveAll v =>
    obtain ⟨r, h1, h⟩ := Res.bind_eq_ok.1 h
    rw [← Res.ok.inj h]
    unfold MLState.saveAll at h1
    split at h1
    · cases h1; exact ⟨.refl _, fun _ => rfl⟩
    · cases h1; exact ⟨.refl _, fun _ => rfl⟩
    · obtain ⟨k1, k2⟩ := unheard_saveLoop h1
      exact ⟨k1, fun _ => k2⟩
  | _ => cases hs

end KompareDiff2
