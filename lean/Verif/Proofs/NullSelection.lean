import Verif.Props.Announce

/-!
Proofs about `slotSelectionChanged` with null pointers (C68).
-/

namespace KompareDiff2
open Spec

theorem setSelected_null {x : DModel} (h : x.selected ≠ none) : x.setSelectedDifference none = (x, false) := by
  unfold DModel.setSelectedDifference
  rw [if_pos (fun e => h e.symm)]

theorem setSelected_null_same {x : DModel} (h : x.selected = none) : x.setSelectedDifference none = (x, true) := by
  unfold DModel.setSelectedDifference
  rw [if_neg (by simp [h])]

/-- What `updateModelListActions` does when no difference is selected. -/
def nullActions (s : MLState) : Actions :=
  { (if s.canSave = true then { s.actions with apply := false, unapply := false, applyAll := false, unapplyAll := false, save := false }
      else s.actions) with previousFile := false, nextFile := false, previousDifference := false, nextDifference := false }

theorem updateActions_null {s : MLState} (h : s.selectedDifference = none) : s.updateActions = Res.ok { s with actions := nullActions s } := by
  unfold MLState.updateActions
  rw [if_neg (by simp [h])]
  rfl

theorem slotDiffSelectionChanged_null {s : MLState} {ms : List Nat} (h : Opened s ms) {k j0 m d0 : Nat} (a : At s ms k j0 m d0) :
    ∃ s' d', Nav ms s (s.slotDiffSelectionChanged none) s' k 0 m d' ∧ (s.store m).differences[0]? = some d' := by
  have hm := h.mem a.model
  have hset := setSelected_null (x := s.store m) (by rw [a.modelSelected]; simp)
  have e0 : ({ s with selectedDifference := none } : MLState).model s.selectedModel = Res.ok m := by
    rw [a.selectedModel]; unfold MLState.model; simp [h.live m hm]
  unfold MLState.slotDiffSelectionChanged
  dsimp only
  rw [e0, Res.bind_ok]
  simp only [hset, if_true]
  have e6 := setModel_self { s with selectedDifference := none } m
  dsimp only at e6
  rw [e6]
  obtain ⟨d', hd', hsf⟩ := selectFirst_ok (s := { s with selectedDifference := none }) h a.model
  have e7 : MLState.selectFirst { s with selectedDifference := none } =
    MLState.selectFirst { ({ s with selectedDifference := none } : MLState) with modelIndex := (k : Int), selectedModel := some m } := by
    rw [← a.index, ← a.selectedModel]
  rw [e7, hsf, Res.bind_ok]
  obtain ⟨s', hs'⟩ := finish_moved (s := s) (t := { s with selectedDifference := none }) (.diffSelection none) h
    ⟨rfl, rfl, rfl, rfl, rfl, rfl, rfl, rfl, fun _ => rfl, fun _ => rfl, fun _ => .refl _, fun _ => rfl⟩ rfl rfl a.model hd'
  exact ⟨s', d', hs', hd'⟩

theorem slotSelectionChanged_visited {s : MLState} {ms : List Nat} (h : Opened s ms) {m : Nat} (hm : m ∈ ms) (hv : (s.store m).selected ≠ none) :
    ∃ s' k d', Nav ms s (s.slotSelectionChanged (some m) none) s' k 0 m d' ∧ (s.store m).differences[0]? = some d' := by
  obtain ⟨k, hk⟩ := List.getElem?_of_mem hm
  have hix : MLState.indexOfPtr ms (some m) = (k : Int) := indexOfI_get h.nodup hk
  unfold MLState.slotSelectionChanged
  rw [h.list, Res.bind_ok]
  have hmod : ∀ t : MLState, t.dead = s.dead → t.model (some m) = Res.ok m := by
    intro t ht; unfold MLState.model; simp [ht, h.live m hm]
  simp only [hix]
  rw [hmod { s with selectedModel := some m, modelIndex := (k : Int), selectedDifference := none } rfl, Res.bind_ok]
  have hset := setSelected_null hv
  have e1 : MLState.setModel { s with selectedModel := some m, modelIndex := (k : Int), selectedDifference := none } m
      ((s.store m).setSelectedDifference none).1 = { s with selectedModel := some m, modelIndex := (k : Int), selectedDifference := none } := by
    rw [hset]
    exact setModel_self { s with selectedModel := some m, modelIndex := (k : Int), selectedDifference := none } m
  rw [e1]
  have hu := updateActions_null (s := { s with selectedModel := some m, modelIndex := (k : Int), selectedDifference := none }) rfl
  generalize hac : nullActions { s with selectedModel := some m, modelIndex := (k : Int), selectedDifference := none } = ac at hu
  have e2 : MLState.setSelectedModel { s with selectedModel := some m, modelIndex := (k : Int), selectedDifference := none }
      (some m) =
      Res.ok (some { s with selectedModel := some m, modelIndex := (k : Int), selectedDifference := none, actions := ac }) := by
    unfold MLState.setSelectedModel
    rw [if_neg (by simp), hu]; rfl
  rw [e2, Res.bind_ok]
  dsimp only
  rw [hmod { s with selectedModel := some m, modelIndex := (k : Int), selectedDifference := none, actions := ac } rfl, Res.bind_ok]
  rw [hset]
  simp only [if_true]
  have e6 := setModel_self { s with selectedModel := some m, modelIndex := (k : Int), selectedDifference := none, actions := ac } m
  dsimp only at e6
  rw [e6]
  obtain ⟨d', hd', hsf⟩ := selectFirst_ok (s := { s with selectedDifference := none, actions := ac }) h hk
  have e7 : MLState.selectFirst { s with selectedModel := some m, modelIndex := (k : Int), selectedDifference := none, actions := ac } =
    MLState.selectFirst { ({ s with selectedDifference := none, actions := ac } : MLState) with modelIndex := (k : Int), selectedModel := some m } := rfl
  rw [e7, hsf, Res.bind_ok]
  obtain ⟨s', hs'⟩ := finish_moved (s := s) (t := { s with selectedDifference := none, actions := ac }) (.selection (some m) none) h
    ⟨rfl, rfl, rfl, rfl, rfl, rfl, rfl, rfl, fun _ => rfl, fun _ => rfl, fun _ => .refl _, fun _ => rfl⟩ rfl rfl hk hd'
  exact ⟨s', k, d', hs', hd'⟩

/-- The state after a file without selected difference was selected without a difference. -/
structure NullSelected (s s' : MLState) (ms : List Nat) (k m : Nat) : Prop where
  model : ms[k]? = some m
  store : s'.store = s.store
  heap : s'.heap = s.heap
  models : s'.models = s.models
  dead : s'.dead = s.dead
  deadDiffs : s'.deadDiffs = s.deadDiffs
  selectedModel : s'.selectedModel = some m
  selectedDifference : s'.selectedDifference = none
  index : s'.modelIndex = k
  opened : Opened s' ms
  actions : s'.actions = nullActions s
  log : s'.log = s.log ++ [.selection (some m) none, .statusBar k (-1) ms.length (s.store m).differences.length (s.store m).appliedCount]

theorem nullActions_twice {s t : MLState} (h1 : t.actions = nullActions s) (h2 : t.canSave = s.canSave) : nullActions t = nullActions s := by
  unfold nullActions at *
  rw [h1, h2]
  split <;> rfl

/-- The status bar without a selected difference. -/
theorem emitStatusBar_null {t : MLState} {ms : List Nat} {m k : Nat} (f1 : t.models = some ms) (f2 : t.selectedModel = some m)
    (f3 : t.model (some m) = Res.ok m) (f4 : t.selectedDifference = none) (hix : MLState.indexOfPtr ms (some m) = (k : Int)) (e : Event) :
    (t.emit e).emitStatusBar = Res.ok { t with log := t.log ++
      [e, .statusBar k (-1) ms.length (t.store m).differences.length (t.store m).appliedCount] } := by
  have g1 : (t.emit e).list = Res.ok ms := by unfold MLState.list MLState.emit; rw [f1]
  have g3 : (t.emit e).model (some m) = Res.ok m := f3
  have g2 : (t.emit e).selectedModel = some m := f2
  have hdc : (t.emit e).differenceCount = Res.ok ((t.store m).differences.length : Int) := by
    unfold MLState.differenceCount
    rw [g2]
    dsimp only
    rw [g3]; rfl
  have hc : (t.emit e).modelCount = (ms.length : Int) := by unfold MLState.modelCount MLState.emit; rw [f1]
  have g4 : (t.emit e).selectedDifference = none := f4
  unfold MLState.emitStatusBar
  rw [g1, g2, g3, hdc]
  simp only [Res.bind_ok]
  rw [hc, hix, g4]
  simp [MLState.emit, MLState.indexOfPtr]

theorem slotSelectionChanged_unvisited {s : MLState} {ms : List Nat} (h : Opened s ms) {m : Nat} (hm : m ∈ ms) (hv : (s.store m).selected = none) :
    ∃ s' k, s.slotSelectionChanged (some m) none = Res.ok s' ∧ NullSelected s s' ms k m := by
  obtain ⟨k, hk⟩ := List.getElem?_of_mem hm
  have hix : MLState.indexOfPtr ms (some m) = (k : Int) := indexOfI_get h.nodup hk
  unfold MLState.slotSelectionChanged
  rw [h.list, Res.bind_ok]
  have hmod : ∀ t : MLState, t.dead = s.dead → t.model (some m) = Res.ok m := by
    intro t ht; unfold MLState.model; simp [ht, h.live m hm]
  simp only [hix]
  rw [hmod { s with selectedModel := some m, modelIndex := (k : Int), selectedDifference := none } rfl, Res.bind_ok]
  have hset := setSelected_null_same hv
  have e1 : MLState.setModel { s with selectedModel := some m, modelIndex := (k : Int), selectedDifference := none } m
      ((s.store m).setSelectedDifference none).1 = { s with selectedModel := some m, modelIndex := (k : Int), selectedDifference := none } := by
    rw [hset]
    exact setModel_self { s with selectedModel := some m, modelIndex := (k : Int), selectedDifference := none } m
  rw [e1]
  have hu := updateActions_null (s := { s with selectedModel := some m, modelIndex := (k : Int), selectedDifference := none }) rfl
  have hac : nullActions { s with selectedModel := some m, modelIndex := (k : Int), selectedDifference := none } = nullActions s := rfl
  rw [hac] at hu
  have e2 : MLState.setSelectedModel { s with selectedModel := some m, modelIndex := (k : Int), selectedDifference := none }
      (some m) =
      Res.ok (some { s with selectedModel := some m, modelIndex := (k : Int), selectedDifference := none, actions := nullActions s }) := by
    unfold MLState.setSelectedModel
    rw [if_neg (by simp), hu]; rfl
  rw [e2, Res.bind_ok]
  dsimp only
  rw [hmod { s with selectedModel := some m, modelIndex := (k : Int), selectedDifference := none, actions := nullActions s } rfl, Res.bind_ok]
  rw [hset]
  simp only [Bool.true_eq_false, if_false, Res.bind_ok]
  have e6 := setModel_self { s with selectedModel := some m, modelIndex := (k : Int), selectedDifference := none, actions := nullActions s } m
  dsimp only at e6
  rw [e6]
  generalize ht : ({ s with selectedModel := some m, modelIndex := (k : Int), selectedDifference := none, actions := nullActions s } : MLState) = t
  have e8 : (t.emit (.selection (some m) none)).emitStatusBar = Res.ok { t with log := s.log ++
      [.selection (some m) none, .statusBar k (-1) ms.length (s.store m).differences.length (s.store m).appliedCount] } := by
    have f1 : t.models = some ms := by subst ht; exact h.models
    have f2 : t.selectedModel = some m := by subst ht; rfl
    have f3 : t.model (some m) = Res.ok m := by subst ht; exact hmod _ rfl
    have f4 : t.selectedDifference = none := by subst ht; rfl
    have f5 : t.store = s.store := by subst ht; rfl
    have f6 : t.log = s.log := by subst ht; rfl
    rw [← f5, ← f6]
    exact emitStatusBar_null f1 f2 f3 f4 hix _
  rw [e8, Res.bind_ok, updateActions_null (by subst ht; rfl)]
  refine ⟨_, k, rfl, ?_⟩
  subst ht
  exact ⟨hk, rfl, rfl, rfl, rfl, rfl, rfl, rfl, rfl, h, nullActions_twice rfl rfl, rfl⟩

/-- After a diff was opened only the first file has a selected difference. -/
theorem parseDiffOutput_unvisited {e : Env} {s s' : MLState} {text : Str} (w : WF s) (h : s.parseDiffOutput e text = Res.ok (s', true)) :
    ∀ m ∈ s'.models.getD [], some m ≠ s'.selectedModel → (s'.store m).selected = none ∧ (s'.store m).diffIndex = 0 := by
  obtain ⟨_, _, _, r0, hr0, _, _, ht⟩ := parseDiffOutput_heads w h
  obtain ⟨ms0, m0, d0, hms0, ho0, ha0, _⟩ := ht rfl
  unfold MLState.parseDiffOutput at h
  obtain ⟨r, hr, h⟩ := Res.bind_eq_ok.1 h
  obtain ⟨cl, _, h⟩ := Res.bind_eq_ok.1 h
  have hr' : parse e.win e.cmp s.heap (split text) = Res.ok r := hr
  have hrr : r0 = r := by rw [hr0] at hr'; cases hr'; rfl
  subst hrr
  obtain ⟨hext, hmod⟩ := parse_models hr'
  obtain ⟨hne, hp⟩ := hmod ms0 hms0
  have w1 : WF (s.emit (.diffString text)) := w.keep (keep_emit s _)
  have hst : ∀ i x, ms0[i]? = some x → ((s.emit (.diffString text)).resetModels r0).store (s.nextModel + i) = x := by
    intro i x hx
    unfold MLState.resetModels
    rw [hms0]
    simp [MLState.install, MLState.emit, hx]
  have hmm : ((s.emit (.diffString text)).resetModels r0).models = some (List.range' s.nextModel ms0.length) := by
    unfold MLState.resetModels; rw [hms0]; rfl
  dsimp only at h
  split at h
  · cases h
  · rename_i i hi
    generalize (s.emit (.diffString text)).resetModels r0 = t at hst hmm h hi
    rw [hmm] at h
    dsimp only at h
    obtain ⟨u, hu⟩ : ∃ u : MLState, u = (if r0.malformed then
        MLState.emit { t with info := some { i with generator := some (determineGenerator (split text)), format := determineFormat (determineGenerator (split text)) cl } }
          (.error .malformed)
        else { t with info := some { i with generator := some (determineGenerator (split text)), format := determineFormat (determineGenerator (split text)) cl } }) := ⟨_, rfl⟩
    have hsu : u.store = t.store := by rw [hu]; split <;> rfl
    have h' : (u.firstModel >>= fun s => s.selectFirst >>= fun s => s.differenceCount >>= fun dc =>
        Res.ok (s.emit (.statusBar 0 0 s.modelCount dc 0), true)) = Res.ok (s', true) := by
      rw [hu]
      rw [← hmm] at h
      split at h <;> rename_i hmal <;> simp only [hmal, if_true, if_false] <;> exact h
    obtain ⟨v, hv, h'⟩ := Res.bind_eq_ok.1 h'
    obtain ⟨x, hx, h'⟩ := Res.bind_eq_ok.1 h'
    obtain ⟨dc, _, h'⟩ := Res.bind_eq_ok.1 h'
    have hs' : x.emit (.statusBar 0 0 x.modelCount dc 0) = s' := congrArg Prod.fst (Res.ok.inj h')
    have hvs : v.store = u.store := by
      unfold MLState.firstModel at hv
      obtain ⟨l, _, hv⟩ := Res.bind_eq_ok.1 hv
      obtain ⟨p, _, hv⟩ := Res.bind_eq_ok.1 hv
      cases hv; rfl
    unfold MLState.selectFirst at hx
    obtain ⟨p, hp1, hx⟩ := Res.bind_eq_ok.1 hx
    have hpv : v.selectedModel = some p := by
      unfold MLState.model at hp1
      split at hp1
      · cases hp1
      · split at hp1
        · cases hp1
        · rename_i hq _; cases hp1; exact hq
    unfold MLState.selectWith at hx
    obtain ⟨y, _, hx⟩ := Res.bind_eq_ok.1 hx
    have hx' : ({ (v.setModel p y.1) with selectedDifference := y.2 } : MLState) = x := Res.ok.inj hx
    intro m hm hne'
    have hsel : s'.selectedModel = some p := by rw [← hs', ← hx']; exact hpv
    have hmp : m ≠ p := fun e => hne' (by rw [hsel, e])
    have hstm : s'.store m = t.store m := by
      rw [← hs', ← hx']
      show (if m = p then y.1 else v.store m) = _
      rw [if_neg hmp, hvs, hsu]
    rw [ho0.models] at hm
    have hr := List.mem_range'_1.1 hm
    have hlt : m - s.nextModel < ms0.length := by omega
    have hg := hst (m - s.nextModel) _ (List.getElem?_eq_getElem hlt)
    rw [show s.nextModel + (m - s.nextModel) = m by omega] at hg
    rw [hstm, hg]
    have := (hp.each _ (List.getElem_mem hlt)).1.initial
    exact ⟨this.2.2.1, this.2.1⟩

end KompareDiff2
