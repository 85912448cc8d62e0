import Verif.Proofs.NullSelection
/-
**C68.** What `slotSelectionChanged` does with null pointers.
-/
namespace KompareDiff2
open Spec

/-- **C68, the limit.** A null model is dereferenced, in every state. -/
theorem C68_null_model_ub (s : MLState) (d : Option Nat) : s.slotSelectionChanged none d = Res.ub := by
  unfold MLState.slotSelectionChanged
  cases h : s.list with
  | ub => rfl
  | hang => unfold MLState.list at h; split at h <;> cases h
  | ok l => rfl

/-- **C68.** In an open diff, selecting the null difference selects the first difference of the selected file.  But the signal says that
nothing is selected. -/
theorem C68_null_difference {s : MLState} (h : InUse s) :
    ∃ s' ms k m d, s.slotDiffSelectionChanged none = Res.ok s' ∧ s.models = some ms ∧ s.selectedModel = some m ∧
      SelectionValid s' ms k 0 m d ∧ NavigationRight s' ∧ (heard s'.log).diff = none := by
  obtain ⟨_, _, ms, k, j, m, d, ho, ha⟩ := h.facts
  obtain ⟨s', d', hn, hd⟩ := slotDiffSelectionChanged_null ho ha
  refine ⟨s', ms, k, m, d', hn.ok, ho.models, ha.selectedModel, hn.atIt.valid hn.opened, hn.right.1, ?_⟩
  have hok := hn.ok
  unfold MLState.slotDiffSelectionChanged at hok
  dsimp only at hok
  obtain ⟨_, _, hok⟩ := Res.bind_eq_ok.1 hok
  split at hok <;>
  · obtain ⟨t, _, hok⟩ := Res.bind_eq_ok.1 hok
    exact (heard_finish hok).2.1

/-- **C68.** Selecting a file in which some difference is selected, without naming a difference, selects its first difference. -/
theorem C68_visited {s : MLState} (h : InUse s) {m : Nat} (hm : m ∈ s.models.getD []) (hv : (s.store m).selected ≠ none) :
    ∃ s' ms k d, s.slotSelectionChanged (some m) none = Res.ok s' ∧ s.models = some ms ∧ SelectionValid s' ms k 0 m d ∧
      NavigationRight s' := by
  obtain ⟨_, _, ms, _, _, _, _, ho, _⟩ := h.facts
  rw [ho.models] at hm
  obtain ⟨s', k, d', hn, hd⟩ := slotSelectionChanged_visited ho hm hv
  exact ⟨s', ms, k, d', hn.ok, ho.models, hn.atIt.valid hn.opened, hn.right.1⟩

/-- **C68.** After a diff was opened, every file but the selected one has no selected difference. -/
theorem C68_opened {s s' : MLState} {e : Env} {text : Str} (hs : Reachable s) (h : s.parseAndOpenDiff e text = Res.ok (s', true)) :
    ∀ m ∈ s'.models.getD [], some m ≠ s'.selectedModel → (s'.store m).selected = none ∧ (s'.store m).diffIndex = 0 := by
  unfold MLState.parseAndOpenDiff at h
  obtain ⟨⟨t, b⟩, h1, h⟩ := Res.bind_eq_ok.1 h
  have wc : WF (s.clear.emit (.status .Parsing)) := hs.wf.keep ((keep_clear s).trans (keep_emit _ _))
  dsimp only at h
  split at h
  · cases h
  · rename_i hb
    have hb : b = true := by simpa using hb
    subst hb
    obtain ⟨u, hu, h⟩ := Res.bind_eq_ok.1 h
    have h := congrArg Prod.fst (Res.ok.inj h)
    dsimp only at h
    have := parseDiffOutput_unvisited wc h1
    subst h
    intro m hm hne
    obtain ⟨ac, rfl⟩ := updateActions_only hu
    exact this m hm hne

/-- **C68, the defect.** Selecting a file in which no difference is selected – after opening, every file but the first – without naming a
difference selects the file and no difference: the status bar shows difference -1, all actions are disabled, and applying the selected
difference is undefined. -/
theorem C68_unvisited_defect {s : MLState} (h : InUse s) {m : Nat} (hm : m ∈ s.models.getD []) (hv : (s.store m).selected = none) :
    ∃ s', ∃ k : Nat, s.slotSelectionChanged (some m) none = Res.ok s' ∧ (s.models.getD [])[k]? = some m ∧ s'.models = s.models ∧
      s'.selectedModel = some m ∧ s'.selectedDifference = none ∧
      s'.currentModel = Res.ok (k : Int) ∧ s'.currentDifference = Res.ok (-1) ∧
      heard s'.log = ⟨some m, none, some ⟨k, -1, (s.models.getD []).length, (s.store m).differences.length, (s.store m).appliedCount⟩⟩ ∧
      (s'.actions.nextFile = false ∧ s'.actions.previousFile = false ∧ s'.actions.nextDifference = false ∧ s'.actions.previousDifference = false) ∧
      (s.canSave = true → s'.actions.apply = false ∧ s'.actions.unapply = false ∧ s'.actions.applyAll = false ∧
        s'.actions.unapplyAll = false ∧ s'.actions.save = false) ∧
      (s.canSave = false → s'.actions.apply = s.actions.apply ∧ s'.actions.unapply = s.actions.unapply ∧ s'.actions.applyAll = s.actions.applyAll ∧
        s'.actions.unapplyAll = s.actions.unapplyAll ∧ s'.actions.save = s.actions.save) ∧
      (∀ b, s'.slotApplyDifference b = Res.ub) ∧ s'.actionApply = Res.ub ∧ s'.actionUnapply = Res.ub := by
  obtain ⟨_, _, ms, _, _, _, _, ho, _⟩ := h.facts
  rw [ho.models] at hm ⊢
  obtain ⟨s', k, h1, n⟩ := slotSelectionChanged_unvisited ho hm hv
  have hix : MLState.indexOfPtr ms (some m) = (k : Int) := indexOfI_get ho.nodup n.model
  have hmod : s'.model (some m) = Res.ok m := n.opened.model hm
  refine ⟨s', k, h1, n.model, by rw [n.models, ho.models], n.selectedModel, n.selectedDifference, ?_, ?_, ?_, ?_, ?_, ?_, ?_, ?_, ?_⟩
  · unfold MLState.currentModel
    rw [n.opened.list, n.selectedModel, Res.bind_ok, hix]
  · unfold MLState.currentDifference
    rw [n.selectedModel]
    dsimp only
    rw [hmod, Res.bind_ok, n.selectedDifference]
    rfl
  · rw [n.log]
    unfold heard
    rw [List.foldl_append]
    rfl
  · rw [n.actions]
    unfold nullActions
    split <;> exact ⟨rfl, rfl, rfl, rfl⟩
  · intro hc
    rw [n.actions]
    unfold nullActions
    rw [if_pos hc]
    exact ⟨rfl, rfl, rfl, rfl, rfl⟩
  · intro hc
    rw [n.actions]
    unfold nullActions
    rw [if_neg (by simp [hc])]
    exact ⟨rfl, rfl, rfl, rfl, rfl⟩
  · intro b
    unfold MLState.slotApplyDifference
    rw [n.selectedModel, hmod, Res.bind_ok, n.store, hv]
    rfl
  · unfold MLState.actionApply
    rw [n.selectedDifference]
    rfl
  · unfold MLState.actionUnapply
    rw [n.selectedDifference]
    rfl

/-- **C68, the defect continued.** The next difference after that is the second one of the file: the first is never shown. -/
theorem C68_skips_first_defect {s : MLState} (h : InUse s) {m d : Nat} (hm : m ∈ s.models.getD []) (hv : (s.store m).selected = none)
    (hi : (s.store m).diffIndex = 0) (hd : (s.store m).differences[1]? = some d) :
    ∃ s1 s2 ms k, s.slotSelectionChanged (some m) none = Res.ok s1 ∧ s1.slotNextDifference = Res.ok s2 ∧ s.models = some ms ∧
      SelectionValid s2 ms k 1 m d := by
  obtain ⟨_, _, ms, _, _, _, _, ho, _⟩ := h.facts
  rw [ho.models] at hm
  obtain ⟨s1, k, h1, n⟩ := slotSelectionChanged_unvisited ho hm hv
  have hmod : s1.model (some m) = Res.ok m := n.opened.model hm
  have hlen : 1 < (s1.store m).differences.length := by
    rw [n.store]; exact (List.getElem?_eq_some_iff.1 hd).1
  have hat : atR (s1.store m).differences (0 + 1) = Res.ok d := by
    rw [n.store]; exact atR_some (i := 1) hd
  have hnext : DModel.nextDifference (s1.store m) = Res.ok ({ s1.store m with diffIndex := 1, selected := some d }, some d) := by
    unfold DModel.nextDifference
    have hi' : (s1.store m).diffIndex = 0 := by rw [n.store]; exact hi
    rw [hi', if_pos (by omega), hat]
    rfl
  have hsel : s1.selectWith m DModel.nextDifference = Res.ok (s1.moved k 1 m d) := by
    unfold MLState.selectWith
    rw [hnext, Res.bind_ok]
    unfold MLState.moved
    congr 1
    have e1 := n.selectedModel
    have e2 := n.index
    simp only [MLState.setModel]
    rw [← e1, ← e2]
    rfl
  have hd' : (s1.store m).differences[1]? = some d := by rw [n.store]; exact hd
  obtain ⟨s2, hn⟩ := finish_moved (s := s1) (t := s1) (.diffSelection (some d)) n.opened (.refl s1) rfl rfl n.model hd'
  refine ⟨s1, s2, ms, k, h1, ?_, ho.models, hn.atIt.valid hn.opened⟩
  have := hn.ok
  unfold MLState.slotNextDifference
  rw [n.selectedModel, hmod, Res.bind_ok, hsel, Res.bind_ok]
  rw [if_pos (by simp [MLState.moved])]
  exact this

/-- Two files with two changes each. -/
def twoByTwo : UDiff where
  files := [
    { preamble := [], src := { name := str "b.txt" }, dst := { name := str "b.txt" },
      hunks := [{ srcLine := 1, dstLine := 1, blocks := [.change [{ text := str "p" }] [{ text := str "q" }], .context [{ text := str "x" }],
            .change [{ text := str "old" }] [{ text := str "new" }]] }] },
    { preamble := [], src := { name := str "a.txt" }, dst := { name := str "a.txt" },
      hunks := [{ srcLine := 1, dstLine := 1, blocks := [.change [{ text := str "p" }] [{ text := str "q" }], .context [{ text := str "x" }],
            .change [{ text := str "old" }] [{ text := str "new" }]] }] }]
  trailer := []

theorem twoByTwo_ok : twoByTwo.Ok := by
  have hu : ∀ h ∈ twoByTwo.files.flatMap UFile.hunks, h.Ok := by
    intro h hh
    simp only [twoByTwo, List.flatMap_cons, List.flatMap_nil, List.append_nil, List.cons_append, List.nil_append, List.mem_cons,
      List.not_mem_nil, or_false] at hh
    rcases hh with rfl | rfl <;>
    exact ⟨⟨by decide, by decide, by decide, by decide⟩, ⟨by decide, by decide, by decide, by decide⟩,
        by intro f hf; simp at hf,
        by intro b hb; simp only [List.mem_cons, List.not_mem_nil, or_false] at hb; rcases hb with rfl | rfl | rfl <;> simp [Block.NonEmpty],
        by simp [SeparatedBlocks, Block.Separated], by decide⟩
  have hh' : ∀ n : Str, (n ≠ [] ∧ '\t' ∉ n ∧ '\n' ∉ n) → Header.Ok { name := n } := by
    intro n h1
    exact ⟨h1, by intro ts hts; simp at hts, by intro e he; simp at he⟩
  refine ⟨?_, ?_, ?_, ?_⟩
  · intro f hf
    refine ⟨?_, ?_, fun h hm => hu h (List.mem_flatMap.2 ⟨f, hf, hm⟩), ?_⟩
    · simp only [twoByTwo, List.mem_cons, List.not_mem_nil, or_false] at hf
      rcases hf with rfl | rfl <;> exact hh' _ (by decide)
    · simp only [twoByTwo, List.mem_cons, List.not_mem_nil, or_false] at hf
      rcases hf with rfl | rfl <;> exact hh' _ (by decide)
    · simp only [twoByTwo, List.mem_cons, List.not_mem_nil, or_false] at hf
      rcases hf with rfl | rfl <;> simp
  · intro f fs e
    simp only [twoByTwo, List.cons.injEq] at e
    obtain ⟨rfl, rfl⟩ := e
    refine ⟨by simp, ?_⟩
    rintro (⟨g, hg, t, ht, _⟩ | ⟨t, ht, _⟩)
    · simp only [twoByTwo, List.mem_cons, List.not_mem_nil, or_false] at hg
      rcases hg with rfl | rfl <;> simp at ht
    · simp [twoByTwo] at ht
  all_goals simp [twoByTwo]

/-- After opening it there is a file that was not selected yet, with two differences. -/
theorem twoByTwo_unvisited : ∃ s m d, InUse s ∧ m ∈ s.models.getD [] ∧ (s.store m).selected = none ∧ (s.store m).diffIndex = 0 ∧
    (s.store m).differences[1]? = some d := by
  obtain ⟨s', h⟩ := opens_unified exampleStart_reachable (by simp [exampleStart, MLState.setInfo]) emptyEnv twoByTwo twoByTwo_ok (by decide) rfl
  have hu := h.inUse exampleStart_reachable
  have h' : exampleStart.parseAndOpenDiff emptyEnv twoByTwo.render.flatten = Res.ok (s', true) := h
  have hun := C68_opened exampleStart_reachable h'
  obtain ⟨_, _, ms, k, j, m0, d0, ho, ha⟩ := hu.facts
  obtain ⟨r, hr, _, hv⟩ := C26_unified twoByTwo twoByTwo_ok (by decide) false emptyEnv.cmp exampleStart.heap
  unfold MLState.parseAndOpenDiff at h'
  obtain ⟨⟨t, b⟩, h1, h2⟩ := Res.bind_eq_ok.1 h'
  have wc : WF (exampleStart.clear.emit (.status .Parsing)) := exampleStart_reachable.wf.keep ((keep_clear exampleStart).trans (keep_emit _ _))
  obtain ⟨_, _, _, r', hr', _, _, htrue⟩ := parseDiffOutput_heads wc h1
  have hrr : r' = r := by
    have : Res.ok r' = Res.ok r := hr'.symm.trans hr
    exact Res.ok.inj this
  subst hrr
  dsimp only at h2
  split at h2
  · cases h2
  · rename_i hb
    obtain ⟨dms, m1, d1, hdms, hot, _, hst⟩ := htrue (by simpa using hb)
    obtain ⟨u, hu', h2⟩ := Res.bind_eq_ok.1 h2
    have h2 := congrArg Prod.fst (Res.ok.inj h2)
    dsimp only at h2
    have hk : Keep t s' := by rw [← h2]; exact ((keep_updateActions hu').trans (keep_show u)).trans (keep_emit _ _)
    rw [hdms] at hv
    obtain ⟨_, hp⟩ := hv
    have hlen : ∀ x ∈ dms, x.differences.length = 2 := by
      intro x hx
      have := hp.subset (List.mem_map_of_mem hx)
      have e2 : ∀ f ∈ twoByTwo.files, (UFile.view (unescapePath false) f).differences.length = 2 := by decide
      obtain ⟨f, hf, e⟩ := List.mem_map.1 this
      have := e2 f (List.mem_filter.1 hf).1
      rw [e] at this
      simpa [DModel.view] using this
    have hcnt : dms.length = 2 := by
      have := hp.length_eq
      rw [List.length_map, List.length_map] at this
      rw [this]; decide
    obtain ⟨ac, rfl⟩ := updateActions_only hu'
    have hmodels : s'.models = some (List.range' (exampleStart.clear.emit (.status .Parsing)).nextModel dms.length) := by
      rw [← h2]; exact hot.models
    have hms := ho.models
    rw [hmodels, hcnt] at hms
    generalize (exampleStart.clear.emit (.status .Parsing)).nextModel = n at *
    have hcase : ∃ i, i < 2 ∧ some (n + i) ≠ s'.selectedModel := by
      by_cases h0 : some (n + 0) = s'.selectedModel
      · refine ⟨1, by omega, fun e => ?_⟩
        rw [← h0] at e
        have := Option.some.inj e
        omega
      · exact ⟨0, by omega, h0⟩
    obtain ⟨i, hi, hne⟩ := hcase
    have hmem : n + i ∈ s'.models.getD [] := by
      rw [hmodels, hcnt]
      show n + i ∈ List.range' n 2
      exact List.mem_range'_1.2 ⟨by omega, by omega⟩
    have hlt : i < dms.length := by omega
    have hd := (hst i _ (List.getElem?_eq_getElem hlt)).2.1
    have hl := hlen _ (List.getElem_mem hlt)
    rw [← hd, ← hk.differences] at hl
    obtain ⟨q1, q2⟩ := hun _ hmem hne
    exact ⟨s', n + i, _, hu, hmem, q1, q2, List.getElem?_eq_getElem (by omega)⟩

/-- The hypotheses of the defects are met. -/
example : ∃ s s' m, InUse s ∧ s.slotSelectionChanged (some m) none = Res.ok s' ∧ s'.actionApply = Res.ub := by
  obtain ⟨s, m, _, h, hm, hv, _⟩ := twoByTwo_unvisited
  obtain ⟨s', _, h1, _, _, _, _, _, _, _, _, _, _, _, h2, _⟩ := C68_unvisited_defect h hm hv
  exact ⟨s, s', m, h, h1, h2⟩

example : ∃ s s1 s2 ms k m d, InUse s ∧ s.slotSelectionChanged (some m) none = Res.ok s1 ∧ s1.slotNextDifference = Res.ok s2 ∧
    SelectionValid s2 ms k 1 m d := by
  obtain ⟨s, m, d, h, hm, hv, hi, hd⟩ := twoByTwo_unvisited
  obtain ⟨s1, s2, ms, k, h1, h2, _, h3⟩ := C68_skips_first_defect h hm hv hi hd
  exact ⟨s, s1, s2, ms, k, m, d, h, h1, h2, h3⟩

/-- The hypotheses of `C68_visited` are met by the selected file of any open diff. -/
example : ∃ s m, InUse s ∧ m ∈ s.models.getD [] ∧ (s.store m).selected ≠ none := by
  obtain ⟨s, h⟩ := example_inUse
  obtain ⟨_, _, ms, k, j, m, d, ho, ha⟩ := h.facts
  exact ⟨s, m, h, by rw [ho.models]; exact ho.mem ha.model, by rw [ha.modelSelected]; simp⟩

end KompareDiff2
