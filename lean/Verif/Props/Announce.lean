import Verif.Proofs.AnnounceOpen
import Verif.Props.EndToEnd
/-
**C51.** A view that only listens to the signals knows the selection and the numbers of the status bar.
-/
namespace KompareDiff2
open Spec

/-- **C51.** In any state whatever: an operation that sets the selection tells the new selection and the right status bar to everyone who
knew the selected file before. -/
theorem C51_selects {s s' : MLState} {op : UserOp} (hk : (heard s.log).model = s.selectedModel) (hop : op.Proper s) (hs : op.selects = true)
    (h : op.run s = Res.ok s') : Announced s' ∧ CountShown s' := told_selects hk hop hs h

/-- **C51.** In any state whatever: every other operation changes neither the selection nor what the listener knows; if it does not apply
anything, the number of applied differences stays right, too. -/
theorem C51_others {s s' : MLState} {op : UserOp} (hs : op.selects = false) (h : op.run s = Res.ok s') (ha : Announced s) :
    Announced s' ∧ heard s'.log = heard s.log ∧ (op.applies = false → CountShown s → CountShown s') := by
  obtain ⟨h1, h2⟩ := unheard_others hs h
  exact ⟨h1.announced ha, h1.heard, fun hf hc => h1.count (fun m => by rw [h2 hf]) hc⟩

/-- **C51.** Opening a diff tells the selection and the numbers; the number of applied differences is always told to be 0. -/
theorem C51_opened {s s' : MLState} {op : MLOp} (hr : Reachable s) (h : OpensDiff op s s') :
    Announced s' ∧ (CountShown s' ↔ s'.appliedCount = Res.ok 0) := by
  have key : Announced s' ∧ (∃ b, (heard s'.log).bar = some b ∧ b.applied = 0) → Announced s' ∧ (CountShown s' ↔ s'.appliedCount = Res.ok 0) := by
    rintro ⟨h1, b, hb, h0⟩
    refine ⟨h1, fun ⟨c, hc, h2⟩ => ?_, fun h2 => ⟨b, hb, by rw [h0]; exact h2⟩⟩
    rw [hb] at hc
    cases hc
    rw [h0] at h2; exact h2
  have hopen : ∀ (t : MLState) (e : Env) (i : Info), WF t → t.info = some i → t.openAndDiff e = Res.ok (s', true) →
      Announced s' ∧ (∃ b, (heard s'.log).bar = some b ∧ b.applied = 0) := by
    intro t e i w hi h
    obtain ⟨m, _, _, h1, _, h2⟩ := told_openAndDiff w hi h
    exact ⟨h1, h2⟩
  apply key
  cases op with
  | openDiff e f => obtain ⟨h1, _, h2⟩ := told_openDiff hr.wf h; exact ⟨h1, h2⟩
  | parseAndOpenDiff e t => obtain ⟨h1, _, h2⟩ := told_parseAndOpen hr.wf h; exact ⟨h1, h2⟩
  | openFileAndDiff e =>
    cases hi : s.info with
    | none =>
      have h' : s.openAndDiff e = Res.ok (s', true) := h
      unfold MLState.openAndDiff at h'
      rw [hi] at h'; cases h'
    | some i => exact hopen s e i hr.wf hi h
  | compare e =>
    obtain ⟨hc, i', hi', hm⟩ := h
    have nope : ∀ (t : MLState) (i : Info) (mode : Mode), t.info = some i → i.mode = mode → mode ≠ .BlendingFile → mode ≠ .BlendingDir →
        ¬ t.compareMode e mode = Res.ok (s', true) := by
      intro t i mode hi hmode h1 h2 hc
      unfold MLState.compareMode at hc
      dsimp only at hc
      rw [show t.clear.info = some i from hi] at hc
      dsimp only at hc
      obtain ⟨x, _, hc⟩ := Res.bind_eq_ok.1 hc
      have := congrArg Prod.fst (Res.ok.inj hc)
      dsimp only at this
      rw [← this] at hi'
      have e2 : i = i' := Option.some.inj hi'
      rcases hm with hm | hm
      · rw [← e2, hmode] at hm; exact h1 hm
      · rw [← e2, hmode] at hm; exact h2 hm
    unfold MLState.compare at hc
    split at hc
    · cases hc
    · rename_i i hi
      have w := fun x => hr.wf.info x
      dsimp only at hc
      split at hc
      · exact absurd hc (nope _ _ .ComparingDirs rfl rfl (by simp) (by simp))
      · split at hc
        · split at hc
          · exact hopen _ e _ (w _) rfl hc
          · split at hc
            · exact hopen _ e _ (w _) rfl hc
            · exact absurd hc (nope _ _ .ComparingFiles rfl rfl (by simp) (by simp))
        · split at hc
          · exact hopen _ e _ (w _) rfl hc
          · exact hopen _ e _ (w _) rfl hc
  | diffFinished e r => obtain ⟨h1, _, h2⟩ := told_finished hr.wf h.1 h.2.1 h.2.2; exact ⟨h1, h2⟩
  | user _ => exact absurd h id
  | select _ _ => exact absurd h id
  | selectDiff _ => exact absurd h id
  | refresh _ => exact absurd h id
  | swap _ => exact absurd h id
  | setInfo _ => exact absurd h id
  | saveDiff _ _ _ _ _ => exact absurd h id
  | diffWritten _ _ => exact absurd h id

/-- **C51.** For a diff that is only shown, and for the result of a comparison, 0 is right. -/
theorem C51_opened_count {s s' : MLState} {op : MLOp} (hr : Reachable s) (h : OpensDiff op s s')
    (hop : (∃ e f, op = .openDiff e f) ∨ (∃ e t, op = .parseAndOpenDiff e t) ∨ ∃ e r, op = .diffFinished e r) : CountShown s' := by
  rw [(C51_opened hr h).2]
  rcases hop with ⟨e, f, rfl⟩ | ⟨e, t, rfl⟩ | ⟨e, r, rfl⟩
  · exact (told_openDiff hr.wf h).2.1
  · exact (told_parseAndOpen hr.wf h).2.1
  · exact (told_finished hr.wf h.1 h.2.1 h.2.2).2.1

theorem proper_ok {s : MLState} (h : InUse s) {op : UserOp} (hop : op.Proper s) : op.Ok s := by
  obtain ⟨_, _, ms, k, j, m, d, ho, ha⟩ := h.facts
  cases op with
  | select x y =>
    refine ⟨hop.1, ?_⟩
    have hx := hop.1
    rw [ho.models] at hx
    exact ho.liveDiffs x hx y hop.2
  | selectDiff y =>
    obtain ⟨x, hx, hy⟩ := hop
    have : x = m := Option.some.inj (hx.symm.trans ha.selectedModel)
    subst this
    exact ho.liveDiffs x (ho.mem ha.model) y hy
  | saveModel v x => exact hop
  | _ => trivial

theorem ProperUse.inUse {s : MLState} (h : ProperUse s) : InUse s := by
  induction h with
  | opened hr ho => exact ho.inUse hr
  | step _ hop hs ih => exact ih.step (proper_ok ih hop) hs

/-- **C51.** After every history of proper operations on an open diff the listener knows what is selected, and the status bar shows what the
getters return, except perhaps the number of applied differences. -/
theorem C51_announced {s : MLState} (h : ProperUse s) : Announced s := by
  induction h with
  | opened hr ho => exact (C51_opened hr ho).1
  | @step s s' op hu hop hs ih =>
    by_cases hse : op.selects = true
    · exact (C51_selects ih.model hop hse hs).1
    · exact (C51_others (by simpa using hse) hs ih).1

/-- **C51.** In such a history the next operation succeeds; if it sets the selection (this includes the actions apply and unapply), the
number of applied differences is shown rightly. -/
theorem C51_next {s : MLState} (h : ProperUse s) {op : UserOp} (hop : op.Proper s) :
    ∃ s', op.run s = Res.ok s' ∧ ProperUse s' ∧ (op.selects = true → CountShown s') := by
  have hin := h.inUse
  obtain ⟨_, hn, ms, k, j, m, d, ho, ha⟩ := hin.facts
  obtain ⟨s', k', j', m', d', g, _⟩ := user_ok ho ha op (proper_ok hin hop)
  exact ⟨s', g.ok, .step h hop g.ok, fun hse => (C51_selects (C51_announced h).model hop hse g.ok).2⟩

/-- **C51, defect.** When a file is opened together with its diff and the differences are taken as applied (the default), the status bar
shows 0 applied differences although all are. -/
theorem C51_applied_defect {e : Env} {s s' : MLState} {i : Info} (hr : Reachable s) (h : OpensDiff (.openFileAndDiff e) s s')
    (hi : s.info = some i) : CountShown s' ↔ i.applied = false := by
  rw [(C51_opened hr h).2]
  obtain ⟨m, _, h1, _, h2, _⟩ := told_openAndDiff hr.wf hi h
  rw [h2]
  have hl : (s'.store m).differences.length ≠ 0 := fun hc => h1 (List.length_eq_zero_iff.1 hc)
  cases i.applied with
  | false => simp
  | true =>
    simp only [if_true, Bool.true_eq_false, iff_false]
    intro hc
    have := Res.ok.inj hc
    omega

/-- **C51, defect.** Applying all differences does not update the status bar: if it was right and not all differences were applied, then it is
wrong now. -/
theorem C51_apply_all_defect {s s' : MLState} (h : ProperUse s) (hc : CountShown s) (hne : s.appliedCount ≠ s.differenceCount)
    (hs : UserOp.applyAll.run s = Res.ok s') : heard s'.log = heard s.log ∧ ¬ CountShown s' := by
  obtain ⟨_, _, ms, k, j, m, d, ho, ha⟩ := h.inUse.facts
  obtain ⟨h1, _⟩ := unheard_others rfl hs
  refine ⟨h1.heard, ?_⟩
  rintro ⟨b, hb, hb2⟩
  obtain ⟨c, hc1, hc2⟩ := hc
  rw [h1.heard, hc1] at hb
  have := Option.some.inj hb
  subst this
  have hm : s.model (some m) = Res.ok m := ho.model (ho.mem ha.model)
  have hac : s'.appliedCount = s.differenceCount := by
    obtain ⟨t, ht, hs⟩ := Res.bind_eq_ok.1 hs
    obtain ⟨hu, hst⟩ := unheard_update hs
    unfold MLState.appliedCount MLState.differenceCount
    rw [h1.selectedModel, ha.selectedModel]
    simp only [h1.model, hm, Res.bind_ok, hst]
    unfold MLState.slotApplyAllDifferences at ht
    rw [ha.selectedModel, hm, Res.bind_ok] at ht
    rw [← Res.ok.inj ht]
    show Res.ok (if m = m then _ else _ : DModel).appliedCount = _
    rw [if_pos rfl]
    rfl
  apply hne
  rw [hc2, ← hac, hb2]

theorem heard_finish {s s' : MLState} {e : Event} (h : ((s.emit e).emitStatusBar >>= fun s => s.updateActions) = Res.ok s') :
    (heard s'.log).model = ((heard s.log).hear e).model ∧ (heard s'.log).diff = ((heard s.log).hear e).diff ∧ s'.selectedModel = s.selectedModel := by
  obtain ⟨t, ht, h⟩ := Res.bind_eq_ok.1 h
  obtain ⟨ac, rfl⟩ := updateActions_only h
  unfold MLState.emitStatusBar at ht
  obtain ⟨l, hl, ht⟩ := Res.bind_eq_ok.1 ht
  obtain ⟨m, hm, ht⟩ := Res.bind_eq_ok.1 ht
  obtain ⟨dc, hd, ht⟩ := Res.bind_eq_ok.1 ht
  rw [← Res.ok.inj ht]
  refine ⟨?_, ?_, rfl⟩
  · show (heard (s.log ++ [e] ++ [_])).model = _; rw [heard_snoc, heard_snoc]; rfl
  · show (heard (s.log ++ [e] ++ [_])).diff = _; rw [heard_snoc, heard_snoc]; rfl

/-- **C51, defect.** A view that selects a difference that does not belong to the selected file is answered with its own choice, although
the list selects another difference. -/
theorem C51_foreign_difference_defect {s s' : MLState} (h : InUse s) {m d : Nat} (hm : s.selectedModel = some m)
    (hd : d ∉ (s.store m).differences) (hl : d ∉ s.deadDiffs) (hs : s.slotDiffSelectionChanged (some d) = Res.ok s') :
    (heard s'.log).diff = some d ∧ s'.selectedDifference ≠ some d ∧ ¬ Announced s' := by
  have h' : InUse s' := h.step (op := .selectDiff d) hl hs
  have hk := keep_slotDiffSelectionChanged hs
  have hh : (heard s'.log).diff = some d ∧ s'.selectedModel = s.selectedModel := by
    unfold MLState.slotDiffSelectionChanged at hs
    obtain ⟨x, _, hs⟩ := Res.bind_eq_ok.1 hs
    dsimp only at hs
    split at hs
    · obtain ⟨t, ht, hs⟩ := Res.bind_eq_ok.1 hs
      obtain ⟨_, h2, h3⟩ := heard_finish hs
      unfold MLState.selectFirst at ht
      obtain ⟨y, _, ht⟩ := Res.bind_eq_ok.1 ht
      exact ⟨h2, h3.trans (selectWith_log ht).2⟩
    · obtain ⟨_, h2, h3⟩ := heard_finish hs
      exact ⟨h2, h3⟩
  have hne : s'.selectedDifference ≠ some d := by
    obtain ⟨_, _, ms, k, j, m', d', ho, ha⟩ := h'.facts
    rw [ha.selectedDifference]
    intro hc
    have := Option.some.inj hc
    subst this
    have e1 : m' = m := Option.some.inj (ha.selectedModel.symm.trans (hh.2.trans hm))
    subst e1
    have := List.mem_of_getElem? ha.diff
    rw [hk.differences] at this
    exact hd this
  exact ⟨hh.1, hne, fun ha => hne (by rw [← ha.diff]; exact hh.1)⟩

/-! ### Examples -/

/-- A history of proper operations. -/
theorem example_proper : ∃ s, ProperUse s ∧ CountShown s := by
  obtain ⟨s1, h⟩ := example_opens
  have p1 := ProperUse.opened exampleStart_reachable h
  obtain ⟨s2, _, p2, _⟩ := C51_next p1 (op := .nextDifference) trivial
  obtain ⟨s3, _, p3, h3⟩ := C51_next p2 (op := .apply) trivial
  exact ⟨s3, p3, h3 rfl⟩

example : ∃ s, ProperUse s ∧ Announced s := by
  obtain ⟨s, h, _⟩ := example_proper
  exact ⟨s, h, C51_announced h⟩

/-- Right after opening, nothing is applied and "apply all" makes the status bar wrong. -/
example : ∃ s s', ProperUse s ∧ UserOp.applyAll.run s = Res.ok s' ∧ CountShown s ∧ ¬ CountShown s' := by
  obtain ⟨s1, h⟩ := example_opens
  have p1 := ProperUse.opened exampleStart_reachable h
  have hc := C51_opened_count exampleStart_reachable h (.inr (.inl ⟨_, _, rfl⟩))
  obtain ⟨s2, h2, _⟩ := C51_next p1 (op := .applyAll) trivial
  obtain ⟨_, _, ms, k, j, m, d, ho, ha⟩ := p1.inUse.facts
  have hne : s1.appliedCount ≠ s1.differenceCount := by
    rw [(C51_opened exampleStart_reachable h).2.1 hc]
    unfold MLState.differenceCount
    rw [ha.selectedModel]
    simp only [ho.model (ho.mem ha.model), Res.bind_ok]
    intro hx
    have := Res.ok.inj hx
    exact ho.diffs m (ho.mem ha.model) (List.length_eq_zero_iff.1 (by omega))
  exact ⟨s1, s2, p1, h2, hc, (C51_apply_all_defect p1 hc hne h2).2⟩

/-- Opening the file `b.txt` with its patch: the status bar says that nothing is applied. -/
example : ∃ s s', Reachable s ∧ OpensDiff (.openFileAndDiff examplePatch) s s' ∧ ¬ CountShown s' := by
  have hr : Reachable ((MLState.init none true ⟨fun _ => Diff.new 0 0 .Unchanged, 0⟩).setInfo
      (some { mode := .BlendingFile, localSource := str "b.txt", localDestination := str "p.diff" })) :=
    ⟨none, true, ⟨fun _ => Diff.new 0 0 .Unchanged, 0⟩, [.setInfo (some { mode := .BlendingFile, localSource := str "b.txt", localDestination := str "p.diff" })], rfl⟩
  obtain ⟨s1, ms, fs, h1, _⟩ := C48_patch (e := examplePatch) hr
    rfl exampleOne (show (if str "p.diff" = str "p.diff" then exampleOne.render.flatten else exampleOld) = _ from if_pos rfl) exampleOne_ok ⟨_, List.mem_cons_self .., by decide⟩ (.inr ⟨rfl, rfl, by decide⟩) (fun _ => exampleNew) (by
      intro f hf hc
      simp only [exampleOne, exampleDiff, List.take_succ_cons, List.take_zero, List.mem_cons, List.not_mem_nil, or_false] at hf
      subst hf
      exact example_patches)
  exact ⟨_, s1, hr, h1, by rw [C51_applied_defect hr h1 rfl]; simp⟩

/-- Two files were compared as parts of two directories; the difference of the second is passed while the first is selected. -/
example : ∃ s m m' d, InUse s ∧ s.selectedModel = some m ∧ m' ∈ s.models.getD [] ∧ d ∈ (s.store m').differences ∧
    d ∉ (s.store m).differences ∧ d ∉ s.deadDiffs := by
  obtain ⟨s1, ms, fs, h1, h2, h3, h4, _⟩ := C48_compare (e := exampleDir) (r := ⟨1, .NormalExit, exampleDiff.render.flatten, []⟩)
    exampleCompare_reachable rfl (by decide) rfl exampleDiff rfl exampleDiff_ok ⟨_, List.mem_cons_self .., by decide⟩ (.inl (by decide))
    exampleNews example_originals
  have hop : OpensDiff (.diffFinished exampleDir ⟨1, .NormalExit, exampleDiff.render.flatten, []⟩) exampleCompare s1 :=
    ⟨h1, by decide, by rw [h2]; simp⟩
  have h : InUse s1 := hop.inUse exampleCompare_reachable
  have hlen : ms.length = 2 := by rw [h4, h3.length_eq]; decide
  obtain ⟨w, _, ms', k, j, m, d, ho, ha⟩ := h.facts
  have : ms' = ms := Option.some.inj (ho.models.symm.trans h2)
  subst this
  obtain ⟨m', hm', hne⟩ : ∃ m' ∈ ms', m' ≠ m := by
    match ms', hlen, ho.nodup with
    | [a, b], _, hn =>
      by_cases hx : a = m
      · exact ⟨b, by simp, by rw [← hx]; intro hc; simp [hc] at hn⟩
      · exact ⟨a, by simp, hx⟩
  obtain ⟨d', hd'⟩ := List.exists_mem_of_ne_nil _ (ho.diffs m' hm')
  refine ⟨s1, m, m', d', h, ha.selectedModel, by rw [h2]; exact hm', hd', ?_, ho.liveDiffs m' hm' d' hd'⟩
  intro hc
  have key : ∀ l : List Nat, m ∈ l → m' ∈ l → ¬ (l.flatMap (fun m => (s1.store m).differences)).Nodup := by
    intro l
    induction l with
    | nil => intro h; cases h
    | cons x l ih =>
      intro ha hb hn
      rw [List.flatMap_cons, List.nodup_append] at hn
      rcases List.mem_cons.1 ha with rfl | ha2
      · rcases List.mem_cons.1 hb with rfl | hb2
        · exact hne rfl
        · exact hn.2.2 d' hc d' (List.mem_flatMap.2 ⟨m', hb2, hd'⟩) rfl
      · rcases List.mem_cons.1 hb with rfl | hb2
        · exact hn.2.2 d' hd' d' (List.mem_flatMap.2 ⟨m, ha2, hc⟩) rfl
        · exact ih ha2 hb2 hn.2.1
  exact key ms' (ho.mem ha.model) hm' ho.disjoint

end KompareDiff2
