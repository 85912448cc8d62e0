import Verif.Proofs.InUse
/-
What the steps of opening a diff leave alone: the events announced so far, the operands, the list of models, the running process.
-/
namespace KompareDiff2

/-- Nothing is announced, and operands, settings, list of models and process are the same. -/
structure Quiet (s s' : MLState) : Prop where
  log : s'.log = s.log
  info : s'.info = s.info
  models : s'.models = s.models
  process : s'.process = s.process
  settings : s'.settings = s.settings

theorem Quiet.refl (s : MLState) : Quiet s s := ⟨rfl, rfl, rfl, rfl, rfl⟩
theorem Quiet.trans {a b c : MLState} (h : Quiet a b) (h' : Quiet b c) : Quiet a c :=
  ⟨h'.log.trans h.log, h'.info.trans h.info, h'.models.trans h.models, h'.process.trans h.process, h'.settings.trans h.settings⟩

theorem quiet_updateActions {s s' : MLState} (h : s.updateActions = Res.ok s') : Quiet s s' := by
  unfold MLState.updateActions at h
  split at h
  · obtain ⟨a, _, h⟩ := Res.bind_eq_ok.mp h
    obtain ⟨_, _, h⟩ := Res.bind_eq_ok.mp h
    obtain ⟨_, _, h⟩ := Res.bind_eq_ok.mp h
    obtain ⟨_, _, h⟩ := Res.bind_eq_ok.mp h
    rw [← Res.ok.inj h]
    exact ⟨rfl, rfl, rfl, rfl, rfl⟩
  · rw [← Res.ok.inj h]
    exact ⟨rfl, rfl, rfl, rfl, rfl⟩

theorem quiet_firstModel {s s' : MLState} (h : s.firstModel = Res.ok s') : Quiet s s' := by
  unfold MLState.firstModel at h
  obtain ⟨_, _, h⟩ := Res.bind_eq_ok.mp h
  obtain ⟨_, _, h⟩ := Res.bind_eq_ok.mp h
  rw [← Res.ok.inj h]
  exact ⟨rfl, rfl, rfl, rfl, rfl⟩

theorem quiet_selectFirst {s s' : MLState} (h : s.selectFirst = Res.ok s') : Quiet s s' := by
  unfold MLState.selectFirst MLState.selectWith at h
  obtain ⟨_, _, h⟩ := Res.bind_eq_ok.mp h
  obtain ⟨_, _, h⟩ := Res.bind_eq_ok.mp h
  rw [← Res.ok.inj h]
  exact ⟨rfl, rfl, rfl, rfl, rfl⟩

theorem quiet_blendFile {s s' : MLState} {m : Nat} {c : Str} (h : s.blendFile m c = Res.ok s') : Quiet s s' := by
  unfold MLState.blendFile at h
  obtain ⟨i, _, h⟩ := Res.bind_eq_ok.mp h
  obtain ⟨t, h1, h⟩ := Res.bind_eq_ok.mp h
  have q1 := quiet_firstModel h1
  have q2 := quiet_selectFirst h
  exact Quiet.trans (b := { (s.setModel i ((s.store i).blend s.heap c).1) with heap := ((s.store i).blend s.heap c).2 })
    ⟨rfl, rfl, rfl, rfl, rfl⟩ (q1.trans q2)

theorem quiet_blendDirLoop {e : Env} {dir : Str} (l : List Nat) : ∀ {s : MLState} {b : Bool} {r : MLState × Bool},
    MLState.blendDirLoop e dir l s b = Res.ok r → Quiet s r.1 := by
  induction l with
  | nil => intro s b r h; rw [← Res.ok.inj h]; exact Quiet.refl s
  | cons m l ih =>
    intro s b r h
    unfold MLState.blendDirLoop at h
    obtain ⟨i, _, h⟩ := Res.bind_eq_ok.mp h
    obtain ⟨t, h1, h⟩ := Res.bind_eq_ok.mp h
    exact (quiet_blendFile h1).trans (ih h)

theorem quiet_blendOriginal {e : Env} {url : Str} {s : MLState} {r : MLState × Bool} (h : s.blendOriginal e url = Res.ok r) : Quiet s r.1 := by
  unfold MLState.blendOriginal at h
  split at h
  · obtain ⟨l, _, h⟩ := Res.bind_eq_ok.mp h
    exact quiet_blendDirLoop l h
  · split at h
    · obtain ⟨l, _, h⟩ := Res.bind_eq_ok.mp h
      obtain ⟨m, _, h⟩ := Res.bind_eq_ok.mp h
      obtain ⟨t, h1, h⟩ := Res.bind_eq_ok.mp h
      rw [← Res.ok.inj h]
      exact quiet_blendFile h1
    · rw [← Res.ok.inj h]; exact Quiet.refl s

theorem quiet_depths (i : Info) (l : List Nat) : ∀ s : MLState, Quiet s (l.foldl (MLState.depthAndApplied i) s) := by
  induction l with
  | nil => exact Quiet.refl
  | cons m l ih =>
    intro s
    rw [List.foldl_cons]
    exact Quiet.trans (b := MLState.depthAndApplied i s m) ⟨rfl, rfl, rfl, rfl, rfl⟩ (ih _)

theorem quiet_setDepth {s s' : MLState} (h : s.setDepthAndApplied = Res.ok s') : Quiet s s' := by
  unfold MLState.setDepthAndApplied at h
  obtain ⟨l, _, h⟩ := Res.bind_eq_ok.mp h
  split at h
  · split at h
    · rw [← Res.ok.inj h]; exact Quiet.refl s
    · cases h
  · rw [← Res.ok.inj h]; exact quiet_depths _ l s

/-- The operands are the same up to the generator and format found by the parser. -/
def Info.SameOperands (i j : Info) : Prop := { j with generator := i.generator, format := i.format } = i

theorem Info.SameOperands.refl (i : Info) : i.SameOperands i := rfl

theorem firstModel_head {s s' : MLState} (h : s.firstModel = Res.ok s') :
    ∃ id l, s.models = some (id :: l) ∧ s'.selectedModel = some id := by
  unfold MLState.firstModel at h
  obtain ⟨l, h1, h⟩ := Res.bind_eq_ok.1 h
  obtain ⟨m, h2, h⟩ := Res.bind_eq_ok.1 h
  rw [← Res.ok.inj h]
  unfold MLState.list at h1
  cases hm : s.models with
  | none => rw [hm] at h1; cases h1
  | some l' =>
    rw [hm] at h1
    have := Res.ok.inj h1
    subst this
    cases l' with
    | nil => cases h2
    | cons a l =>
      have : a = m := Res.ok.inj h2
      subst this
      exact ⟨a, l, rfl, rfl⟩

theorem selectFirst_model {s s' : MLState} (h : s.selectFirst = Res.ok s') : s'.selectedModel = s.selectedModel := by
  unfold MLState.selectFirst MLState.selectWith at h
  obtain ⟨_, _, h⟩ := Res.bind_eq_ok.1 h
  obtain ⟨_, _, h⟩ := Res.bind_eq_ok.1 h
  rw [← Res.ok.inj h]
  rfl

/-- What parsing announces: the text, a complaint if it is malformed, and on success the numbers for the status bar. -/
theorem parseDiffOutput_events {e : Env} {s s' : MLState} {text : Str} {b : Bool} (h : s.parseDiffOutput e text = Res.ok (s', b)) :
    (∃ r, parse e.win e.cmp s.heap (split text) = Res.ok r ∧ b = r.models.isSome ∧ s'.models.isSome = r.models.isSome ∧
      (r.models = none → s'.log = s.log ++ [.diffString text]) ∧
      (∀ ms, r.models = some ms → ∃ x xs, ms = x :: xs ∧
        s'.log = s.log ++ [.diffString text] ++ (if r.malformed then [.error .malformed] else []) ++
          [.statusBar 0 0 ms.length x.differences.length 0])) ∧
    (∃ i i', s.info = some i ∧ s'.info = some i' ∧ i.SameOperands i') ∧ s'.process = s.process ∧ s'.settings = s.settings := by
  unfold MLState.parseDiffOutput at h
  dsimp only at h
  obtain ⟨r, h1, h⟩ := Res.bind_eq_ok.1 h
  obtain ⟨cleaned, _, h⟩ := Res.bind_eq_ok.1 h
  have hr : ((s.emit (.diffString text)).resetModels r).log = s.log ++ [.diffString text] ∧
      ((s.emit (.diffString text)).resetModels r).info = s.info ∧ ((s.emit (.diffString text)).resetModels r).process = s.process ∧
      ((s.emit (.diffString text)).resetModels r).settings = s.settings ∧
      (r.models = none → ((s.emit (.diffString text)).resetModels r).models = none) ∧
      (∀ ms, r.models = some ms → ((s.emit (.diffString text)).resetModels r).models = some (List.range' s.nextModel ms.length) ∧
        ∀ x xs, ms = x :: xs → ((s.emit (.diffString text)).resetModels r).store s.nextModel = x) := by
    unfold MLState.resetModels
    cases hm : r.models with
    | none => exact ⟨rfl, rfl, rfl, rfl, fun _ => rfl, fun _ hx => by cases hx⟩
    | some ms =>
      refine ⟨rfl, rfl, rfl, rfl, fun hx => (by cases hx), fun _ hx => ?_⟩
      cases hx
      refine ⟨rfl, fun x xs hx => ?_⟩
      subst hx
      exact (install_store _ (x :: xs) (i := 0) rfl)
  generalize (s.emit (.diffString text)).resetModels r = t at h hr
  obtain ⟨t1, t2, t3, t4, t5, t6⟩ := hr
  have hsi : s.info ≠ none := by
    intro hn
    rw [hn] at t2
    rw [t2] at h
    cases h
  obtain ⟨i, hi⟩ := Option.ne_none_iff_exists'.mp hsi
  rw [hi] at t2
  rw [t2] at h
  dsimp only at h
  have h1' : parse e.win e.cmp s.heap (split text) = Res.ok r := h1
  cases hrm : r.models with
  | none =>
    rw [t5 hrm] at h
    have := Res.ok.inj h
    injection this with e1 e2
    subst e1
    subst e2
    exact ⟨⟨r, h1', by rw [hrm]; rfl, by rw [hrm]; rfl, fun _ => t1, fun ms hx => by rw [hrm] at hx; cases hx⟩, ⟨i, _, hi, rfl, rfl⟩, t3, t4⟩
  | some ms =>
    obtain ⟨t7, t8⟩ := t6 ms hrm
    rw [t7] at h
    dsimp only at h
    have key : ∀ u : MLState, (do
        let s ← u.firstModel
        let s ← s.selectFirst
        let dc ← s.differenceCount
        Res.ok (s.emit (.statusBar 0 0 s.modelCount dc 0), true)) = Res.ok (s', b) → u.models = some (List.range' s.nextModel ms.length) →
        u.store = t.store →
        b = true ∧ (∃ x xs, ms = x :: xs ∧ s'.log = u.log ++ [.statusBar 0 0 ms.length x.differences.length 0]) ∧ s'.info = u.info ∧
          s'.process = u.process ∧ s'.settings = u.settings ∧ s'.models = u.models := by
      intro u hu hum hus
      obtain ⟨u1, h1, hu⟩ := Res.bind_eq_ok.1 hu
      obtain ⟨u2, h2, hu⟩ := Res.bind_eq_ok.1 hu
      obtain ⟨dc, h3, hu⟩ := Res.bind_eq_ok.1 hu
      have q := (quiet_firstModel h1).trans (quiet_selectFirst h2)
      have k := (keep_firstModel h1).trans (keep_selectFirst h2)
      obtain ⟨id, l, hm1, hm2⟩ := firstModel_head h1
      rw [hum] at hm1
      cases ms with
      | nil => cases hm1
      | cons x xs =>
        have hid : s.nextModel = id := by
          have := Option.some.inj hm1
          simp only [List.length_cons, List.range'_succ, List.cons.injEq] at this
          exact this.1
        have hdc : dc = (x.differences.length : Int) := by
          unfold MLState.differenceCount at h3
          rw [selectFirst_model h2, hm2] at h3
          dsimp only at h3
          obtain ⟨m, h4, h3⟩ := Res.bind_eq_ok.1 h3
          have hmm : id = m := by
            unfold MLState.model at h4
            dsimp only at h4
            split at h4
            · cases h4
            · exact Res.ok.inj h4
          have := Res.ok.inj h3
          rw [← this, ← hmm, k.differences, hus, ← hid, t8 x xs rfl]
        have := Res.ok.inj hu
        injection this with e1 e2
        subst e1
        refine ⟨e2.symm, ⟨x, xs, rfl, ?_⟩, q.info, q.process, q.settings, q.models⟩
        have hmc : u2.modelCount = ((x :: xs).length : Int) := by
          unfold MLState.modelCount
          rw [q.models, hum]
          simp
        show u2.log ++ [.statusBar 0 0 u2.modelCount dc 0] = _
        rw [q.log, hmc, hdc]
    by_cases hmal : r.malformed = true
    · rw [if_pos hmal] at h
      obtain ⟨k1, ⟨x, xs, kx, k2⟩, k3, k4, k5, k6⟩ := key _ h rfl rfl
      refine ⟨⟨r, h1', by rw [hrm, k1]; rfl, by rw [k6, hrm]; rfl, fun hx => (by rw [hrm] at hx; cases hx), fun ms' hx => ?_⟩, ⟨i, _, hi, k3, rfl⟩, k4.trans t3, k5.trans t4⟩
      have hx := Option.some.inj (hrm.symm.trans hx)
      subst hx
      refine ⟨x, xs, kx, k2.trans ?_⟩
      show t.log ++ _ ++ _ = _
      rw [t1, if_pos hmal]
    · rw [if_neg hmal] at h
      obtain ⟨k1, ⟨x, xs, kx, k2⟩, k3, k4, k5, k6⟩ := key _ h rfl rfl
      refine ⟨⟨r, h1', by rw [hrm, k1]; rfl, by rw [k6, hrm]; rfl, fun hx => (by rw [hrm] at hx; cases hx), fun ms' hx => ?_⟩, ⟨i, _, hi, k3, rfl⟩, k4.trans t3, k5.trans t4⟩
      have hx := Option.some.inj (hrm.symm.trans hx)
      subst hx
      refine ⟨x, xs, kx, k2.trans ?_⟩
      show t.log ++ _ = _
      rw [t1, if_neg hmal, List.append_nil]

/-- `openFileAndDiff` and `openDirAndDiff` leave the operands alone and start no process. -/
theorem openAndDiff_info {e : Env} {s s' : MLState} {b : Bool} (h : s.openAndDiff e = Res.ok (s', b)) :
    (∃ i i', s.info = some i ∧ s'.info = some i' ∧ i.SameOperands i') ∧ s'.process = s.process := by
  unfold MLState.openAndDiff at h
  cases hi : s.info with
  | none => rw [hi] at h; cases h
  | some i =>
    rw [hi] at h
    dsimp only at h
    obtain ⟨⟨t, ok⟩, h1, h⟩ := Res.bind_eq_ok.mp h
    obtain ⟨_, ⟨i0, i', hi0, hi', hsame⟩, hp, _⟩ := parseDiffOutput_events h1
    have e0 : i0 = i := by
      have : s.clear.info = s.info := rfl
      rw [this, hi] at hi0
      exact (Option.some.inj hi0).symm
    subst e0
    have hp : t.process = s.process := hp
    dsimp only at h
    refine (fun hx => ?_ : (s'.info = t.info ∧ s'.process = t.process) → _) ?_
    · exact ⟨⟨i0, i', rfl, hx.1.trans hi', hsame⟩, hx.2.trans hp⟩
    · split at h
      · have := Res.ok.inj h
        injection this with e1 e2
        rw [← e1]
        exact ⟨rfl, rfl⟩
      · obtain ⟨u, h2, h⟩ := Res.bind_eq_ok.mp h
        obtain ⟨⟨v, ok2⟩, h3, h⟩ := Res.bind_eq_ok.mp h
        have q := (quiet_setDepth h2).trans (quiet_blendOriginal h3)
        dsimp only at h
        split at h
        · have := Res.ok.inj h
          injection this with e1 e2
          rw [← e1]
          exact ⟨q.info, q.process⟩
        · obtain ⟨w, h4, h⟩ := Res.bind_eq_ok.mp h
          have q := q.trans (quiet_updateActions h4)
          have := Res.ok.inj h
          injection this with e1 e2
          rw [← e1]
          exact ⟨q.info, q.process⟩

end KompareDiff2
