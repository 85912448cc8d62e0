import Verif.Proofs.Announce
import Verif.Proofs.Events
/-
What the operations that open a diff tell a listener.
-/
namespace KompareDiff2
open Spec

/-- The first difference of the first file is selected, `n` differences of that file are applied, the status bar shows the numbers, with 0
applied. -/
def FirstShown (s : MLState) (n : Int) : Prop := ∃ ms m d, s.models = some ms ∧ ms[0]? = some m ∧ s.selectedModel = some m ∧ m ∉ s.dead ∧
  (s.store m).differences[0]? = some d ∧ s.selectedDifference = some d ∧ (s.store m).appliedCount = n ∧
  (heard s.log).bar = some ⟨0, 0, ms.length, (s.store m).differences.length, 0⟩

theorem FirstShown.same {s s' : MLState} {n : Int} (h : FirstShown s n) (hl : (heard s'.log).bar = (heard s.log).bar) (hm : s'.models = s.models)
    (hs : s'.selectedModel = s.selectedModel) (hd : s'.selectedDifference = s.selectedDifference) (hdead : s'.dead = s.dead)
    (hst : s'.store = s.store) : FirstShown s' n := by
  obtain ⟨ms, m, d, h1, h2, h3, h4, h5, h6, h7, h8⟩ := h
  exact ⟨ms, m, d, hm ▸ h1, h2, hs ▸ h3, hdead ▸ h4, by rw [hst]; exact h5, hd ▸ h6, by rw [hst]; exact h7, by rw [hl, hst]; exact h8⟩

/-- So the getters agree with the status bar, if the listener knows the selection. -/
theorem FirstShown.announced {s : MLState} {n : Int} (h : FirstShown s n) (h1 : (heard s.log).model = s.selectedModel)
    (h2 : (heard s.log).diff = s.selectedDifference) : Announced s ∧ s.appliedCount = Res.ok n ∧
      ∃ b, (heard s.log).bar = some b ∧ b.applied = 0 := by
  obtain ⟨ms, m, d, a1, a2, a3, a4, a5, a6, a7, a8⟩ := h
  have hmod : s.model (some m) = Res.ok m := by unfold MLState.model; simp [a4]
  have hms : MLState.indexOfPtr ms (some m) = 0 := by
    cases ms with
    | nil => cases a2
    | cons x ms =>
      simp only [List.getElem?_cons_zero, Option.some.injEq] at a2
      subst a2
      simp [MLState.indexOfPtr, indexOfI]
  have hds : MLState.indexOfPtr (s.store m).differences (some d) = 0 := by
    cases hx : (s.store m).differences with
    | nil => rw [hx] at a5; cases a5
    | cons x ds =>
      rw [hx] at a5
      simp only [List.getElem?_cons_zero, Option.some.injEq] at a5
      subst a5
      simp [MLState.indexOfPtr, indexOfI]
  refine ⟨⟨h1, h2, _, a8, ?_, ?_, ?_, ?_⟩, ?_, _, a8, rfl⟩
  · unfold MLState.currentModel MLState.list; rw [a1, a3]; simp only [Res.bind_ok, hms]
  · unfold MLState.currentDifference; rw [a3]; simp only [hmod, Res.bind_ok, a6, hds]
  · unfold MLState.modelCount; rw [a1]
  · unfold MLState.differenceCount; rw [a3]; simp only [hmod, Res.bind_ok]
  · unfold MLState.appliedCount; rw [a3]; simp only [hmod, Res.bind_ok, a7]

theorem heard_deaf (l : List Event) (r : List Event) (h : ∀ e ∈ r, ∀ x : Listener, x.hear e = x) : heard (l ++ r) = heard l := by
  induction r generalizing l with
  | nil => simp
  | cons e r ih =>
    rw [show l ++ e :: r = (l ++ [e]) ++ r by simp, ih _ (fun e he => h e (by simp [he])), heard_snoc, h e (by simp)]

theorem first_parse {e : Env} {s t : MLState} {text : Str} (w : WF s) (h : s.parseDiffOutput e text = Res.ok (t, true)) : FirstShown t 0 := by
  obtain ⟨wt, _, _, r, hr, hh, _, ht⟩ := parseDiffOutput_spec w h
  obtain ⟨ms, m, d, hms, ho, ha, hst⟩ := ht rfl
  obtain ⟨⟨r', hr', _, _, _, hlog⟩, _⟩ := parseDiffOutput_events h
  have : r = r' := Res.ok.inj (hr.symm.trans hr')
  subst this
  obtain ⟨x, xs, hx, hlog⟩ := hlog ms hms
  have hm0 : m = s.nextModel := by
    have := ha.model
    rw [hx] at this
    simpa [List.range'_succ] using this.symm
  obtain ⟨_, hd, _⟩ := hst 0 x (by rw [hx]; rfl)
  rw [Nat.add_zero, ← hm0] at hd
  have hmem := ho.mem ha.model
  refine ⟨_, m, d, ho.models, ha.model, ha.selectedModel, ho.live m hmem, ha.diff, ha.selectedDifference, ?_, ?_⟩
  · rw [ho.count m hmem]
    have hp := (parse_models hr).2 ms hms
    have hp1 := (hp.2.each x (by rw [hx]; simp)).1
    have : appliedNumber (t.store m, t.heap) = 0 := by
      unfold appliedNumber
      rw [List.length_eq_zero_iff, List.filter_eq_nil_iff]
      intro i hi
      dsimp only at hi ⊢
      rw [hd] at hi
      have hi' := hp1.sub hi
      unfold DModel.hunkIds at hi'
      rw [List.mem_flatMap] at hi'
      obtain ⟨k, hk, hi'⟩ := hi'
      have := (hp1.hunks k hk (r.heap.cell i).view (List.mem_map_of_mem hi')).1
      rw [hh]
      show ¬ (r.heap.cell i).applied = true
      have h2 : (r.heap.cell i).applied = false := this
      rw [h2]; simp
    rw [this]; rfl
  · rw [hlog, heard_snoc, hd]
    simp only [Listener.hear, List.length_range']

theorem first_blendFile {s s' : MLState} {m : Nat} {c : Str} {n : Int} (hs : FirstShown s n) (h : s.blendFile m c = Res.ok s') : FirstShown s' n := by
  have hq := quiet_blendFile h
  obtain ⟨ms, x, d, a1, a2, a3, a4, a5, a6, a7, a8⟩ := hs
  unfold MLState.blendFile at h
  obtain ⟨i, _, h⟩ := Res.bind_eq_ok.1 h
  dsimp only at h
  generalize ht : ({ (s.setModel i ((s.store i).blend s.heap c).1) with heap := ((s.store i).blend s.heap c).2 } : MLState) = t at h
  have t1 : t.models = some ms := by rw [← ht]; exact a1
  have t2 : t.dead = s.dead := by rw [← ht]; rfl
  have t3 : ∀ y, (t.store y).differences = (s.store y).differences ∧ (t.store y).appliedCount = (s.store y).appliedCount := by
    intro y
    rw [← ht]
    show (if y = i then _ else s.store y).differences = _ ∧ (if y = i then _ else s.store y).appliedCount = _
    split
    · rename_i hy; subst hy; exact ⟨rfl, rfl⟩
    · exact ⟨rfl, rfl⟩
  have hlist : t.list = Res.ok ms := by unfold MLState.list; rw [t1]
  unfold MLState.firstModel at h
  rw [hlist, Res.bind_ok, show (0 : Int) = ((0 : Nat) : Int) from rfl, atR_some a2, Res.bind_ok, Res.bind_ok] at h
  unfold MLState.selectFirst at h
  have hmod : MLState.model { t with modelIndex := ((0 : Nat) : Int), selectedModel := some x } (some x) = Res.ok x := by
    unfold MLState.model; simp [t2, a4]
  dsimp only at h
  rw [hmod, Res.bind_ok] at h
  unfold MLState.selectWith DModel.firstDifference at h
  have hat : atR (t.store x).differences 0 = Res.ok d := atR_some (i := 0) (by rw [(t3 x).1]; exact a5)
  simp only [hat, Res.bind_ok] at h
  have := Res.ok.inj h
  subst this
  refine ⟨ms, x, d, t1, a2, rfl, by rw [← t2] at a4; exact a4, ?_, rfl, ?_, ?_⟩
  · show (if x = x then _ else _ : DModel).differences[0]? = _; rw [if_pos rfl]; show (t.store x).differences[0]? = _; rw [(t3 x).1]; exact a5
  · show (if x = x then _ else _ : DModel).appliedCount = _; rw [if_pos rfl]; show (t.store x).appliedCount = _; rw [(t3 x).2]; exact a7
  · rw [hq.log, a8]
    have : (if x = x then { t.store x with diffIndex := 0, selected := some d } else t.store x : DModel).differences = (s.store x).differences := by
      rw [if_pos rfl]; exact (t3 x).1
    show _ = some (Bar.mk _ _ _ ((if x = x then { t.store x with diffIndex := 0, selected := some d } else t.store x : DModel).differences.length : Int) _)
    rw [this]

theorem first_blendDirLoop {e : Env} {dir : Str} {n : Int} (l : List Nat) : ∀ {s : MLState} {b : Bool} {r : MLState × Bool}, FirstShown s n →
    MLState.blendDirLoop e dir l s b = Res.ok r → FirstShown r.1 n := by
  induction l with
  | nil => intro s b r hs h; cases h; exact hs
  | cons m l ih =>
    intro s b r hs h
    unfold MLState.blendDirLoop at h
    obtain ⟨i, _, h⟩ := Res.bind_eq_ok.1 h
    obtain ⟨t, ht, h⟩ := Res.bind_eq_ok.1 h
    exact ih (first_blendFile hs ht) h

theorem first_blendOriginal {e : Env} {url : Str} {n : Int} {s : MLState} {r : MLState × Bool} (hs : FirstShown s n)
    (h : s.blendOriginal e url = Res.ok r) : FirstShown r.1 n := by
  unfold MLState.blendOriginal at h
  split at h
  · obtain ⟨l, _, h⟩ := Res.bind_eq_ok.1 h
    exact first_blendDirLoop l hs h
  · split at h
    · obtain ⟨l, _, h⟩ := Res.bind_eq_ok.1 h
      obtain ⟨m, _, h⟩ := Res.bind_eq_ok.1 h
      obtain ⟨t, ht, h⟩ := Res.bind_eq_ok.1 h
      rw [← Res.ok.inj h]
      exact first_blendFile hs ht
    · rw [← Res.ok.inj h]; exact hs

/-- What `setDepthAndApplied` does to the fields that matter here. -/
theorem depths_fields (i : Info) (l : List Nat) : ∀ s : MLState,
    (l.foldl (MLState.depthAndApplied i) s).models = s.models ∧ (l.foldl (MLState.depthAndApplied i) s).selectedModel = s.selectedModel ∧
    (l.foldl (MLState.depthAndApplied i) s).selectedDifference = s.selectedDifference ∧ (l.foldl (MLState.depthAndApplied i) s).dead = s.dead ∧
    ∀ m, ((l.foldl (MLState.depthAndApplied i) s).store m).differences = (s.store m).differences ∧
      ((l.foldl (MLState.depthAndApplied i) s).store m).appliedCount =
        if m ∈ l then (if i.applied = true then ((s.store m).differences.length : Int) else 0) else (s.store m).appliedCount := by
  induction l with
  | nil => intro s; exact ⟨rfl, rfl, rfl, rfl, fun m => ⟨rfl, by simp⟩⟩
  | cons x l ih =>
    intro s
    obtain ⟨h1, h2, h3, h4, h5⟩ := ih (MLState.depthAndApplied i s x)
    rw [List.foldl_cons]
    have hst : ∀ m, ((MLState.depthAndApplied i s x).store m).differences = (s.store m).differences ∧
        ((MLState.depthAndApplied i s x).store m).appliedCount =
          if m = x then (if i.applied = true then ((s.store m).differences.length : Int) else 0) else (s.store m).appliedCount := by
      intro m
      show (if m = x then _ else s.store m).differences = _ ∧ (if m = x then _ else s.store m).appliedCount = _
      by_cases hm : m = x
      · subst hm; rw [if_pos rfl]; exact ⟨rfl, by rw [if_pos rfl]; rfl⟩
      · simp only [if_neg hm]; exact ⟨trivial, trivial⟩
    refine ⟨h1, h2, h3, h4, fun m => ⟨(h5 m).1.trans (hst m).1, ?_⟩⟩
    rw [(h5 m).2, (hst m).1, (hst m).2]
    by_cases hm : m ∈ l
    · simp [hm]
    · by_cases hx : m = x
      · simp [hx]
      · simp [hm, hx]

theorem first_setDepth {s s' : MLState} {n : Int} {i : Info} (hi : s.info = some i) (hs : FirstShown s n) (h : s.setDepthAndApplied = Res.ok s') :
    ∃ m, s'.selectedModel = some m ∧ FirstShown s' (if i.applied = true then ((s'.store m).differences.length : Int) else 0) ∧
      (s'.store m).differences ≠ [] := by
  have hq := quiet_setDepth h
  obtain ⟨ms, m, d, a1, a2, a3, a4, a5, a6, a7, a8⟩ := hs
  unfold MLState.setDepthAndApplied at h
  obtain ⟨l, hl, h⟩ := Res.bind_eq_ok.1 h
  have : ms = l := by unfold MLState.list at hl; rw [a1] at hl; exact Res.ok.inj hl
  subst this
  rw [hi] at h
  have := Res.ok.inj h
  obtain ⟨h1, h2, h3, h4, h5⟩ := depths_fields i ms s
  rw [this] at h1 h2 h3 h4 h5
  obtain ⟨h6, h7⟩ := h5 m
  rw [if_pos (List.mem_of_getElem? a2)] at h7
  refine ⟨m, h2.trans a3, ⟨ms, m, d, h1.trans a1, a2, h2.trans a3, h4 ▸ a4, by rw [h6]; exact a5, h3.trans a6, by rw [h7, h6], ?_⟩, ?_⟩
  · rw [hq.log, h6]; exact a8
  · rw [h6]; intro hc; rw [hc] at a5; cases a5

/-- The end of opening: the actions are updated and everything is shown. -/
theorem first_show {s t s' : MLState} {n : Int} (hs : FirstShown s n) (h : s.updateActions = Res.ok t) (hlog : ∃ r, s'.log = t.show_.log ++ r ∧
    ∀ e ∈ r, ∀ x : Listener, x.hear e = x) (hm : s'.models = t.models) (h1 : s'.selectedModel = t.selectedModel)
    (h2 : s'.selectedDifference = t.selectedDifference) (h3 : s'.dead = t.dead) (h4 : s'.store = t.store) :
    Announced s' ∧ s'.appliedCount = Res.ok n ∧ ∃ b, (heard s'.log).bar = some b ∧ b.applied = 0 := by
  obtain ⟨ac, rfl⟩ := updateActions_only h
  obtain ⟨r, hlog, hr⟩ := hlog
  have hx : heard s'.log = { heard s.log with model := s.selectedModel, diff := s.selectedDifference } := by
    rw [hlog, heard_deaf _ _ hr]
    show heard (s.log ++ [.modelsChanged s.models] ++ [.selection s.selectedModel s.selectedDifference]) = _
    rw [heard_snoc, heard_snoc]
    rfl
  have hf : FirstShown s' n := hs.same (by rw [hx]) hm h1 h2 h3 h4
  exact hf.announced (by rw [hx, h1]) (by rw [hx, h2])

/-! ### The operations -/

theorem told_openText {e : Env} {s t u s' : MLState} {text : Str} (w : WF s) (h : s.parseDiffOutput e text = Res.ok (t, true))
    (hu : t.updateActions = Res.ok u) (h' : u.show_.emit (.status .FinishedParsing) = s') :
    Announced s' ∧ s'.appliedCount = Res.ok 0 ∧ ∃ b, (heard s'.log).bar = some b ∧ b.applied = 0 := by
  subst h'
  refine first_show (first_parse w h) hu ⟨[.status .FinishedParsing], rfl, ?_⟩ rfl rfl rfl rfl rfl
  intro e he x
  simp only [List.mem_singleton] at he
  subst he; rfl

theorem told_openDiff {e : Env} {s s' : MLState} {f : Str} (w : WF s) (h : s.openDiff e f = Res.ok (s', true)) :
    Announced s' ∧ s'.appliedCount = Res.ok 0 ∧ ∃ b, (heard s'.log).bar = some b ∧ b.applied = 0 := by
  unfold MLState.openDiff at h
  split at h
  · cases h
  · obtain ⟨⟨t, ok⟩, h1, h⟩ := Res.bind_eq_ok.1 h
    dsimp only at h
    split at h
    · cases h
    · rename_i hok
      obtain ⟨u, hu, h⟩ := Res.bind_eq_ok.1 h
      have hok : ok = true := by simpa using hok
      subst hok
      exact told_openText ((w.keep (keep_clear s)).keep (keep_emit _ _)) h1 hu (congrArg Prod.fst (Res.ok.inj h))

theorem told_parseAndOpen {e : Env} {s s' : MLState} {f : Str} (w : WF s) (h : s.parseAndOpenDiff e f = Res.ok (s', true)) :
    Announced s' ∧ s'.appliedCount = Res.ok 0 ∧ ∃ b, (heard s'.log).bar = some b ∧ b.applied = 0 := by
  unfold MLState.parseAndOpenDiff at h
  obtain ⟨⟨t, ok⟩, h1, h⟩ := Res.bind_eq_ok.1 h
  dsimp only at h
  split at h
  · cases h
  · rename_i hok
    obtain ⟨u, hu, h⟩ := Res.bind_eq_ok.1 h
    have hok : ok = true := by simpa using hok
    subst hok
    exact told_openText ((w.keep (keep_clear s)).keep (keep_emit _ _)) h1 hu (congrArg Prod.fst (Res.ok.inj h))

theorem told_openAndDiff {e : Env} {s s' : MLState} {i : Info} (w : WF s) (hi : s.info = some i) (h : s.openAndDiff e = Res.ok (s', true)) :
    ∃ m, s'.selectedModel = some m ∧ (s'.store m).differences ≠ [] ∧ Announced s' ∧
      s'.appliedCount = Res.ok (if i.applied = true then ((s'.store m).differences.length : Int) else 0) ∧
      ∃ b, (heard s'.log).bar = some b ∧ b.applied = 0 := by
  unfold MLState.openAndDiff at h
  rw [hi] at h
  dsimp only at h
  obtain ⟨⟨t, ok⟩, h1, h⟩ := Res.bind_eq_ok.1 h
  dsimp only at h
  split at h
  · cases h
  · rename_i hok
    have hok : ok = true := by simpa using hok
    subst hok
    have wc := w.keep (keep_clear s)
    have hf := first_parse wc h1
    obtain ⟨_, ⟨j, j', hj, hj', hsame⟩, _⟩ := parseDiffOutput_events h1
    have : i = j := Option.some.inj (hi.symm.trans hj)
    subst this
    obtain ⟨u, hu, h⟩ := Res.bind_eq_ok.1 h
    obtain ⟨m, hm, hfu, hne⟩ := first_setDepth hj' hf hu
    obtain ⟨⟨v, ok⟩, hv, h⟩ := Res.bind_eq_ok.1 h
    have hfv := first_blendOriginal hfu hv
    dsimp only at h
    split at h
    · cases h
    · obtain ⟨x, hx, h⟩ := Res.bind_eq_ok.1 h
      have := congrArg Prod.fst (Res.ok.inj h)
      dsimp only at this
      subst this
      have hkv : Keep u v := by
        obtain ⟨wt, _, _, r, _, _, _, ht⟩ := parseDiffOutput_spec wc h1
        obtain ⟨ms, m', d, _, ho, ha, _⟩ := ht rfl
        obtain ⟨u', hu', ou, wu, _, su, _⟩ := setDepth_ok ho wt ⟨0, 0, m', d, ha⟩
        have : u = u' := Res.ok.inj (hu.symm.trans hu')
        subst this
        obtain ⟨v', b', hv', _, _, kv, _⟩ := blendOriginal_ok e ou wu i.localSource su
        have := congrArg Prod.fst (Res.ok.inj (hv.symm.trans hv'))
        dsimp only at this
        subst this
        exact kv
      have hsel : v.selectedModel = some m := by
        obtain ⟨ms, y, d, a1, a2, a3, _⟩ := hfv
        obtain ⟨ms', y', d', b1, b2, b3, _⟩ := hfu
        have : v.models = u.models := (quiet_blendOriginal hv).models
        have e1 : ms = ms' := Option.some.inj (a1.symm.trans (this.trans b1))
        subst e1
        have e2 : y = y' := Option.some.inj (a2.symm.trans b2)
        subst e2
        rw [a3, ← b3, hm]
      have hxs : x.selectedModel = v.selectedModel ∧ x.store = v.store := by
        obtain ⟨ac, rfl⟩ := updateActions_only hx; exact ⟨rfl, rfl⟩
      have hdif : (x.store m).differences = (u.store m).differences := by rw [hxs.2]; exact hkv.differences m
      obtain ⟨c1, c2, c3⟩ := first_show (s' := x.show_) hfv hx ⟨[], by simp, by simp⟩ rfl rfl rfl rfl rfl
      refine ⟨m, hxs.1.trans hsel, ?_, c1, ?_, c3⟩
      · show (x.store m).differences ≠ []
        rw [hdif]; exact hne
      · rw [c2]
        show _ = Res.ok (if i.applied = true then ((x.store m).differences.length : Int) else 0)
        have : i.applied = j'.applied := by rw [← hsame]
        rw [hdif, this]

theorem told_finished {e : Env} {s s' : MLState} {r : ProcessResult} (w : WF s) (h : s.slotDiffProcessFinished e r = Res.ok s')
    (hf : r.finishedNormally = true) (hm : s'.models ≠ none) :
    Announced s' ∧ s'.appliedCount = Res.ok 0 ∧ ∃ b, (heard s'.log).bar = some b ∧ b.applied = 0 := by
  unfold MLState.slotDiffProcessFinished at h
  dsimp only at h
  rw [if_pos hf] at h
  obtain ⟨⟨t, ok⟩, hp, h⟩ := Res.bind_eq_ok.1 h
  dsimp only at h
  cases ok with
  | false =>
    obtain ⟨_, _, _, _, _, _, h2, _⟩ := parseDiffOutput_spec (w.keep (keep_emit s _)) hp
    rw [if_pos rfl] at h
    rw [← Res.ok.inj h] at hm
    exact absurd (h2 rfl).2.1 hm
  | true =>
    rw [if_neg (by simp)] at h
    have hft := first_parse (w.keep (keep_emit s (.status .Parsing))) hp
    have fin : ∀ u : MLState, FirstShown u 0 → (do
        let s ← u.updateActions
        Res.ok { (MLState.show_ s).emit (.status .FinishedParsing) with process := none }) = Res.ok s' →
        Announced s' ∧ s'.appliedCount = Res.ok 0 ∧ ∃ b, (heard s'.log).bar = some b ∧ b.applied = 0 := by
      intro u hu h
      obtain ⟨v, hv, h⟩ := Res.bind_eq_ok.1 h
      rw [← Res.ok.inj h]
      refine first_show hu hv ⟨[.status .FinishedParsing], rfl, ?_⟩ rfl rfl rfl rfl rfl
      intro e he x
      simp only [List.mem_singleton] at he
      subst he; rfl
    cases hi : t.info with
    | none => rw [hi] at h; cases h
    | some i =>
      rw [hi] at h
      dsimp only at h
      by_cases hmode : i.mode ≠ .ShowingDiff
      · rw [if_pos hmode] at h
        obtain ⟨b, hb, h⟩ := Res.bind_eq_ok.1 h
        exact fin b.1 (first_blendOriginal hft hb) h
      · rw [if_neg hmode] at h
        exact fin t hft h

end KompareDiff2
