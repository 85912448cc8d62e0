import Verif.Proofs.Session
/-
What opening a diff establishes, in any reachable state.
-/
namespace KompareDiff2
open Spec

/-! ### The parser -/

theorem parseLines_ext {win : Bool} {cmp : Str → Str → Int} {g : Generator} {heap : Heap} {lines : List Str} {r : ParseResult}
    (h : parseLines win cmp g heap lines = Res.ok r) : heap.Ext r.heap ∧ ∀ ms, r.models = some ms → ms ≠ [] := by
  unfold parseLines at h
  have h0 : ∀ P, FoundAll P heap { lines := lines, rest := lines, heap := heap, cur := {}, models := [], single := false, malformed := false } :=
    fun P => ⟨Heap.Ext.refl _, by simp, by simp⟩
  have hne : ∀ st ms, (finishParse cmp st).models = some ms → ms ≠ [] := by
    intro st ms hm
    unfold finishParse at hm
    dsimp only at hm
    split at hm
    · rename_i hl
      cases hm
      have := (sortModels_perm cmp st.models).length_eq
      intro e; rw [e] at this; simp at this; omega
    · cases hm
  simp only at h
  split at h
  · obtain ⟨st, hs, h⟩ := Res.bind_eq_ok.1 h
    cases h; exact ⟨(contextFiles_found (h0 _) hs).ext, hne st⟩
  · obtain ⟨st, hs, h⟩ := Res.bind_eq_ok.1 h
    cases h; exact ⟨(normalFiles_found (h0 _) rfl hs).ext, hne st⟩
  · obtain ⟨st, hs, h⟩ := Res.bind_eq_ok.1 h
    cases h; exact ⟨(unifiedFiles_found (h0 _) hs).ext, hne st⟩
  · cases h; exact ⟨Heap.Ext.refl _, by simp⟩

/-- Nothing in a parsed hunk is applied or changed. -/
def HView.Untouched (v : HView) : Prop := ∀ x ∈ v.diffs, x.Fresh

theorem parse_models {win : Bool} {cmp : Str → Str → Int} {heap : Heap} {lines : List Str} {r : ParseResult}
    (h : parse win cmp heap lines = Res.ok r) : heap.Ext r.heap ∧
      ∀ ms, r.models = some ms → ms ≠ [] ∧ ParsedModels HView.Untouched heap r.heap ms := by
  unfold parse at h
  obtain ⟨cl, _, h⟩ := Res.bind_eq_ok.1 h
  have h1 := parseLines_ext h
  refine ⟨h1.1, fun ms hm => ⟨h1.2 ms hm, (parseLines_sound h ms hm).weaken ?_⟩⟩
  intro v hv
  generalize determineFormat _ cl = f at hv
  cases f with
  | Unified => exact fun x hx => (hv.2.2 x hx).1
  | Context => exact fun x hx => (hv.2.2 x hx).1
  | Normal =>
    obtain ⟨_, y, hy, _, _, hf, _⟩ := hv
    intro x hx
    rw [hy] at hx
    rw [List.mem_singleton.1 hx]; exact hf
  | Ed => exact absurd hv id
  | RCS => exact absurd hv id
  | UnknownFormat => exact absurd hv id

theorem Parsed.sub {P : HView → Prop} {h : Heap} {m : DModel} (p : Parsed P h m) {d : Nat} (hd : d ∈ m.differences) : d ∈ m.hunkIds := by
  rw [p.differences] at hd; exact (List.mem_filter.1 hd).1

theorem Parsed.fresh_cell {h : Heap} {m : DModel} (p : Parsed HView.Untouched h m) {d : Nat} (hd : d ∈ m.differences) :
    (h.cell d).applied = false := by
  have := p.sub hd
  unfold DModel.hunkIds at this
  obtain ⟨k, hk, hdk⟩ := List.mem_flatMap.1 this
  have := p.hunks k hk (h.cell d).view (List.mem_map.2 ⟨d, hdk, rfl⟩)
  exact this.1

/-! ### Installing the result -/

theorem install_store (s : MLState) (ms : List DModel) {i : Nat} {x : DModel} (h : ms[i]? = some x) :
    (s.install ms).2.store (s.nextModel + i) = x := by
  simp [MLState.install, h]

theorem range'_get {a n i : Nat} (h : i < n) : (List.range' a n)[i]? = some (a + i) := by
  simp [h]

theorem flatMap_range' {β} (g : Nat → DModel) (f : DModel → List β) (a : Nat) (ms : List DModel)
    (h : ∀ i x, ms[i]? = some x → g (a + i) = x) : (List.range' a ms.length).flatMap (fun m => f (g m)) = ms.flatMap f := by
  induction ms generalizing a with
  | nil => rfl
  | cons x ms ih =>
    rw [List.length_cons, List.range'_succ, List.flatMap_cons, List.flatMap_cons]
    rw [ih (a + 1) (fun i y hy => by
      have := h (i + 1) y (by simpa using hy)
      rw [show a + 1 + i = a + (i + 1) by omega]; exact this)]
    have := h 0 x rfl
    rw [Nat.add_zero] at this
    rw [this]

/-- After the models were replaced by parsed ones. -/
theorem resetModels_opened {s : MLState} (w : WF s) {r : ParseResult} (hext : s.heap.Ext r.heap) {ms : List DModel} (hm : r.models = some ms)
    (hne : ms ≠ []) (p : ParsedModels HView.Untouched s.heap r.heap ms) (hi : s.info ≠ none) :
    Opened (s.resetModels r) (List.range' s.nextModel ms.length) ∧ WF (s.resetModels r) ∧
      (∀ i x, ms[i]? = some x → (s.resetModels r).store (s.nextModel + i) = x) := by
  have hst : ∀ i x, ms[i]? = some x → (s.resetModels r).store (s.nextModel + i) = x := by
    intro i x hx
    unfold MLState.resetModels
    rw [hm]
    simp [MLState.install, hx]
  have hmodels : (s.resetModels r).models = some (List.range' s.nextModel ms.length) := by
    unfold MLState.resetModels; rw [hm]; rfl
  have hdead : (s.resetModels r).dead = s.dead ++ s.models.getD [] := by
    unfold MLState.resetModels; rw [hm]; rfl
  have hdeadD : (s.resetModels r).deadDiffs = s.deadDiffs ++ (s.models.getD []).flatMap (fun m => (s.store m).differences) := by
    unfold MLState.resetModels; rw [hm]; rfl
  have hheap : (s.resetModels r).heap = r.heap := by unfold MLState.resetModels; rw [hm]; rfl
  have hinfo : (s.resetModels r).info = s.info := by unfold MLState.resetModels; rw [hm]; rfl
  have hnext : (s.resetModels r).nextModel = s.nextModel + ms.length := by unfold MLState.resetModels; rw [hm]; rfl
  have hold : ∀ m, m < s.nextModel → (s.resetModels r).store m = s.store m := by
    intro m hlt
    unfold MLState.resetModels
    rw [hm]
    show (if s.nextModel ≤ m then _ else s.store m) = _
    rw [if_neg (by omega)]
  have hmem : ∀ m, m ∈ List.range' s.nextModel ms.length → ∃ i x, ms[i]? = some x ∧ m = s.nextModel + i ∧ x ∈ ms ∧ (s.resetModels r).store m = x := by
    intro m hmm
    rw [List.mem_range'_1] at hmm
    have hlt : m - s.nextModel < ms.length := by omega
    refine ⟨m - s.nextModel, ms[m - s.nextModel], List.getElem?_eq_getElem hlt, by omega, List.getElem_mem hlt, ?_⟩
    have := hst (m - s.nextModel) _ (List.getElem?_eq_getElem hlt)
    rw [show s.nextModel + (m - s.nextModel) = m by omega] at this
    exact this
  have hdd : ∀ d ∈ (s.resetModels r).deadDiffs, d < s.heap.next := by
    intro d hd
    rw [hdeadD, List.mem_append] at hd
    rcases hd with hd | hd
    · exact w.deadDiffs d hd
    · obtain ⟨m, hmm, hd⟩ := List.mem_flatMap.1 hd
      exact w.diffs m (w.models m hmm) d hd
  refine ⟨⟨hmodels, ?_, List.nodup_range', ?_, ?_, ?_, ?_, ?_, ?_, by rw [hinfo]; exact hi⟩, ⟨?_, ?_, ?_, ?_, ?_⟩, hst⟩
  · intro e
    have := congrArg List.length e
    simp at this
    exact hne this
  · intro m hmm hd
    rw [List.mem_range'_1] at hmm
    rw [hdead, List.mem_append] at hd
    rcases hd with hd | hd
    · have := w.dead m hd; omega
    · have := w.models m hd; omega
  · intro m hmm
    obtain ⟨i, x, _, _, hx, e⟩ := hmem m hmm
    rw [e]; exact (p.each x hx).2
  · intro m hmm
    obtain ⟨i, x, _, _, hx, e⟩ := hmem m hmm
    rw [e]; intro d hd; rw [(p.each x hx).1.initial.2.2.1] at hd; cases hd
  · intro m hmm
    obtain ⟨i, x, _, _, hx, e⟩ := hmem m hmm
    rw [e, (p.each x hx).1.initial.1]
    unfold appliedNumber
    dsimp only
    rw [List.filter_eq_nil_iff.2 (fun d hd => by rw [hheap, (p.each x hx).1.fresh_cell hd]; simp)]
    rfl
  · intro m hmm d hd hdead
    obtain ⟨i, x, _, _, hx, e⟩ := hmem m hmm
    rw [e] at hd
    have h1 := p.fresh x hx d ((p.each x hx).1.sub hd)
    have h2 := hdd d hdead
    omega
  · rw [flatMap_range' (s.resetModels r).store DModel.differences s.nextModel ms hst]
    have hsub : (ms.flatMap DModel.differences).Sublist (ms.flatMap DModel.hunkIds) := by
      have hall : ∀ x ∈ ms, x.differences.Sublist x.hunkIds := fun x hx => by
        rw [(p.each x hx).1.differences]; exact List.filter_sublist
      clear hst hmodels hdead hdeadD hheap hinfo hnext hold hmem hdd p hne hm
      induction ms with
      | nil => exact List.Sublist.refl _
      | cons x ms ih =>
        rw [List.flatMap_cons, List.flatMap_cons]
        exact (hall x (by simp)).append (ih (fun y hy => hall y (List.mem_cons_of_mem _ hy)))
    exact p.disjoint.sublist hsub
  · intro m hd
    rw [hdead, List.mem_append] at hd
    rw [hnext]
    rcases hd with hd | hd
    · have := w.dead m hd; omega
    · have := w.models m hd; omega
  · intro m hmm
    rw [hmodels] at hmm
    have := List.mem_range'_1.1 hmm
    rw [hnext]; exact this.2
  · intro m hlt d hd
    rw [hheap]
    rw [hnext] at hlt
    by_cases hm' : m < s.nextModel
    · rw [hold m hm'] at hd
      exact Nat.lt_of_lt_of_le (w.diffs m hm' d hd) hext.1
    · obtain ⟨i, x, _, _, hx, e⟩ := hmem m (List.mem_range'_1.2 ⟨by omega, hlt⟩)
      rw [e] at hd
      exact (p.each x hx).1.alloc d ((p.each x hx).1.sub hd)
  · intro d hd
    rw [hheap]
    exact Nat.lt_of_lt_of_le (hdd d hd) hext.1
  · intro m hlt d hd
    rw [hheap]
    rw [hnext] at hlt
    by_cases hm' : m < s.nextModel
    · rw [hold m hm'] at hd
      exact Nat.lt_of_lt_of_le (w.hunks m hm' d hd) hext.1
    · obtain ⟨i, x, _, _, hx, e⟩ := hmem m (List.mem_range'_1.2 ⟨by omega, hlt⟩)
      rw [e] at hd
      exact (p.each x hx).1.alloc d hd

theorem resetModels_none {s : MLState} (w : WF s) {r : ParseResult} (hext : s.heap.Ext r.heap) (hm : r.models = none) : WF (s.resetModels r) := by
  unfold MLState.resetModels
  rw [hm]
  refine ⟨?_, ?_, ?_, ?_, fun m hlt d hd => Nat.lt_of_lt_of_le (w.hunks m hlt d hd) hext.1⟩
  · intro m hd
    rcases List.mem_append.1 hd with hd | hd
    · exact w.dead m hd
    · exact w.models m hd
  · intro m hm; cases hm
  · intro m hlt d hd; exact Nat.lt_of_lt_of_le (w.diffs m hlt d hd) hext.1
  · intro d hd
    rcases List.mem_append.1 hd with hd | hd
    · exact Nat.lt_of_lt_of_le (w.deadDiffs d hd) hext.1
    · obtain ⟨m, hmm, hd⟩ := List.mem_flatMap.1 hd
      exact Nat.lt_of_lt_of_le (w.diffs m (w.models m hmm) d hd) hext.1

/-- The result of `parseDiffOutput`, with the headers of the models. -/
theorem parseDiffOutput_heads {e : Env} {s s' : MLState} {text : Str} {b : Bool} (w : WF s) (h : s.parseDiffOutput e text = Res.ok (s', b)) :
    WF s' ∧ s'.canSave = s.canSave ∧ s'.isReadWrite = s.isReadWrite ∧
    ∃ r, parse e.win e.cmp s.heap (split text) = Res.ok r ∧ s'.heap = r.heap ∧
      (b = false → r.models = none ∧ s'.models = none ∧ s'.selectedModel = s.selectedModel ∧
        s'.selectedDifference = s.selectedDifference ∧ s'.modelIndex = s.modelIndex ∧ s'.actions = s.actions ∧
        s'.store = s.store ∧ s'.dead = s.dead ++ s.models.getD [] ∧
        s'.deadDiffs = s.deadDiffs ++ (s.models.getD []).flatMap (fun m => (s.store m).differences) ∧
        s'.log = s.log ++ [.diffString text]) ∧
      (b = true → ∃ ms m d, r.models = some ms ∧ Opened s' (List.range' s.nextModel ms.length) ∧
        At s' (List.range' s.nextModel ms.length) 0 0 m d ∧
        ∀ i x, ms[i]? = some x → (s'.store (s.nextModel + i)).hunks = x.hunks ∧
          (s'.store (s.nextModel + i)).differences = x.differences ∧ (s'.store (s.nextModel + i)).source = x.source ∧
          (s'.store (s.nextModel + i)).destination = x.destination ∧ (s'.store (s.nextModel + i)).blended = x.blended ∧
          (s'.store (s.nextModel + i)).head = x.head) := by
  unfold MLState.parseDiffOutput at h
  obtain ⟨r, hr, h⟩ := Res.bind_eq_ok.1 h
  obtain ⟨cl, _, h⟩ := Res.bind_eq_ok.1 h
  have hr' : parse e.win e.cmp s.heap (split text) = Res.ok r := hr
  obtain ⟨hext, hmod⟩ := parse_models hr'
  have w1 : WF (s.emit (.diffString text)) := w.keep (keep_emit s _)
  cases hrm : r.models with
  | none =>
    have w2 := resetModels_none w1 hext hrm
    have e1 : (s.emit (.diffString text)).resetModels r =
      { s.emit (.diffString text) with
        dead := s.dead ++ s.models.getD []
        deadDiffs := s.deadDiffs ++ (s.models.getD []).flatMap (fun m => (s.store m).differences)
        heap := r.heap, models := none } := by
      unfold MLState.resetModels; rw [hrm]; rfl
    rw [e1] at h w2
    dsimp only at h
    split at h
    · cases h
    · simp only [Res.ok.injEq, Prod.mk.injEq] at h
      obtain ⟨rfl, rfl⟩ := h
      refine ⟨⟨w2.dead, w2.models, w2.diffs, w2.deadDiffs, w2.hunks⟩, rfl, rfl, r, hr', rfl, ?_, by simp⟩
      intro _
      exact ⟨hrm, rfl, rfl, rfl, rfl, rfl, rfl, rfl, rfl, rfl⟩
  | some ms =>
    obtain ⟨hne, hp⟩ := hmod ms hrm
    dsimp only at h
    have hmm : ((s.emit (.diffString text)).resetModels r).models = some (List.range' s.nextModel ms.length) := by
      unfold MLState.resetModels; rw [hrm]; rfl
    have hcs : ((s.emit (.diffString text)).resetModels r).canSave = s.canSave := by unfold MLState.resetModels; rw [hrm]; rfl
    have hrw : ((s.emit (.diffString text)).resetModels r).isReadWrite = s.isReadWrite := by unfold MLState.resetModels; rw [hrm]; rfl
    have hhe : ((s.emit (.diffString text)).resetModels r).heap = r.heap := by unfold MLState.resetModels; rw [hrm]; rfl
    have hin : ((s.emit (.diffString text)).resetModels r).info = s.info := by unfold MLState.resetModels; rw [hrm]; rfl
    split at h
    · cases h
    · rename_i i hi
      obtain ⟨ho, w2, hst⟩ := resetModels_opened w1 hext hrm hne hp (by show s.info ≠ none; rw [← hin, hi]; simp)
      generalize (s.emit (.diffString text)).resetModels r = t at ho w2 hst hmm h hcs hrw hi hhe hin
      rw [hmm] at h
      dsimp only at h
      obtain ⟨u, hu⟩ : ∃ u : MLState, u = (if r.malformed then
          MLState.emit { t with info := some { i with generator := some (determineGenerator (split text)), format := determineFormat (determineGenerator (split text)) cl } }
            (.error .malformed)
          else { t with info := some { i with generator := some (determineGenerator (split text)), format := determineFormat (determineGenerator (split text)) cl } }) := ⟨_, rfl⟩
      have hou : Opened u (List.range' s.nextModel ms.length) := by
        have hx : ∀ j, Opened { t with info := some j } (List.range' s.nextModel ms.length) := fun j =>
          ⟨ho.models, ho.ne, ho.nodup, ho.live, ho.diffs, ho.selOk, ho.count, ho.liveDiffs, ho.disjoint, by simp⟩
        rw [hu]; split
        · exact hx _
        · exact hx _
      have hku : Keep t u := by
        rw [hu]; split <;> exact ⟨rfl, rfl, rfl, Nat.le_refl _, fun _ => rfl, .refl _, fun _ h => h⟩
      have hsu : u.store = t.store := by rw [hu]; split <;> rfl
      have hhu : u.heap = t.heap := by rw [hu]; split <;> rfl
      have hcu : u.canSave = t.canSave := by rw [hu]; split <;> rfl
      have hru : u.isReadWrite = t.isReadWrite := by rw [hu]; split <;> rfl
      have h' : (u.firstModel >>= fun s => s.selectFirst >>= fun s => s.differenceCount >>= fun dc =>
          Res.ok (s.emit (.statusBar 0 0 s.modelCount dc 0), true)) = Res.ok (s', b) := by
        rw [hu]
        rw [← hmm] at h
        split at h <;> rename_i hmal <;> simp only [hmal, if_true, if_false] <;> exact h
      obtain ⟨m, hm0⟩ : ∃ m, (List.range' s.nextModel ms.length)[0]? = some m := by
        refine ⟨_, List.getElem?_eq_getElem ?_⟩
        simp only [List.length_range']; exact List.length_pos_iff.2 hne
      rw [firstModel_ok hou hm0, Res.bind_ok] at h'
      obtain ⟨d, hd, hsf⟩ := selectFirst_ok hou hm0
      rw [hsf, Res.bind_ok] at h'
      obtain ⟨dc, _, h'⟩ := Res.bind_eq_ok.1 h'
      simp only [Res.ok.injEq, Prod.mk.injEq] at h'
      obtain ⟨rfl, rfl⟩ := h'
      have hfm := moved_frame u 0 0 m d
      have hk1 : Keep t (u.moved 0 0 m d) := hku.trans hfm.keep
      refine ⟨w2.keep (hk1.trans (keep_emit _ _)), hcu.trans hcs, hru.trans hrw, r, hr', hhu.trans hhe, by simp, fun _ => ?_⟩
      refine ⟨ms, m, d, hrm, moved_opened (k := 0) hou hd, moved_at hm0 hd, ?_⟩
      intro i x hx
      have h1 := hst i x hx
      have hfields : ∀ m', ((u.moved 0 0 m d).store m').hunks = (t.store m').hunks ∧ ((u.moved 0 0 m d).store m').differences = (t.store m').differences ∧
          ((u.moved 0 0 m d).store m').source = (t.store m').source ∧ ((u.moved 0 0 m d).store m').destination = (t.store m').destination ∧
          ((u.moved 0 0 m d).store m').blended = (t.store m').blended ∧ ((u.moved 0 0 m d).store m').head = (t.store m').head := by
        intro m'
        have e : (u.moved 0 0 m d).store m' = if m' = m then { u.store m with diffIndex := ((0 : Nat) : Int), selected := some d } else u.store m' := rfl
        rw [e, hsu]
        split
        · rename_i e'; rw [e']; exact ⟨rfl, rfl, rfl, rfl, rfl, rfl⟩
        · exact ⟨rfl, rfl, rfl, rfl, rfl, rfl⟩
      have h2 := hfields (s.nextModel + i)
      have h1' : t.store (s.nextModel + i) = x := h1
      rw [h1'] at h2
      exact h2

/-- The result of `parseDiffOutput`. -/
theorem parseDiffOutput_spec {e : Env} {s s' : MLState} {text : Str} {b : Bool} (w : WF s) (h : s.parseDiffOutput e text = Res.ok (s', b)) :
    WF s' ∧ s'.canSave = s.canSave ∧ s'.isReadWrite = s.isReadWrite ∧
    ∃ r, parse e.win e.cmp s.heap (split text) = Res.ok r ∧ s'.heap = r.heap ∧
      (b = false → r.models = none ∧ s'.models = none ∧ s'.selectedModel = s.selectedModel ∧
        s'.selectedDifference = s.selectedDifference ∧ s'.modelIndex = s.modelIndex ∧ s'.actions = s.actions ∧
        s'.store = s.store ∧ s'.dead = s.dead ++ s.models.getD [] ∧
        s'.deadDiffs = s.deadDiffs ++ (s.models.getD []).flatMap (fun m => (s.store m).differences) ∧
        s'.log = s.log ++ [.diffString text]) ∧
      (b = true → ∃ ms m d, r.models = some ms ∧ Opened s' (List.range' s.nextModel ms.length) ∧
        At s' (List.range' s.nextModel ms.length) 0 0 m d ∧
        ∀ i x, ms[i]? = some x → (s'.store (s.nextModel + i)).hunks = x.hunks ∧
          (s'.store (s.nextModel + i)).differences = x.differences ∧ (s'.store (s.nextModel + i)).source = x.source ∧
          (s'.store (s.nextModel + i)).destination = x.destination ∧ (s'.store (s.nextModel + i)).blended = x.blended) := by
  obtain ⟨w', h1, h2, r, hr, hh, hf, ht⟩ := parseDiffOutput_heads w h
  refine ⟨w', h1, h2, r, hr, hh, hf, fun hb => ?_⟩
  obtain ⟨ms, m, d, q1, q2, q3, q4⟩ := ht hb
  refine ⟨ms, m, d, q1, q2, q3, fun i x hx => ?_⟩
  obtain ⟨a1, a2, a3, a4, a5, _⟩ := q4 i x hx
  exact ⟨a1, a2, a3, a4, a5⟩

/-! ### Blending -/

theorem blendBefore_ext (k : Hunk Nat) (s : BlendState) : s.heap.Ext (blendBefore k s).heap := by
  unfold blendBefore
  split
  · exact Heap.allocAll_ext _ _
  · exact Heap.Ext.refl _

theorem blendLoop_ext (ks : List (Hunk Nat)) (s : BlendState) : s.heap.Ext (blendLoop ks s).heap := by
  induction ks generalizing s with
  | nil => exact Heap.Ext.refl _
  | cons k ks ih =>
    simp only [blendLoop]
    refine (blendBefore_ext k s).trans ?_
    have := ih { heap := (blendBefore k s).heap, hunks := (blendBefore k s).hunks ++ [k],
                 src := (blendBefore k s).src + (Hunk.slcOn (blendBefore k s).heap k : Nat),
                 dst := (blendBefore k s).dst + (Hunk.dlcOn (blendBefore k s).heap k : Nat),
                 lines := List.drop (Hunk.slcOn (blendBefore k s).heap k) (blendBefore k s).lines }
    exact this

theorem blendTail_ext (s : BlendState) : s.heap.Ext (blendTail s).heap := by
  unfold blendTail
  split
  · exact Heap.Ext.refl _
  · exact Heap.allocAll_ext _ _

theorem blend_ext (m : DModel) (h : Heap) (c : Str) : h.Ext (m.blend h c).2 :=
  (blendLoop_ext m.hunks { heap := h, hunks := [], src := 1, dst := 1, lines := split c }).trans (blendTail_ext _)

/-- All differences of the hunks exist. -/
def HunksAlloc (s : BlendState) : Prop := ∀ k ∈ s.hunks, ∀ i ∈ k.diffs, i < s.heap.next

theorem HunksAlloc.alloc {s : BlendState} (h : HunksAlloc s) (d : Diff) (a b : Int) (f : Str) (ty : HunkType) (x y : Int) (l : List Str) :
    HunksAlloc ⟨(s.heap.allocAll [d]).2, s.hunks ++ [{ sourceLine := a, destLine := b, function := f, type := ty, diffs := (s.heap.allocAll [d]).1 }], x, y, l⟩ := by
  intro k hk i hi
  show i < (s.heap.allocAll [d]).2.next
  rw [Heap.allocAll_next]
  rcases List.mem_append.1 hk with hk | hk
  · exact Nat.lt_of_lt_of_le (h k hk i hi) (Nat.le_add_right _ _)
  · rw [List.mem_singleton.1 hk] at hi
    rw [show ({ sourceLine := a, destLine := b, function := f, type := ty, diffs := (s.heap.allocAll [d]).1 } : Hunk Nat).diffs =
      (s.heap.allocAll [d]).1 from rfl, Heap.allocAll_ids] at hi
    exact (List.mem_range'_1.1 hi).2

theorem blendBefore_alloc {k : Hunk Nat} {s : BlendState} (h : HunksAlloc s) : HunksAlloc (blendBefore k s) := by
  unfold blendBefore
  split
  · exact h.alloc _ _ _ _ _ _ _ _
  · exact h

theorem blendLoop_alloc (ks : List (Hunk Nat)) (s : BlendState) (h : HunksAlloc s) (hk : ∀ k ∈ ks, ∀ i ∈ k.diffs, i < s.heap.next) :
    HunksAlloc (blendLoop ks s) := by
  induction ks generalizing s with
  | nil => exact h
  | cons k ks ih =>
    simp only [blendLoop]
    have hx := (blendBefore_ext k s).1
    refine ih _ ?_ ?_
    · intro k' hk' i hi
      rcases List.mem_append.1 hk' with hk' | hk'
      · exact blendBefore_alloc h k' hk' i hi
      · rw [List.mem_singleton.1 hk'] at hi
        exact Nat.lt_of_lt_of_le (hk k (by simp) i hi) hx
    · intro k' hk' i hi
      exact Nat.lt_of_lt_of_le (hk k' (List.mem_cons_of_mem _ hk') i hi) hx

theorem blend_alloc (m : DModel) (h : Heap) (c : Str) (hm : ∀ i ∈ m.hunkIds, i < h.next) :
    ∀ i ∈ (m.blend h c).1.hunkIds, i < (m.blend h c).2.next := by
  have h1 : HunksAlloc (blendLoop m.hunks { heap := h, hunks := [], src := 1, dst := 1, lines := split c }) :=
    blendLoop_alloc _ _ (fun k hk => by cases hk) (fun k hk i hi => hm i (List.mem_flatMap.2 ⟨k, hk, hi⟩))
  have h2 : HunksAlloc (blendTail (blendLoop m.hunks { heap := h, hunks := [], src := 1, dst := 1, lines := split c })) := by
    unfold blendTail
    split
    · exact h1
    · exact h1.alloc _ _ _ _ _ _ _ _
  intro i hi
  obtain ⟨k, hk, hi⟩ := List.mem_flatMap.1 hi
  exact h2 k hk i hi

/-- A change of a model that leaves differences, selection and counters alone, with a larger heap. -/
theorem opened_extend {s : MLState} {ms : List Nat} (h : Opened s ms) (w : WF s) {m : Nat} (_hm : m ∈ ms) {x : DModel} {hp : Heap}
    (h1 : x.differences = (s.store m).differences) (h2 : x.selected = (s.store m).selected) (h3 : x.diffIndex = (s.store m).diffIndex)
    (h4 : x.appliedCount = (s.store m).appliedCount) (he : s.heap.Ext hp)
    (h5 : (∀ i ∈ (s.store m).hunkIds, i < s.heap.next) → ∀ i ∈ x.hunkIds, i < hp.next) : Opened (s.call m (x, hp)) ms ∧ Keep s (s.call m (x, hp)) := by
  have hlt : ∀ m' ∈ ms, m' < s.nextModel := fun m' hm' => w.models m' (by rw [h.models]; exact hm')
  have e : ∀ m', ((s.call m (x, hp)).store m').differences = (s.store m').differences ∧ ((s.call m (x, hp)).store m').selected = (s.store m').selected ∧
      ((s.call m (x, hp)).store m').diffIndex = (s.store m').diffIndex ∧ ((s.call m (x, hp)).store m').appliedCount = (s.store m').appliedCount := by
    intro m'
    have q : (s.call m (x, hp)).store m' = if m' = m then x else s.store m' := rfl
    rw [q]
    split
    · rename_i e; rw [e]; exact ⟨h1, h2, h3, h4⟩
    · exact ⟨rfl, rfl, rfl, rfl⟩
  refine ⟨⟨h.models, h.ne, h.nodup, h.live, ?_, ?_, ?_, ?_, ?_, h.info⟩, ⟨rfl, rfl, rfl, he.1, fun m' => (e m').1, .refl _, fun m' q => by
    show ∀ i ∈ (if m' = m then x else s.store m').hunkIds, i < hp.next
    split
    · rename_i e; rw [e] at q; exact h5 q
    · exact fun i hi => Nat.lt_of_lt_of_le (q i hi) he.1⟩⟩
  · intro m' hm'; rw [(e m').1]; exact h.diffs m' hm'
  · intro m' hm' d hd
    rw [(e m').2.1] at hd
    rw [(e m').1, (e m').2.2.1]; exact h.selOk m' hm' d hd
  · intro m' hm'
    rw [(e m').2.2.2, h.count m' hm']
    unfold appliedNumber
    dsimp only
    rw [(e m').1]
    rw [List.filter_congr (q := fun i => (hp.cell i).applied) (fun i hi => by rw [he.2 i (w.diffs m' (hlt m' hm') i hi)])]
    rfl
  · intro m' hm' d hd; rw [(e m').1] at hd; exact h.liveDiffs m' hm' d hd
  · have : (fun m' => ((s.call m (x, hp)).store m').differences) = fun m' => (s.store m').differences := funext (fun m' => (e m').1)
    rw [this]; exact h.disjoint

/-- What blending and preparing do not change for the other models. -/
structure Others (s s' : MLState) (l : List Nat) : Prop where
  info : s'.info = s.info
  canSave : s'.canSave = s.canSave
  readWrite : s'.isReadWrite = s.isReadWrite
  hunks : ∀ m, m ∉ l → (s'.store m).hunks = (s.store m).hunks

theorem blendFile_ok {s : MLState} {ms : List Nat} (h : Opened s ms) (w : WF s) {m : Nat} (hm : m ∈ ms) (c : Str) :
    ∃ s' m0 d, s.blendFile m c = Res.ok s' ∧ Opened s' ms ∧ WF s' ∧ Keep s s' ∧ At s' ms 0 0 m0 d ∧ Others s s' [m] ∧
      (s'.store m).hunks = ((s.store m).blend s.heap c).1.hunks ∧ s'.heap = ((s.store m).blend s.heap c).2 ∧
      (∀ x, (s'.store x).source = (s.store x).source) := by
  have hex := opened_extend h w hm (x := ((s.store m).blend s.heap c).1) (hp := ((s.store m).blend s.heap c).2) rfl rfl rfl rfl (blend_ext _ _ _)
    (blend_alloc _ _ _)
  unfold MLState.blendFile
  rw [h.model hm, Res.bind_ok]
  have e : ({ (s.setModel m ((s.store m).blend s.heap c).1) with heap := ((s.store m).blend s.heap c).2 } : MLState) =
    s.call m ((s.store m).blend s.heap c) := rfl
  dsimp only
  rw [e]
  obtain ⟨m0, hm0⟩ : ∃ m0, ms[0]? = some m0 := ⟨_, List.getElem?_eq_getElem (List.length_pos_iff.2 h.ne)⟩
  rw [firstModel_ok hex.1 hm0, Res.bind_ok]
  obtain ⟨d, hd, hsf⟩ := selectFirst_ok hex.1 hm0
  rw [hsf]
  have hf := moved_frame (s.call m ((s.store m).blend s.heap c)) 0 0 m0 d
  have hk := hex.2.trans hf.keep
  refine ⟨_, m0, d, rfl, moved_opened hex.1 hd, w.keep hk, hk, moved_at hm0 hd, ⟨rfl, rfl, rfl, ?_⟩, ?_, rfl, ?_⟩
  · intro x hx
    rw [hf.hunks]
    simp only [List.mem_singleton] at hx
    show (if x = m then _ else s.store x).hunks = _
    rw [if_neg hx]
  · rw [hf.hunks]
    show (if m = m then _ else s.store m).hunks = _
    rw [if_pos rfl]
  · intro x
    have q : ((s.call m ((s.store m).blend s.heap c)).moved 0 0 m0 d).store x = if x = m0 then
      { (s.call m ((s.store m).blend s.heap c)).store m0 with diffIndex := ((0 : Nat) : Int), selected := some d } else (s.call m ((s.store m).blend s.heap c)).store x := rfl
    have q2 : ∀ y, ((s.call m ((s.store m).blend s.heap c)).store y).source = (s.store y).source := by
      intro y
      show (if y = m then _ else s.store y).source = _
      split
      · rename_i e; rw [e]; rfl
      · rfl
    rw [q]
    split
    · rename_i e; rw [e]; exact q2 m0
    · exact q2 x

/-- Some selection is valid. -/
def Selected (s : MLState) (ms : List Nat) : Prop := ∃ k j m d, At s ms k j m d

theorem blendDirLoop_ok (e : Env) (dir : Str) (l : List Nat) {s : MLState} {ms : List Nat} (hl : ∀ m ∈ l, m ∈ ms) (h : Opened s ms) (w : WF s)
    (b : Bool) (hs : Selected s ms) :
    ∃ s' b', MLState.blendDirLoop e dir l s b = Res.ok (s', b') ∧ Opened s' ms ∧ WF s' ∧ Keep s s' ∧ Selected s' ms ∧ Others s s' l := by
  induction l generalizing s b with
  | nil => exact ⟨s, b, rfl, h, w, .refl s, hs, ⟨rfl, rfl, rfl, fun _ _ => rfl⟩⟩
  | cons m l ih =>
    obtain ⟨s1, m0, d, h1, o1, w1, k1, a1, ot1, _⟩ := blendFile_ok h w (hl m (by simp))
      (if e.exists_ (if dir.isPrefixOf (s.store m).source then (s.store m).source else e.filePath dir (s.store m).source) then
        e.contents (if dir.isPrefixOf (s.store m).source then (s.store m).source else e.filePath dir (s.store m).source) else [])
    obtain ⟨s2, b2, h2, o2, w2, k2, hs2, ot2⟩ := ih (fun x hx => hl x (List.mem_cons_of_mem _ hx)) o1 w1 true ⟨0, 0, m0, d, a1⟩
    refine ⟨s2, b2, ?_, o2, w2, k1.trans k2, hs2, ⟨ot2.info.trans ot1.info, ot2.canSave.trans ot1.canSave, ot2.readWrite.trans ot1.readWrite, ?_⟩⟩
    · simp only [MLState.blendDirLoop]
      rw [h.model (hl m (by simp)), Res.bind_ok, h1, Res.bind_ok, h2]
    · intro x hx
      rw [ot2.hunks x (fun q => hx (List.mem_cons_of_mem _ q)), ot1.hunks x (by simp; exact fun q => hx (by simp [q]))]

theorem blendOriginal_ok (e : Env) {s : MLState} {ms : List Nat} (h : Opened s ms) (w : WF s) (url : Str) (hs : Selected s ms) :
    ∃ s' b', s.blendOriginal e url = Res.ok (s', b') ∧ Opened s' ms ∧ WF s' ∧ Keep s s' ∧ Selected s' ms ∧ Others s s' ms := by
  unfold MLState.blendOriginal
  split
  · rw [h.list, Res.bind_ok]
    exact blendDirLoop_ok e url ms (fun _ h => h) h w false hs
  · split
    · rw [h.list, Res.bind_ok]
      obtain ⟨m0, hm0⟩ : ∃ m0, ms[0]? = some m0 := ⟨_, List.getElem?_eq_getElem (List.length_pos_iff.2 h.ne)⟩
      rw [show (0 : Int) = ((0 : Nat) : Int) from rfl, atR_some hm0, Res.bind_ok]
      obtain ⟨s1, m1, d, h1, o1, w1, k1, a1, ot1, _⟩ := blendFile_ok h w (h.mem hm0) (e.contents url)
      rw [h1, Res.bind_ok]
      refine ⟨s1, true, rfl, o1, w1, k1, ⟨0, 0, m1, d, a1⟩, ⟨ot1.info, ot1.canSave, ot1.readWrite, ?_⟩⟩
      intro x hx
      exact ot1.hunks x (by simp; intro q; exact hx (q ▸ h.mem hm0))
    · exact ⟨s, false, rfl, h, w, .refl s, hs, ⟨rfl, rfl, rfl, fun _ _ => rfl⟩⟩

/-! ### Depth and applied state -/

theorem at_transport {s s' : MLState} {ms : List Nat} {k j m d : Nat} (a : At s ms k j m d) (h1 : s'.selectedModel = s.selectedModel)
    (h2 : s'.selectedDifference = s.selectedDifference) (h3 : s'.modelIndex = s.modelIndex)
    (h4 : (s'.store m).differences = (s.store m).differences) (h5 : (s'.store m).selected = (s.store m).selected)
    (h6 : (s'.store m).diffIndex = (s.store m).diffIndex) : At s' ms k j m d :=
  ⟨a.model, by rw [h4]; exact a.diff, h1.trans a.selectedModel, h2.trans a.selectedDifference, h3.trans a.index,
    h5.trans a.modelSelected, h6.trans a.modelIndex⟩

theorem depth_ok {s : MLState} {ms : List Nat} (h : Opened s ms) (w : WF s) (i : Info) {m : Nat} (hm : m ∈ ms) :
    Opened (MLState.depthAndApplied i s m) ms ∧ Keep s (MLState.depthAndApplied i s m) ∧
      (∀ k j x d, At s ms k j x d → At (MLState.depthAndApplied i s m) ms k j x d) := by
  have e : ∃ y : DModel, y.differences = (s.store m).differences ∧ y.selected = (s.store m).selected ∧ y.diffIndex = (s.store m).diffIndex ∧
      y.appliedCount = (s.store m).appliedCount ∧ y.hunks = (s.store m).hunks ∧ MLState.depthAndApplied i s m =
        (s.call m (y, s.heap)).call m (((s.call m (y, s.heap)).store m).applyAllDifferences s.heap i.applied) := by
    refine ⟨((s.store m).setSourceFile (lstripSeparators (s.store m).source i.depth)).setDestinationFile
      (lstripSeparators ((s.store m).setSourceFile (lstripSeparators (s.store m).source i.depth)).destination i.depth), rfl, rfl, rfl, rfl, rfl, ?_⟩
    unfold MLState.depthAndApplied
    dsimp only
    unfold MLState.call MLState.setModel
    simp only [if_true]
    congr 1
    funext j
    by_cases hj : j = m
    · simp [hj]
    · simp [hj]
  obtain ⟨y, y1, y2, y3, y4, y5, heq⟩ := e
  have hex := opened_extend h w hm (x := y) (hp := s.heap) y1 y2 y3 y4 (Heap.Ext.refl _)
    (fun q => by unfold DModel.hunkIds at *; rw [y5]; exact q)
  have hop : (MOp.applyAll i.applied).run ((s.call m (y, s.heap)).store m, (s.call m (y, s.heap)).heap) =
      Res.ok (((s.call m (y, s.heap)).store m).applyAllDifferences s.heap i.applied) := rfl
  rw [heq]
  refine ⟨opened_call (op := .applyAll i.applied) (fun _ _ => by simp) hex.1 hm hop, hex.2.trans (keep_call hop), ?_⟩
  intro k j x d a
  exact at_call (at_call a y1 y2 y3) rfl rfl rfl

theorem setDepth_ok {s : MLState} {ms : List Nat} (h : Opened s ms) (w : WF s) (hs : Selected s ms) :
    ∃ s', s.setDepthAndApplied = Res.ok s' ∧ Opened s' ms ∧ WF s' ∧ Keep s s' ∧ Selected s' ms ∧ s'.info = s.info ∧ s'.canSave = s.canSave ∧
      s'.isReadWrite = s.isReadWrite := by
  unfold MLState.setDepthAndApplied
  rw [h.list, Res.bind_ok]
  obtain ⟨i, hi⟩ := Option.ne_none_iff_exists'.1 h.info
  rw [hi]
  dsimp only
  have key : ∀ l : List Nat, (∀ m ∈ l, m ∈ ms) → ∀ s : MLState, Opened s ms → WF s → Selected s ms → 
      Opened (l.foldl (MLState.depthAndApplied i) s) ms ∧ WF (l.foldl (MLState.depthAndApplied i) s) ∧ Keep s (l.foldl (MLState.depthAndApplied i) s) ∧
      Selected (l.foldl (MLState.depthAndApplied i) s) ms ∧ (l.foldl (MLState.depthAndApplied i) s).info = s.info ∧
      (l.foldl (MLState.depthAndApplied i) s).canSave = s.canSave ∧ (l.foldl (MLState.depthAndApplied i) s).isReadWrite = s.isReadWrite := by
    intro l
    induction l with
    | nil => intro _ s h w hs; exact ⟨h, w, .refl s, hs, rfl, rfl, rfl⟩
    | cons m l ih =>
      intro hl s h w hs
      obtain ⟨o1, k1, a1⟩ := depth_ok h w i (hl m (by simp))
      obtain ⟨k, j, x, d, a⟩ := hs
      rw [List.foldl_cons]
      obtain ⟨o2, w2, k2, s2, i2, c2, r2⟩ := ih (fun x hx => hl x (List.mem_cons_of_mem _ hx)) _ o1 (w.keep k1) ⟨k, j, x, d, a1 k j x d a⟩
      exact ⟨o2, w2, k1.trans k2, s2, i2, c2, r2⟩
  obtain ⟨o, w', k, s2, i2, c2, r2⟩ := key ms (fun _ h => h) s h w hs
  exact ⟨_, rfl, o, w', k, s2, i2.trans hi, c2, r2⟩

/-! ### The operations that open a diff -/

theorem keep_clear (s : MLState) : Keep s s.clear := by
  refine ⟨rfl, rfl, rfl, Nat.le_refl _, fun _ => rfl, ?_, fun _ h => h⟩
  have : s.clear.models = s.models.map (fun _ => []) := rfl
  rw [this]
  cases h : s.models with
  | none => exact .refl _
  | some l => exact List.nil_sublist _

theorem keep_show (s : MLState) : Keep s s.show_ := ⟨rfl, rfl, rfl, Nat.le_refl _, fun _ => rfl, .refl _, fun _ h => h⟩

/-- The diff is open, something is selected, the actions are right. -/
def OpenOk (s : MLState) : Prop := ∃ ms, Opened s ms ∧ Selected s ms ∧ Right s

/-- The log is not looked at. -/
theorem OpenOk.log {s : MLState} (h : OpenOk s) (l : List Event) : OpenOk { s with log := l } := by
  obtain ⟨ms, h1, h2, h3⟩ := h
  exact ⟨ms, h1, h2, ⟨⟨h3.1.1, h3.1.2, h3.1.3, h3.1.4⟩, fun hc => ⟨(h3.2 hc).1, (h3.2 hc).2, (h3.2 hc).3, (h3.2 hc).4⟩⟩⟩

theorem update_open {s s' : MLState} {ms : List Nat} (h : Opened s ms) (hs : Selected s ms) (hu : s.updateActions = Res.ok s') : OpenOk s' := by
  obtain ⟨k, j, m, d, a⟩ := hs
  obtain ⟨ac, hu', hR⟩ := updateActions_ok h a
  rw [hu'] at hu
  cases hu
  exact ⟨ms, h, ⟨k, j, m, d, a⟩, hR⟩

theorem parseAndOpenDiff_spec {e : Env} {s s' : MLState} {text : Str} {b : Bool} (w : WF s) (h : s.parseAndOpenDiff e text = Res.ok (s', b)) :
    WF s' ∧ (b = true → OpenOk s') := by
  unfold MLState.parseAndOpenDiff at h
  obtain ⟨⟨t, ok⟩, h1, h⟩ := Res.bind_eq_ok.1 h
  have w1 : WF (s.clear.emit (.status .Parsing)) := w.keep ((keep_clear s).trans (keep_emit _ _))
  obtain ⟨wt, _, _, r, hr, hh, hf, ht⟩ := parseDiffOutput_spec w1 h1
  dsimp only at h
  split at h
  · cases h; exact ⟨wt.keep (keep_emit _ _), by simp⟩
  · rename_i hok
    obtain ⟨u, h2, h⟩ := Res.bind_eq_ok.1 h
    cases h
    refine ⟨wt.keep (((keep_updateActions h2).trans (keep_show u)).trans (keep_emit _ _)), fun _ => ?_⟩
    obtain ⟨ms, m, d, _, ho, ha, _⟩ := ht (by simpa using hok)
    exact (update_open ho ⟨0, 0, m, d, ha⟩ h2).log _

theorem openDiff_spec {e : Env} {s s' : MLState} {file : Str} {b : Bool} (w : WF s) (h : s.openDiff e file = Res.ok (s', b)) :
    WF s' ∧ (b = true → OpenOk s') := by
  unfold MLState.openDiff at h
  split at h
  · cases h; exact ⟨w, by simp⟩
  · exact parseAndOpenDiff_spec (e := e) (text := e.contents file) w h

theorem openAndDiff_spec {e : Env} {s s' : MLState} {b : Bool} (w : WF s) (h : s.openAndDiff e = Res.ok (s', b)) :
    WF s' ∧ (b = true → OpenOk s') := by
  unfold MLState.openAndDiff at h
  split at h
  · cases h
  · rename_i i hi
    obtain ⟨⟨t, ok⟩, h1, h⟩ := Res.bind_eq_ok.1 h
    obtain ⟨wt, _, _, r, hr, hh, hf, ht⟩ := parseDiffOutput_spec (w.keep (keep_clear s)) h1
    dsimp only at h
    split at h
    · cases h; exact ⟨wt.keep (keep_emit _ _), by simp⟩
    · rename_i hok
      obtain ⟨ms, m, d, _, ho, ha, _⟩ := ht (by simpa using hok)
      obtain ⟨u, hu, ou, wu, ku, su, _⟩ := setDepth_ok ho wt ⟨0, 0, m, d, ha⟩
      rw [hu, Res.bind_ok] at h
      obtain ⟨v, b', hv, ov, wv, kv, sv, _⟩ := blendOriginal_ok e ou wu i.localSource su
      rw [hv, Res.bind_ok] at h
      dsimp only at h
      split at h
      · cases h; exact ⟨wv.keep (keep_emit _ _), by simp⟩
      · obtain ⟨x, hx, h⟩ := Res.bind_eq_ok.1 h
        cases h
        exact ⟨wv.keep ((keep_updateActions hx).trans (keep_show x)), fun _ => (update_open ov sv hx).log _⟩

theorem compareMode_wf {e : Env} {s : MLState} {mode : Mode} {r : MLState × Bool} (w : WF s) (h : s.compareMode e mode = Res.ok r) : WF r.1 := by
  unfold MLState.compareMode at h
  dsimp only at h
  have wc := w.keep (keep_clear s)
  split at h
  · cases h
  · obtain ⟨x, _, h⟩ := Res.bind_eq_ok.1 h
    cases h
    exact ⟨wc.dead, wc.models, wc.diffs, wc.deadDiffs, wc.hunks⟩

theorem WF.info {s : MLState} (w : WF s) (i : Option Info) : WF { s with info := i } := ⟨w.dead, w.models, w.diffs, w.deadDiffs, w.hunks⟩

theorem compare_spec {e : Env} {s : MLState} {r : MLState × Bool} (w : WF s) (h : s.compare e = Res.ok r) : WF r.1 := by
  unfold MLState.compare at h
  obtain ⟨s', b⟩ := r
  split at h
  · cases h
  · dsimp only at h
    split at h
    · exact compareMode_wf (w.info _) h
    · split at h
      · split at h
        · exact (openAndDiff_spec (w.info _) h).1
        · split at h
          · exact (openAndDiff_spec (w.info _) h).1
          · exact compareMode_wf (w.info _) h
      · split at h
        · exact (openAndDiff_spec (w.info _) h).1
        · exact (openAndDiff_spec (w.info _) h).1

/-- The output of the diff program was parsed to models. -/
theorem diffFinished_spec {e : Env} {s s' : MLState} {r : ProcessResult} (w : WF s) (h : s.slotDiffProcessFinished e r = Res.ok s') :
    WF s' ∧ (r.finishedNormally = true → s'.models ≠ none → OpenOk s') := by
  have fin : ∀ t : MLState, WF t ∧ (r.finishedNormally = true → t.models ≠ none → OpenOk t) →
      WF { t with process := none } ∧ (r.finishedNormally = true → ({ t with process := none } : MLState).models ≠ none →
        OpenOk { t with process := none }) := by
    intro t hs
    refine ⟨⟨hs.1.dead, hs.1.models, hs.1.diffs, hs.1.deadDiffs, hs.1.hunks⟩, fun a b => ?_⟩
    obtain ⟨ms, h1, h2, h3⟩ := hs.2 a b
    exact ⟨ms, h1, h2, ⟨⟨h3.1.1, h3.1.2, h3.1.3, h3.1.4⟩, fun hc => ⟨(h3.2 hc).1, (h3.2 hc).2, (h3.2 hc).3, (h3.2 hc).4⟩⟩⟩
  unfold MLState.slotDiffProcessFinished at h
  dsimp only at h
  split at h
  · rename_i hfn
    obtain ⟨⟨u, ok⟩, hp, h⟩ := Res.bind_eq_ok.1 h
    obtain ⟨wu, _, _, pr, hr, hh, hf, ht⟩ := parseDiffOutput_spec (w.keep (keep_emit s (.status .Parsing))) hp
    dsimp only at h
    split at h
    · rename_i hok
      cases h
      exact fin _ ⟨wu.keep ((keep_emit _ _).trans (keep_emit _ _)), fun _ hm => absurd (hf hok).2.1 hm⟩
    · rename_i hok
      obtain ⟨ms, m, d, _, ho, ha, _⟩ := ht (by simpa using hok)
      split at h
      · cases h
      · rename_i i hi
        split at h
        · obtain ⟨v, b', hv, ov, wv, kv, sv, _⟩ := blendOriginal_ok e ho wu i.localSource ⟨0, 0, m, d, ha⟩
          rw [hv] at h
          simp only [Res.bind_ok] at h
          obtain ⟨x, hx, h⟩ := Res.bind_eq_ok.1 h
          cases h
          exact fin _ ⟨wv.keep (((keep_updateActions hx).trans (keep_show x)).trans (keep_emit _ _)),
            fun _ _ => ((update_open ov sv hx).log _).log _⟩
        · simp only [Res.bind_ok] at h
          obtain ⟨x, hx, h⟩ := Res.bind_eq_ok.1 h
          cases h
          exact fin _ ⟨wu.keep (((keep_updateActions hx).trans (keep_show x)).trans (keep_emit _ _)),
            fun _ _ => ((update_open ho ⟨0, 0, m, d, ha⟩ hx).log _).log _⟩
  · rename_i hfn
    split at h
    · cases h; exact fin _ ⟨w.keep (keep_emit _ _), fun q => absurd q hfn⟩
    · cases h; exact fin _ ⟨w.keep (keep_emit _ _), fun q => absurd q hfn⟩

/-- Every call keeps the bookkeeping right. -/
theorem wf_op {op : MLOp} {s s' : MLState} (w : WF s) (h : op.run s = Res.ok s') : WF s' := by
  cases op with
  | user o => exact w.keep (keep_user h)
  | select m d => exact w.keep (keep_slotSelectionChanged h)
  | selectDiff d => exact w.keep (keep_slotDiffSelectionChanged h)
  | openDiff e f => obtain ⟨⟨t, b⟩, h1, h⟩ := Res.bind_eq_ok.1 h; cases h; exact (openDiff_spec w h1).1
  | parseAndOpenDiff e f => obtain ⟨⟨t, b⟩, h1, h⟩ := Res.bind_eq_ok.1 h; cases h; exact (parseAndOpenDiff_spec w h1).1
  | openFileAndDiff e => obtain ⟨⟨t, b⟩, h1, h⟩ := Res.bind_eq_ok.1 h; cases h; exact (openAndDiff_spec w h1).1
  | compare e => obtain ⟨t, h1, h⟩ := Res.bind_eq_ok.1 h; cases h; exact compare_spec w h1
  | refresh e =>
    simp only [MLOp.run, MLState.refresh] at h
    split at h
    · cases h
    · obtain ⟨t, h1, h⟩ := Res.bind_eq_ok.1 h; cases h; exact compareMode_wf w h1
  | swap e =>
    simp only [MLOp.run, MLState.swap] at h
    split at h
    · cases h
    · split at h
      · obtain ⟨t, h1, h⟩ := Res.bind_eq_ok.1 h; cases h; exact compareMode_wf w h1
      · cases h; exact w
  | diffFinished e r => exact (diffFinished_spec w h).1
  | setInfo i => cases h; exact w.info i
  | saveDiff e t u d st =>
    obtain ⟨x, h1, h⟩ := Res.bind_eq_ok.1 h
    cases h
    unfold MLState.saveDiff at h1
    dsimp only at h1
    split at h1
    · cases h1; exact ⟨w.dead, w.models, w.diffs, w.deadDiffs, w.hunks⟩
    · split at h1
      · cases h1
      · obtain ⟨y, _, h1⟩ := Res.bind_eq_ok.1 h1
        cases h1; exact ⟨w.dead, w.models, w.diffs, w.deadDiffs, w.hunks⟩
  | diffWritten c r =>
    simp only [MLOp.run, MLState.slotWriteDiffOutput] at h
    split at h
    · cases h
    · cases h
      split
      · split <;> exact ⟨w.dead, w.models, w.diffs, w.deadDiffs, w.hunks⟩
      · exact ⟨w.dead, w.models, w.diffs, w.deadDiffs, w.hunks⟩

theorem wf_session {ops : List MLOp} {s s' : MLState} (w : WF s) (h : runSession ops s = Res.ok s') : WF s' := by
  induction ops generalizing s with
  | nil => cases h; exact w
  | cons op ops ih =>
    obtain ⟨t, h1, h2⟩ := Res.bind_eq_ok.1 h
    exact ih (wf_op w h1) h2

theorem Reachable.wf {s : MLState} (h : Reachable s) : WF s := by
  obtain ⟨settings, rw, heap, ops, h⟩ := h
  exact wf_session (wf_init settings rw heap) h
