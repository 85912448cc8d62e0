import Verif.Spec.Lifetime
import Verif.Proofs.InUse
import Verif.Proofs.Process
/-
Which objects the calls on a `ModelList` destroy.
-/
namespace KompareDiff2
open Spec

/-- Parsing takes new numbers for the models. -/
theorem parseDiffOutput_next {e : Env} {s s' : MLState} {text : Str} {b : Bool} (h : s.parseDiffOutput e text = Res.ok (s', b)) :
    s.nextModel ≤ s'.nextModel ∧ ∀ m ∈ s'.models.getD [], s.nextModel ≤ m := by
  unfold MLState.parseDiffOutput at h
  obtain ⟨r, hr, h⟩ := Res.bind_eq_ok.1 h
  obtain ⟨cl, _, h⟩ := Res.bind_eq_ok.1 h
  have h0 : s.nextModel ≤ ((s.emit (.diffString text)).resetModels r).nextModel ∧
      ∀ m ∈ ((s.emit (.diffString text)).resetModels r).models.getD [], s.nextModel ≤ m := by
    unfold MLState.resetModels
    cases r.models with
    | none => exact ⟨Nat.le_refl _, fun m hm => by cases hm⟩
    | some ms =>
      refine ⟨Nat.le_add_right _ _, fun m hm => ?_⟩
      have hm' : m ∈ List.range' s.nextModel ms.length := hm
      exact (List.mem_range'_1.1 hm').1
  dsimp only at h
  generalize (s.emit (.diffString text)).resetModels r = t at h h0
  split at h
  · cases h
  · split at h
    · cases h; exact h0
    · have fin : ∀ u : MLState, (u.firstModel >>= fun s => s.selectFirst >>= fun s => s.differenceCount >>= fun dc =>
            Res.ok (s.emit (.statusBar 0 0 s.modelCount dc 0), true)) = Res.ok (s', b) →
          u.nextModel = t.nextModel → u.models = t.models →
          s.nextModel ≤ s'.nextModel ∧ ∀ m ∈ s'.models.getD [], s.nextModel ≤ m := by
        intro u h h1 h2
        obtain ⟨u1, q1, h⟩ := Res.bind_eq_ok.1 h
        obtain ⟨u2, q2, h⟩ := Res.bind_eq_ok.1 h
        obtain ⟨dc, _, h⟩ := Res.bind_eq_ok.1 h
        have hk : Keep u u2 := (keep_firstModel q1).trans (keep_selectFirst q2)
        cases h
        refine ⟨?_, fun m hm => ?_⟩
        · show s.nextModel ≤ u2.nextModel
          rw [hk.nextModel, h1]; exact h0.1
        · have := hk.models.subset hm
          rw [h2] at this
          exact h0.2 m this
      split at h
      · exact fin _ h rfl rfl
      · exact fin _ h rfl rfl

/-- A call does not destroy anything, or parses a text once. -/
def Reads (s s' : MLState) (P : MLState → Prop) : Prop :=
  ∃ t u e text b, Keep s t ∧ P t ∧ t.parseDiffOutput e text = Res.ok (u, b) ∧ Keep u s'

theorem clear_models (s : MLState) : s.clear.models.getD [] = [] := by
  show (s.models.map (fun _ => [])).getD [] = []
  cases s.models <;> rfl

theorem Keep.info {s s' : MLState} (k : Keep s s') (i : Option Info) : Keep s { s' with info := i } :=
  ⟨k.dead, k.deadDiffs, k.nextModel, k.heap, k.differences, k.models, k.alloc⟩

theorem Keep.info' {s s' : MLState} {i : Option Info} (k : Keep { s with info := i } s') : Keep s s' :=
  ⟨k.dead, k.deadDiffs, k.nextModel, k.heap, k.differences, k.models, k.alloc⟩

theorem Keep.process {s s' : MLState} (k : Keep s s') (p : Option ProcessUse) : Keep s { s' with process := p } :=
  ⟨k.dead, k.deadDiffs, k.nextModel, k.heap, k.differences, k.models, k.alloc⟩

theorem reads_parseAndOpenDiff {e : Env} {s s' : MLState} {text : Str} {b : Bool} (w : WF s) (h : s.parseAndOpenDiff e text = Res.ok (s', b)) :
    Reads s s' (fun t => t.models.getD [] = []) := by
  unfold MLState.parseAndOpenDiff at h
  obtain ⟨⟨t, ok⟩, h1, h⟩ := Res.bind_eq_ok.1 h
  refine ⟨s.clear.emit (.status .Parsing), t, e, text, ok, (keep_clear s).trans (keep_emit _ _), clear_models s, h1, ?_⟩
  dsimp only at h
  split at h
  · cases h; exact keep_emit _ _
  · obtain ⟨u, h2, h⟩ := Res.bind_eq_ok.1 h
    cases h
    exact ((keep_updateActions h2).trans (keep_show u)).trans (keep_emit _ _)

theorem reads_openAndDiff {e : Env} {s s' : MLState} {b : Bool} (w : WF s) (h : s.openAndDiff e = Res.ok (s', b)) :
    Reads s s' (fun t => t.models.getD [] = []) := by
  unfold MLState.openAndDiff at h
  split at h
  · cases h
  · rename_i i hi
    obtain ⟨⟨t, ok⟩, h1, h⟩ := Res.bind_eq_ok.1 h
    refine ⟨s.clear, t, e, _, ok, keep_clear s, clear_models s, h1, ?_⟩
    obtain ⟨wt, _, _, r, hr, hh, hf, ht⟩ := parseDiffOutput_spec (w.keep (keep_clear s)) h1
    dsimp only at h
    split at h
    · cases h; exact keep_emit _ _
    · rename_i hok
      obtain ⟨ms, m, d, _, ho, ha, _⟩ := ht (by simpa using hok)
      obtain ⟨u, hu, ou, wu, ku, su, _⟩ := setDepth_ok ho wt ⟨0, 0, m, d, ha⟩
      rw [hu, Res.bind_ok] at h
      obtain ⟨v, b', hv, ov, wv, kv, sv, _⟩ := blendOriginal_ok e ou wu i.localSource su
      rw [hv, Res.bind_ok] at h
      dsimp only at h
      split at h
      · cases h; exact (ku.trans kv).trans (keep_emit _ _)
      · obtain ⟨x, hx, h⟩ := Res.bind_eq_ok.1 h
        cases h
        exact (ku.trans kv).trans ((keep_updateActions hx).trans (keep_show x))

theorem keep_compareMode {e : Env} {s : MLState} {mode : Mode} {r : MLState × Bool} (h : s.compareMode e mode = Res.ok r) :
    Keep s r.1 ∧ r.1.models.getD [] = [] := by
  unfold MLState.compareMode at h
  dsimp only at h
  split at h
  · cases h
  · obtain ⟨x, _, h⟩ := Res.bind_eq_ok.1 h
    cases h
    exact ⟨((keep_clear s).process _).trans (keep_emit _ _), clear_models s⟩

theorem reads_info {s s' : MLState} {i : Option Info} {P : MLState → Prop} (h : Reads { s with info := i } s' P) : Reads s s' P := by
  obtain ⟨t, u, e, text, b, k, p, q, k'⟩ := h
  exact ⟨t, u, e, text, b, k.info', p, q, k'⟩

theorem reads_compare {e : Env} {s : MLState} {r : MLState × Bool} (w : WF s) (h : s.compare e = Res.ok r) :
    (Keep s r.1 ∧ r.1.models.getD [] = []) ∨ (Reads s r.1 (fun t => t.models.getD [] = []) ∧
      ∃ i, r.1.info = some i ∧ i.mode ≠ .ComparingFiles ∧ i.mode ≠ .ComparingDirs) := by
  unfold MLState.compare at h
  obtain ⟨s', b⟩ := r
  split at h
  · cases h
  · dsimp only at h
    have c : ∀ {i : Option Info} {m : Mode}, MLState.compareMode e { s with info := i } m = Res.ok (s', b) →
        (Keep s s' ∧ s'.models.getD [] = []) ∨ (Reads s s' (fun t => t.models.getD [] = []) ∧
          ∃ i, s'.info = some i ∧ i.mode ≠ .ComparingFiles ∧ i.mode ≠ .ComparingDirs) :=
      fun h => Or.inl ⟨(keep_compareMode h).1.info', (keep_compareMode h).2⟩
    have o : ∀ {i : Info}, i.mode ≠ .ComparingFiles ∧ i.mode ≠ .ComparingDirs → MLState.openAndDiff e { s with info := some i } = Res.ok (s', b) →
        (Keep s s' ∧ s'.models.getD [] = []) ∨ (Reads s s' (fun t => t.models.getD [] = []) ∧
          ∃ i, s'.info = some i ∧ i.mode ≠ .ComparingFiles ∧ i.mode ≠ .ComparingDirs) := by
      intro i hm h
      obtain ⟨⟨i0, i', h0, h1, h2⟩, _⟩ := openAndDiff_info h
      have h0 := Option.some.inj h0
      subst h0
      have hmode : i'.mode = i.mode := by unfold Info.SameOperands at h2; rw [← h2]
      exact Or.inr ⟨reads_info (reads_openAndDiff (w.info _) h), i', h1, by rw [hmode]; exact hm⟩
    split at h
    · exact c h
    · split at h
      · split at h
        · exact o (by simp) h
        · split at h
          · exact o (by simp [Info.swap]) h
          · exact c h
      · split at h
        · exact o (by simp) h
        · exact o (by simp [Info.swap]) h

theorem reads_finished {e : Env} {s s' : MLState} {r : ProcessResult} (w : WF s) (h : s.slotDiffProcessFinished e r = Res.ok s') :
    (r.finishedNormally = false ∧ Keep s s') ∨ (r.finishedNormally = true ∧ Reads s s' (fun t => t.models = s.models)) := by
  unfold MLState.slotDiffProcessFinished at h
  dsimp only at h
  split at h
  · rename_i hfn
    refine Or.inr ⟨hfn, ?_⟩
    obtain ⟨⟨u, ok⟩, hp, h⟩ := Res.bind_eq_ok.1 h
    refine ⟨s.emit (.status .Parsing), u, e, _, ok, keep_emit _ _, rfl, hp, ?_⟩
    obtain ⟨wu, _, _, pr, hr, hh, hf, ht⟩ := parseDiffOutput_spec (w.keep (keep_emit s (.status .Parsing))) hp
    dsimp only at h
    split at h
    · cases h
      exact ((keep_emit _ _).trans (keep_emit _ _)).process _
    · rename_i hok
      obtain ⟨ms, m, d, _, ho, ha, _⟩ := ht (by simpa using hok)
      split at h
      · cases h
      · rename_i i hi
        split at h
        · obtain ⟨v, b', hv, ov, wv, kv, sv, _⟩ := blendOriginal_ok e ho wu i.localSource ⟨0, 0, m, d, ha⟩
          rw [hv] at h
          simp only [Res.bind_ok] at h
          obtain ⟨x, hx, h⟩ := Res.bind_eq_ok.1 h
          cases h
          exact (kv.trans (((keep_updateActions hx).trans (keep_show x)).trans (keep_emit _ _))).process _
        · simp only [Res.bind_ok] at h
          obtain ⟨x, hx, h⟩ := Res.bind_eq_ok.1 h
          cases h
          exact (((keep_updateActions hx).trans (keep_show x)).trans (keep_emit _ _)).process _
  · rename_i hfn
    have hfn' : r.finishedNormally = false := by simpa using hfn
    split at h
    · cases h; exact Or.inl ⟨hfn', (keep_emit _ _).process _⟩
    · cases h; exact Or.inl ⟨hfn', (keep_emit _ _).process _⟩

theorem keep_saveDiff {e : Env} {t : Bool} {u d : Str} {st : Option Settings} {s : MLState} {x : MLState × Bool}
    (h1 : s.saveDiff e t u d st = Res.ok x) : Keep s x.1 ∧ x.1.models = s.models := by
  unfold MLState.saveDiff at h1
  dsimp only at h1
  split at h1
  · cases h1; exact ⟨⟨rfl, rfl, rfl, Nat.le_refl _, fun _ => rfl, .refl _, fun _ h => h⟩, rfl⟩
  · split at h1
    · cases h1
    · obtain ⟨y, _, h1⟩ := Res.bind_eq_ok.1 h1
      cases h1; exact ⟨⟨rfl, rfl, rfl, Nat.le_refl _, fun _ => rfl, .refl _, fun _ h => h⟩, rfl⟩

theorem keep_written {c : Bool} {r : ProcessResult} {s s' : MLState} (h : s.slotWriteDiffOutput c r = Res.ok s') : Keep s s' := by
  simp only [MLState.slotWriteDiffOutput] at h
  split at h
  · cases h
  · cases h
    split
    · split <;> exact ⟨rfl, rfl, rfl, Nat.le_refl _, fun _ => rfl, .refl _, fun _ h => h⟩
    · exact ⟨rfl, rfl, rfl, Nat.le_refl _, fun _ => rfl, .refl _, fun _ h => h⟩

/-- What a call does to the objects: nothing; or it empties the list, reads a diff and installs its models; or the output of a comparison
is read. -/
theorem op_reads {op : MLOp} {s s' : MLState} (w : WF s) (h : op.run s = Res.ok s') :
    Keep s s' ∨ (¬ Finishes op ∧ Reads s s' (fun t => t.models.getD [] = [])) ∨ (Finishes op ∧ Reads s s' (fun t => t.models = s.models)) := by
  cases op with
  | user o => exact Or.inl (keep_user h)
  | select m d => exact Or.inl (keep_slotSelectionChanged h)
  | selectDiff d => exact Or.inl (keep_slotDiffSelectionChanged h)
  | openDiff e f =>
    obtain ⟨⟨t, b⟩, h1, h⟩ := Res.bind_eq_ok.1 h; cases h
    unfold MLState.openDiff at h1
    split at h1
    · cases h1; exact Or.inl (.refl _)
    · exact Or.inr (Or.inl ⟨id, reads_parseAndOpenDiff (e := e) (text := e.contents f) w h1⟩)
  | parseAndOpenDiff e f =>
    obtain ⟨⟨t, b⟩, h1, h⟩ := Res.bind_eq_ok.1 h; cases h
    exact Or.inr (Or.inl ⟨id, reads_parseAndOpenDiff w h1⟩)
  | openFileAndDiff e =>
    obtain ⟨⟨t, b⟩, h1, h⟩ := Res.bind_eq_ok.1 h; cases h
    exact Or.inr (Or.inl ⟨id, reads_openAndDiff w h1⟩)
  | compare e =>
    obtain ⟨t, h1, h⟩ := Res.bind_eq_ok.1 h; cases h
    rcases reads_compare w h1 with k | k
    · exact Or.inl k.1
    · exact Or.inr (Or.inl ⟨id, k.1⟩)
  | refresh e =>
    simp only [MLOp.run, MLState.refresh] at h
    split at h
    · cases h
    · obtain ⟨t, h1, h⟩ := Res.bind_eq_ok.1 h; cases h; exact Or.inl (keep_compareMode h1).1
  | swap e =>
    simp only [MLOp.run, MLState.swap] at h
    split at h
    · cases h
    · split at h
      · obtain ⟨t, h1, h⟩ := Res.bind_eq_ok.1 h; cases h; exact Or.inl (keep_compareMode h1).1
      · cases h; exact Or.inl (.refl _)
  | diffFinished e r =>
    rcases reads_finished w h with k | k
    · exact Or.inl k.2
    · exact Or.inr (Or.inr ⟨trivial, k.2⟩)
  | setInfo i => cases h; exact Or.inl ((Keep.refl s).info i)
  | saveDiff e t u d st =>
    obtain ⟨x, h1, h⟩ := Res.bind_eq_ok.1 h
    cases h
    exact Or.inl (keep_saveDiff h1).1
  | diffWritten c r => exact Or.inl (keep_written h)

/-! ### Nothing is destroyed twice -/

/-- Every object has at most one owner and none is destroyed that is still in the list. -/
structure Owned (s : MLState) : Prop where
  wf : WF s
  dead : s.dead.Nodup
  deadDiffs : s.deadDiffs.Nodup
  models : (s.models.getD []).Nodup
  live : ∀ m ∈ s.models.getD [], m ∉ s.dead
  diffs : ((s.models.getD []).flatMap (fun m => (s.store m).differences)).Nodup
  liveDiffs : ∀ m ∈ s.models.getD [], ∀ d ∈ (s.store m).differences, d ∉ s.deadDiffs

theorem flatMap_sublist {α β} (f : α → List β) {l l' : List α} (h : l.Sublist l') : (l.flatMap f).Sublist (l'.flatMap f) := by
  induction h with
  | slnil => exact .refl _
  | cons a _ ih => rw [List.flatMap_cons]; exact ih.trans (List.sublist_append_right _ _)
  | cons_cons a _ ih => rw [List.flatMap_cons, List.flatMap_cons]; exact List.Sublist.append (.refl _) ih

theorem Owned.keep {s s' : MLState} (o : Owned s) (k : Keep s s') : Owned s' := by
  refine ⟨o.wf.keep k, by rw [k.dead]; exact o.dead, by rw [k.deadDiffs]; exact o.deadDiffs, o.models.sublist k.models, ?_, ?_, ?_⟩
  · intro m hm; rw [k.dead]; exact o.live m (k.models.subset hm)
  · have : (fun m => (s'.store m).differences) = (fun m => (s.store m).differences) := funext k.differences
    rw [this]
    exact o.diffs.sublist (flatMap_sublist _ k.models)
  · intro m hm d hd; rw [k.deadDiffs]; rw [k.differences] at hd; exact o.liveDiffs m (k.models.subset hm) d hd

theorem Owned.parse {e : Env} {s s' : MLState} {text : Str} {b : Bool} (o : Owned s) (h : s.parseDiffOutput e text = Res.ok (s', b)) : Owned s' := by
  obtain ⟨hd, hdd, _⟩ := parseDiffOutput_dead h
  obtain ⟨wt, _, _, r, hr, hh, hf, ht⟩ := parseDiffOutput_spec o.wf h
  have n1 : s'.dead.Nodup := by
    rw [hd, List.nodup_append]
    exact ⟨o.dead, o.models, fun a ha b hb e => o.live b hb (e ▸ ha)⟩
  have n2 : s'.deadDiffs.Nodup := by
    rw [hdd, List.nodup_append]
    refine ⟨o.deadDiffs, o.diffs, fun a ha b hb e => ?_⟩
    obtain ⟨m, hm, hb⟩ := List.mem_flatMap.1 hb
    exact o.liveDiffs m hm b hb (e ▸ ha)
  cases b with
  | false =>
    have hm := (hf rfl).2.1
    refine ⟨wt, n1, n2, ?_, ?_, ?_, ?_⟩ <;> rw [hm] <;> simp
  | true =>
    obtain ⟨ms, m, d, _, ho, _⟩ := ht rfl
    have hm : s'.models.getD [] = List.range' s.nextModel ms.length := by rw [ho.models]; rfl
    refine ⟨wt, n1, n2, ?_, ?_, ?_, ?_⟩ <;> rw [hm]
    · exact ho.nodup
    · exact ho.live
    · exact ho.disjoint
    · exact ho.liveDiffs

theorem Owned.reads {s s' : MLState} {P : MLState → Prop} (o : Owned s) (h : Reads s s' P) : Owned s' := by
  obtain ⟨t, u, e, text, b, k, _, q, k'⟩ := h
  exact ((o.keep k).parse q).keep k'

theorem owned_op {op : MLOp} {s s' : MLState} (o : Owned s) (h : op.run s = Res.ok s') : Owned s' := by
  rcases op_reads o.wf h with k | ⟨_, k⟩ | ⟨_, k⟩
  · exact o.keep k
  · exact o.reads k
  · exact o.reads k

theorem owned_init (settings : Option Settings) (rw : Bool) (h : Heap) : Owned (MLState.init settings rw h) :=
  ⟨wf_init settings rw h, List.nodup_nil, List.nodup_nil, List.nodup_nil, fun _ hm => (by cases hm), List.nodup_nil, fun _ hm => (by cases hm)⟩

theorem owned_session {ops : List MLOp} {s s' : MLState} (w : Owned s) (h : runSession ops s = Res.ok s') : Owned s' := by
  induction ops generalizing s with
  | nil => cases h; exact w
  | cons op ops ih =>
    obtain ⟨t, h1, h2⟩ := Res.bind_eq_ok.1 h
    exact ih (owned_op w h1) h2

theorem Reachable.owned {s : MLState} (h : Reachable s) : Owned s := by
  obtain ⟨settings, rw, heap, ops, h⟩ := h
  exact owned_session (owned_init settings rw heap) h

/-! ### What is lost -/

/-- The model is neither in the list nor destroyed. -/
structure Lost (m : Nat) (s : MLState) : Prop where
  old : m < s.nextModel
  dead : m ∉ s.dead
  models : m ∉ s.models.getD []

theorem Lost.keep {m : Nat} {s s' : MLState} (l : Lost m s) (k : Keep s s') : Lost m s' :=
  ⟨by rw [k.nextModel]; exact l.old, by rw [k.dead]; exact l.dead, fun h => l.models (k.models.subset h)⟩

theorem Lost.parse {m : Nat} {e : Env} {s s' : MLState} {text : Str} {b : Bool} (l : Lost m s) (h : s.parseDiffOutput e text = Res.ok (s', b)) :
    Lost m s' := by
  obtain ⟨h1, h2⟩ := parseDiffOutput_next h
  refine ⟨Nat.lt_of_lt_of_le l.old h1, ?_, fun hm => absurd (h2 m hm) (Nat.not_le_of_lt l.old)⟩
  rw [(parseDiffOutput_dead h).1]
  intro hm
  rcases List.mem_append.1 hm with q | q
  · exact l.dead q
  · exact l.models q

theorem Lost.reads {m : Nat} {s s' : MLState} {P : MLState → Prop} (o : Lost m s) (h : Reads s s' P) : Lost m s' := by
  obtain ⟨t, u, e, text, b, k, _, q, k'⟩ := h
  exact ((o.keep k).parse q).keep k'

theorem lost_op {m : Nat} {op : MLOp} {s s' : MLState} (w : WF s) (l : Lost m s) (h : op.run s = Res.ok s') : Lost m s' := by
  rcases op_reads w h with k | ⟨_, k⟩ | ⟨_, k⟩
  · exact l.keep k
  · exact l.reads k
  · exact l.reads k

theorem lost_session {m : Nat} {ops : List MLOp} {s s' : MLState} (w : WF s) (l : Lost m s) (h : runSession ops s = Res.ok s') : Lost m s' := by
  induction ops generalizing s with
  | nil => cases h; exact l
  | cons op ops ih =>
    obtain ⟨t, h1, h2⟩ := Res.bind_eq_ok.1 h
    exact ih (wf_op w h1) (lost_op w l h1) h2

/-- A model is lost when the list is emptied. -/
theorem Owned.lost {s s' : MLState} (o : Owned s) (k : Keep s s') (he : s'.models.getD [] = []) {m : Nat} (hm : m ∈ s.models.getD []) : Lost m s' :=
  ⟨by rw [k.nextModel]; exact o.wf.models m hm, by rw [k.dead]; exact o.live m hm, by rw [he]; simp⟩

theorem Owned.lost_reads {s s' : MLState} (o : Owned s) (h : Reads s s' (fun t => t.models.getD [] = [])) {m : Nat}
    (hm : m ∈ s.models.getD []) : Lost m s' := by
  obtain ⟨t, u, e, text, b, k, p, q, k'⟩ := h
  exact ((o.lost k p hm).parse q).keep k'

end KompareDiff2
