import Verif.Spec.Location
import Verif.Proofs.Disk
import Verif.Props.Reprint
/-
Directories and file names of the models in a list.
-/
namespace KompareDiff2
open Spec

theorem paths_of_head {m m' : DModel} (h : m.head = m'.head) (p : m'.PathsFit) : m.PathsFit := by
  unfold DModel.head at h
  simp only [Prod.mk.injEq] at h
  unfold DModel.PathsFit
  rw [h.1, h.2.1, h.2.2.2.2.2.2.1, h.2.2.2.2.2.2.2.1, h.2.2.2.2.2.2.2.2.1, h.2.2.2.2.2.2.2.2.2]
  exact p

theorem parse_paths {win : Bool} {cmp : Str → Str → Int} {heap : Heap} {lines : List Str} {r : ParseResult} {xs : List DModel}
    (h : parse win cmp heap lines = Res.ok r) (hx : r.models = some xs) : ∀ x ∈ xs, x.PathsFit :=
  fun x hm => (((parse_models h).2 xs hx).2.each x hm).1.paths

/-- The models of the list carry the names, directories and file names that were parsed. -/
structure Heads (s1 : MLState) (n : Nat) (xs : List DModel) : Prop where
  models : s1.models = some (List.range' n xs.length)
  head : ∀ (k : Nat) (x : DModel), xs[k]? = some x → (s1.store (n + k)).head = x.head

theorem Heads.paths {s1 : MLState} {n : Nat} {xs : List DModel} (h : Heads s1 n xs) (p : ∀ x ∈ xs, x.PathsFit) :
    ∀ m ∈ s1.models.getD [], (s1.store m).PathsFit := by
  intro m hm
  rw [h.models] at hm
  simp only [Option.getD_some, List.mem_range'_1] at hm
  obtain ⟨k, rfl⟩ := Nat.exists_eq_add_of_le hm.1
  have hk : k < xs.length := by omega
  exact paths_of_head (h.head k _ (List.getElem?_eq_getElem hk)) (p _ (List.getElem_mem hk))

theorem heads_finished {e : Env} {s s1 : MLState} {q : ProcessResult} (hs : Reachable s) (hq : q.finishedNormally = true)
    (h : s.slotDiffProcessFinished e q = Res.ok s1) (hm : s1.models ≠ none) :
    ∃ r xs, parse e.win e.cmp s.heap (split q.stdout) = Res.ok r ∧ r.models = some xs ∧ Heads s1 s.nextModel xs := by
  unfold MLState.slotDiffProcessFinished at h
  dsimp only at h
  rw [if_pos hq] at h
  obtain ⟨⟨t, ok⟩, h1, h⟩ := Res.bind_eq_ok.1 h
  obtain ⟨wt, _, _, r', hr', hh, hf, _⟩ := parseDiffOutput_spec (hs.wf.keep (keep_emit s _)) h1
  cases ok with
  | false =>
    obtain ⟨_, g, _⟩ := hf rfl
    obtain ⟨w2, hw2, h⟩ := Res.bind_eq_ok.1 h
    cases hw2
    cases h
    exact absurd g hm
  | true =>
    obtain ⟨r2, xs, m, d, hr2, hx', _, hh', ho, ha, hst⟩ := text_parsed (hs.wf.keep (keep_emit s _)) h1
    refine ⟨r2, xs, hr2, hx', ?_⟩
    simp only [Bool.true_eq_false, if_false] at h
    split at h
    · cases h
    · rename_i i hi
      split at h
      · obtain ⟨⟨v, b⟩, hv, h⟩ := Res.bind_eq_ok.1 h
        obtain ⟨v0, hv0, h⟩ := Res.bind_eq_ok.1 h
        cases hv0
        obtain ⟨v', b', hv', ov, wv, kv, _⟩ := blendOriginal_ok e ho wt i.localSource ⟨0, 0, m, d, ha⟩
        have e1 := Res.ok.inj (hv.symm.trans hv')
        cases e1
        have nv := prints_blendOriginal hv
        dsimp only at h nv
        obtain ⟨w, hw, h⟩ := Res.bind_eq_ok.1 h
        obtain ⟨w1, hw1, h⟩ := Res.bind_eq_ok.1 h
        cases hw1
        obtain ⟨w2, hw2, h⟩ := Res.bind_eq_ok.1 h
        cases hw2
        cases h
        obtain ⟨a1, a2, a3⟩ := named_update hw
        refine ⟨a3.trans ov.models, fun k x hk => ?_⟩
        show (w.store _).head = _
        rw [a1]
        exact (nv.head _).trans (hst k x hk).2
      · obtain ⟨v0, hv0, h⟩ := Res.bind_eq_ok.1 h
        cases hv0
        obtain ⟨w, hw, h⟩ := Res.bind_eq_ok.1 h
        obtain ⟨w1, hw1, h⟩ := Res.bind_eq_ok.1 h
        cases hw1
        obtain ⟨w2, hw2, h⟩ := Res.bind_eq_ok.1 h
        cases hw2
        cases h
        obtain ⟨a1, a2, a3⟩ := named_update hw
        refine ⟨a3.trans ho.models, fun k x hk => ?_⟩
        show (w.store _).head = _
        rw [a1]
        exact (hst k x hk).2

theorem heads_text {e : Env} {s s1 : MLState} {text : Str} (hs : Reachable s) (h : s.parseAndOpenDiff e text = Res.ok (s1, true)) :
    ∃ r xs, parse e.win e.cmp s.heap (split text) = Res.ok r ∧ r.models = some xs ∧ Heads s1 s.nextModel xs := by
  unfold MLState.parseAndOpenDiff at h
  obtain ⟨⟨t, ok⟩, h1, h⟩ := Res.bind_eq_ok.1 h
  dsimp only at h
  split at h
  · cases h
  · rename_i hok
    have hok : ok = true := by simpa using hok
    subst hok
    obtain ⟨r, xs, m, d, hr, hx, wt, hh, ho, ha, hst⟩ := text_parsed ((hs.wf.keep (keep_clear s)).keep (keep_emit _ _)) h1
    obtain ⟨w, hw, h⟩ := Res.bind_eq_ok.1 h
    cases h
    obtain ⟨a1, a2, a3⟩ := named_update hw
    refine ⟨r, xs, hr, hx, a3.trans ho.models, fun k x hk => ?_⟩
    show (w.store _).head = _
    rw [a1]
    exact (hst k x hk).2

theorem opens_paths {s s1 : MLState} {op : MLOp} (hs : Reachable s) (ho : OpensDiff op s s1) (hn : TakesNames op) :
    ∀ m ∈ s1.models.getD [], (s1.store m).PathsFit := by
  cases op with
  | openDiff e f =>
    have h : s.openDiff e f = Res.ok (s1, true) := ho
    unfold MLState.openDiff at h
    split at h
    · cases h
    · obtain ⟨r, xs, hr, hx, hh⟩ := heads_text (e := e) (text := e.contents f) hs h
      exact hh.paths (parse_paths hr hx)
  | parseAndOpenDiff e t =>
    obtain ⟨r, xs, hr, hx, hh⟩ := heads_text hs ho
    exact hh.paths (parse_paths hr hx)
  | diffFinished e q =>
    obtain ⟨h1, h2, h3⟩ := ho
    obtain ⟨r, xs, hr, hx, hh⟩ := heads_finished hs h2 h1 h3
    exact hh.paths (parse_paths hr hx)
  | _ => exact absurd hn id

/-- If the name is in the directory, the directory is cut off. -/
theorem under_target {i : Info} {m : DModel} (hmode : i.mode = .ComparingDirs) (p : m.PathsFit) {rest : Str} (h : Under i.localDestination m.destination rest) :
    saveTarget i m = i.destination ++ rest := by
  obtain ⟨_, q1, q2, _⟩ := p
  obtain ⟨e, hd⟩ := h
  rw [e] at q1
  have hp : i.localDestination <+: m.destinationPath := by
    by_cases hl : i.localDestination.length ≤ m.destinationPath.length
    · exact List.prefix_of_prefix_length_le ⟨_, rfl⟩ ⟨_, q1⟩ hl
    · exfalso
      obtain ⟨x, hx⟩ : m.destinationPath <+: i.localDestination := List.prefix_of_prefix_length_le ⟨_, q1⟩ ⟨_, rfl⟩ (by omega)
      rw [← hx, List.append_assoc] at q1
      have q3 := List.append_cancel_left q1
      have hxne : x ≠ [] := by
        rintro rfl
        rw [List.append_nil] at hx
        rw [hx] at hl
        omega
      rw [q3] at q2
      rcases hd with hd | hd | hd
      · rw [hd] at hl; simp at hl
      · rw [← hx, List.getLast?_append, List.getLast?_eq_some_getLast hxne, Option.some_or] at hd
        exact q2 (List.mem_append_left _ (by rw [← Option.some.inj hd]; exact List.getLast_mem hxne))
      · exact q2 (List.mem_append_right _ hd)
  unfold saveTarget MLState.saveDir
  rw [if_pos hmode, if_pos (List.isPrefixOf_iff_prefix.2 hp)]
  obtain ⟨y, hy⟩ := hp
  rw [← hy, List.append_assoc] at q1
  have q3 := List.append_cancel_left q1
  rw [← hy, List.drop_left, List.append_assoc, q3]

/-! ### Stripped names -/

/-- The model after `setDepthAndApplied`, as far as its names go. -/
def stripNames (depth : Nat) (m : DModel) : DModel :=
  (m.setSourceFile (lstripSeparators m.source depth)).setDestinationFile (lstripSeparators m.destination depth)

theorem head_setNames {m m' : DModel} (h : m.head = m'.head) (a b : Str) :
    ((m.setSourceFile a).setDestinationFile b).head = ((m'.setSourceFile a).setDestinationFile b).head := by
  unfold DModel.head at h
  simp only [Prod.mk.injEq] at h
  unfold DModel.head DModel.setSourceFile DModel.setDestinationFile
  simp only [h.2.2.1, h.2.2.2.1, h.2.2.2.2.1, h.2.2.2.2.2.1, h.2.2.2.2.2.2.1, h.2.2.2.2.2.2.2.2.1]

theorem strip_congr {m m' : DModel} (h : m.head = m'.head) (depth : Nat) : (stripNames depth m).head = (stripNames depth m').head := by
  have q := h
  unfold DModel.head at q
  simp only [Prod.mk.injEq] at q
  unfold stripNames
  rw [q.1, q.2.1]
  exact head_setNames h _ _

theorem depth_head (i : Info) (s : MLState) (m x : Nat) :
    ((MLState.depthAndApplied i s m).store x).head = if x = m then (stripNames i.depth (s.store x)).head else (s.store x).head := by
  have hop : (MOp.applyAll i.applied).run (stripNames i.depth (s.store m), s.heap) =
      Res.ok ((stripNames i.depth (s.store m)).applyAllDifferences s.heap i.applied) := rfl
  have hh := head_op hop
  show (if x = m then ((stripNames i.depth (s.store m)).applyAllDifferences s.heap i.applied).1 else s.store x).head = _
  split
  · rename_i q; subst q; exact hh
  · rfl

theorem depth_heads (i : Info) (l : List Nat) (s : MLState) (hn : l.Nodup) (x : Nat) :
    ((l.foldl (MLState.depthAndApplied i) s).store x).head = if x ∈ l then (stripNames i.depth (s.store x)).head else (s.store x).head := by
  induction l generalizing s with
  | nil => simp
  | cons m l ih =>
    rw [List.foldl_cons, ih _ (List.nodup_cons.1 hn).2]
    have hml := (List.nodup_cons.1 hn).1
    by_cases q : x = m
    · subst q
      rw [if_neg hml, if_pos (by simp), depth_head, if_pos rfl]
    · have := depth_head i s m x
      rw [if_neg q] at this
      by_cases hx : x ∈ l
      · rw [if_pos hx, if_pos (by simp [hx])]
        exact strip_congr this _
      · rw [if_neg hx, if_neg (by simp [hx, q])]
        exact this

theorem heads_patch {e : Env} {s s1 : MLState} {i : Info} (hs : Reachable s) (hi : s.info = some i) (h : s.openAndDiff e = Res.ok (s1, true)) :
    ∃ r xs, parse e.win e.cmp s.heap (split (e.contents i.localDestination)) = Res.ok r ∧ r.models = some xs ∧
      Heads s1 s.nextModel (xs.map (stripNames i.depth)) := by
  unfold MLState.openAndDiff at h
  rw [hi] at h
  obtain ⟨⟨t, ok⟩, h1, h⟩ := Res.bind_eq_ok.1 h
  obtain ⟨_, ⟨j, i', hj, hi', hso⟩, _⟩ := parseDiffOutput_events h1
  have hj : s.info = some j := hj
  have hij : j = i := Option.some.inj (hj.symm.trans hi)
  subst hij
  have hdp : i'.depth = j.depth := by
    unfold Info.SameOperands at hso
    have q := congrArg Info.depth hso
    exact q
  dsimp only at h
  split at h
  · cases h
  · rename_i hok
    have hok : ok = true := by simpa using hok
    subst hok
    obtain ⟨r, xs, m, d, hr, hx, wt, hh, ho, ha, hst⟩ := text_parsed (hs.wf.keep (keep_clear s)) h1
    obtain ⟨u, hu, ou, wu, ku, su, iu, _⟩ := setDepth_ready ho wt ⟨0, 0, m, d, ha⟩ hi'
    rw [hu, Res.bind_ok] at h
    unfold MLState.setDepthAndApplied at hu
    rw [ho.list, Res.bind_ok, hi'] at hu
    simp only [Res.ok.injEq] at hu
    obtain ⟨⟨v, b⟩, hv, h⟩ := Res.bind_eq_ok.1 h
    have nv := prints_blendOriginal hv
    obtain ⟨v', b', hv', ov, wv, kv, _⟩ := blendOriginal_ok e ou wu j.localSource su
    have e1 := Res.ok.inj (hv.symm.trans hv')
    cases e1
    dsimp only at h nv
    split at h
    · cases h
    · obtain ⟨w, hw, h⟩ := Res.bind_eq_ok.1 h
      cases h
      obtain ⟨a1, a2, a3⟩ := named_update hw
      refine ⟨r, xs, hr, hx, ?_, ?_⟩
      · rw [List.length_map]
        exact a3.trans ov.models
      · intro k x hk
        rw [List.getElem?_map] at hk
        cases hxk : xs[k]? with
        | none => rw [hxk] at hk; cases hk
        | some y =>
          rw [hxk] at hk
          cases hk
          have hmem : s.nextModel + k ∈ List.range' s.clear.nextModel xs.length := by
            have : k < xs.length := (List.getElem?_eq_some_iff.1 hxk).1
            have : s.clear.nextModel = s.nextModel := rfl
            simp only [List.mem_range'_1]
            omega
          show (w.store _).head = _
          rw [a1, nv.head, ← hu, depth_heads _ _ _ ho.nodup, if_pos hmem, hdp]
          exact strip_congr (hst k y hxk).2 _

/-- The stale directory: stripping gives the right directory exactly if a slash is left in the name or there was none. -/
theorem splitPath_fits {old f name : Str} (p : SplitOf name old f) (a : Str) :
    SplitOf a (splitPath old a).1 (splitPath old a).2 ↔ ('/' ∈ a ∨ '/' ∉ name) := by
  by_cases h : '/' ∈ a
  · simp only [h, true_or, iff_true]
    cases hl : lastIndexOf '/' a with
    | none => exact absurd h (lastIndexOf_none.1 hl)
    | some i =>
      obtain ⟨x, b, rfl, _, hb⟩ := lastIndexOf_some hl
      rw [splitPath_slash _ _ _ hb]
      exact ⟨by simp, hb, by simp⟩
  · rw [splitPath_noslash _ _ h]
    simp only [h, false_or]
    obtain ⟨p1, p2, p3⟩ := p
    constructor
    · rintro ⟨q, _⟩ hn
      have : old = [] := by
        have := congrArg List.length q
        rw [List.length_append] at this
        exact List.length_eq_zero_iff.1 (by omega)
      subst this
      rw [← p1] at hn
      exact p2 hn
    · intro hn
      have : old = [] := by
        rcases p3 with p3 | p3
        · exact p3
        · exfalso
          apply hn
          rw [← p1]
          exact List.mem_append_left _ (List.mem_of_getLast? p3)
      subst this
      exact ⟨rfl, h, .inl rfl⟩

/-! ### Saving all models -/

theorem saveLoop_saved (v : Nat → MLState.SaveRun) (t : Nat → Nat) (i : Info) (l : List Nat) : ∀ (s : MLState), s.info = some i → Independent s i t l →
    (∀ m ∈ l, (v m).toSaveEnv.failure i.mode = none) →
    ∃ steps, MLState.saveLoopSteps v t l s = Res.ok steps ∧ ∀ d : Disk,
      (∀ m ∈ l, (s.store m).hasUnsavedChanges s.heap = true → (d.run steps).file (saveTarget i (s.store m)) = some ((s.store m).savedText s.heap)) ∧
      (∀ u, (∀ m ∈ l, (s.store m).hasUnsavedChanges s.heap = true → saveTarget i (s.store m) ≠ u) → (d.run steps).file u = d.file u) := by
  induction l with
  | nil => exact fun s _ _ _ => ⟨[], rfl, fun d => ⟨by simp, fun _ _ => rfl⟩⟩
  | cons m l ih =>
    intro s hi ind hv
    have i2 := List.pairwise_cons.1 ind.targets
    have i3 := List.pairwise_cons.1 ind.temps
    have i4 := List.pairwise_cons.1 ind.diffs
    have hm := ind.live m (by simp)
    obtain ⟨st, hst, shape⟩ := saveSteps_shape (v := v m) (t := t m) hm hi
    obtain ⟨s', b, hs, e1, e2, e3, e4, e5, e6⟩ := saveDestination_step (v := (v m).toSaveEnv) hm hi
    have hf := hv m (by simp)
    have hb : b = true := by
      obtain ⟨h1, h2⟩ := C36_save (v := (v m).toSaveEnv) hm hi
      cases hu : (s.store m).hasUnsavedChanges s.heap with
      | false =>
        rw [h1 (by unfold DModel.hasUnsavedChanges at hu; simpa using hu)] at hs
        exact (congrArg Prod.snd (Res.ok.inj hs)).symm
      | true =>
        obtain ⟨hp, e, _⟩ := (h2 (by unfold DModel.hasUnsavedChanges at hu; simpa using hu)).2 hf
        rw [e] at hs
        exact (congrArg Prod.snd (Res.ok.inj hs)).symm
    subst hb
    obtain ⟨st', hst', hall⟩ := ih s' (by rw [e1]; exact hi)
      ⟨fun x hx => by rw [e2]; exact ind.live x (List.mem_cons_of_mem _ hx), by rw [e3]; exact i2.2, i3.2, by rw [e3]; exact i4.2⟩
      (fun x hx => hv x (List.mem_cons_of_mem _ hx))
    unfold MLState.saveLoopSteps
    rw [hst, Res.bind_ok, hs, Res.bind_ok, if_neg (by simp)]
    dsimp only
    rw [hst', Res.bind_ok]
    refine ⟨st ++ st', rfl, fun d => ?_⟩
    rw [Disk.run_append]
    obtain ⟨k1, k2⟩ := hall (d.run st)
    rw [e3] at k1 k2
    have j1 := (shape_interrupted shape (List.prefix_refl _) d).1
    have jend := shape_ended shape d
    constructor
    · intro x hx hu
      rcases List.mem_cons.1 hx with rfl | hx
      · rw [k2 _ (fun y hy _ => fun q => i2.1 y hy q.symm)]
        have er : saveResult (v x).toSaveEnv s i x = some none := by
          unfold saveResult
          rw [if_neg (by rw [hu]; simp), hf]
        rw [er] at jend
        exact jend.1
      · rw [k1 x hx (by rw [e5 x (i4.1 x hx)]; exact hu), e4]
    · intro u hu
      rw [k2 u (fun y hy hy' => hu y (List.mem_cons_of_mem _ hy) (by rw [← e5 y (i4.1 y hy)]; exact hy'))]
      cases hus : (s.store m).hasUnsavedChanges s.heap with
      | true => exact j1 u (fun q => hu m (by simp) hus q.symm)
      | false =>
        have er : saveResult (v m).toSaveEnv s i m = none := by unfold saveResult; rw [if_pos hus]
        rw [er] at jend
        rw [show d.run st = d from jend]

end KompareDiff2
