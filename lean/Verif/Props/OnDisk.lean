import Verif.Proofs.OnDisk
import Verif.Props.Location
/-
Property theorems C76: the files on the disk during a comparison.
-/
namespace KompareDiff2
open Spec

/-- **C76, comparing two files.** When the diff program has said how to get from the source to the destination, then, whatever the user does
afterwards (navigating, marking, saving with any failures), the destination file always has the source text with exactly those changes made
that were not marked when it was last saved; if nothing is unsaved, with the changes not marked now.  No other file is written. -/
theorem C76_files {e : Env} {s : MLState} {r : ProcessResult} {i : Info} (hs : Reachable s) (hi : s.info = some i) (hmode : i.mode = .ComparingFiles)
    (hr : r.finishedNormally = true) (D : UDiff) (hout : r.stdout = D.render.flatten) (ok : D.Ok) {f : UFile} (hf : D.files.filter UFile.changes = [f])
    (hd : e.isDir i.localSource = false) (hfile : e.isFile i.localSource = true) (new : Str)
    (hp : Patches 0 (f.hunks.map UHunk.edit) (split (e.contents i.localSource)) (split new)) :
    ∃ s1 m, s.slotDiffProcessFinished e r = Res.ok s1 ∧ s1.models = some [m] ∧
      KeepsFile s1 m i.destination (e.contents i.localSource) (split new) ∧
      ∀ ops : List UserOp, (∀ op ∈ ops, op.Ok s1) → ∃ s' log, runUser ops s1 = Res.ok s' ∧ s'.log = s1.log ++ log ∧
        ∀ u t, Event.upload u t ∈ log → u = i.destination := by
  have ho : ∀ x, original e i.localSource x = e.contents i.localSource := by
    intro x; unfold original; rw [hd]; rfl
  have hall : ∀ g ∈ D.files, g.changes = true → g = f := by
    intro g hg hc
    have : g ∈ D.files.filter UFile.changes := List.mem_filter.2 ⟨hg, hc⟩
    rw [hf] at this
    exact List.mem_singleton.1 this
  have hc : ∃ g ∈ D.files, g.changes = true := by
    have : f ∈ D.files.filter UFile.changes := by rw [hf]; exact List.mem_singleton.2 rfl
    exact ⟨f, (List.mem_filter.1 this).1, (List.mem_filter.1 this).2⟩
  obtain ⟨s1, ms, fs, h1, o, sel, ⟨i1, hi1, hso⟩, hfs, hlen, hst⟩ := compare_ready hs hi (by rw [hmode]; decide) hr D hout ok hc
    (.inr ⟨hd, hfile, by rw [hf]; rfl⟩) (fun _ => split new) (by
      intro g hg hc
      rw [hall g hg hc, ho]
      exact hp)
  rw [hf] at hfs
  have efs : fs = [f] := List.perm_singleton.1 hfs
  subst efs
  obtain ⟨m, rfl⟩ : ∃ m, ms = [m] := by
    cases ms with
    | nil => cases hlen
    | cons m l =>
      cases l with
      | nil => exact ⟨m, rfl⟩
      | cons _ _ => simp at hlen
  have hm1 : i1.mode = .ComparingFiles := by
    unfold Info.SameOperands at hso
    have q := congrArg Info.mode hso
    exact Eq.trans q hmode
  have hd1 : i1.destination = i.destination := by
    unfold Info.SameOperands at hso
    have q := congrArg Info.destination hso
    exact q
  have ht : ∀ x, saveTarget i1 (s1.store x) = i.destination := fun x => (C36_target_defect (by rw [hm1]; decide) (s1.store x) (s1.store x)).1.trans hd1
  obtain ⟨_, _, q3, q4⟩ := hst 0 m f rfl rfl
  refine ⟨s1, m, h1, o.models, ?_, fun ops hops => ?_⟩
  · have := ready_keeps o sel hi1 (fun x hx hne => absurd (List.mem_singleton.1 hx) hne) q4 q3
    rw [ho, ht] at this
    exact this
  · obtain ⟨s', h2, log, h3, h4⟩ := spares_run ops o sel hi1 hops
    exact ⟨s', log, h2, h3, fun u t q => by obtain ⟨x, _, e⟩ := h4 u t q; exact e.trans (ht x)⟩

theorem runUser_split (a b : List UserOp) : ∀ {s s' : MLState}, runUser (a ++ b) s = Res.ok s' → ∃ t, runUser a s = Res.ok t ∧ runUser b t = Res.ok s' := by
  induction a with
  | nil => intro s s' h; exact ⟨s, rfl, h⟩
  | cons op a ih =>
    intro s s' h
    obtain ⟨t, h1, h⟩ := Res.bind_eq_ok.mp h
    obtain ⟨u, h2, h3⟩ := ih h
    exact ⟨u, by simp only [runUser, h1, Res.bind_ok]; exact h2, h3⟩

/-- After "apply all" or "unapply all" of the selected model and a save without failure, its differences are all marked or unmarked, and
nothing of it is unsaved. -/
theorem all_saved {s s' : MLState} {m : Nat} {b : Bool} {i : Info} {v : MLState.SaveEnv} (hsel : s.selectedModel = some m) (hlive : m ∉ s.dead) (hi : s.info = some i)
    (hv : v.failure i.mode = none)
    (h : runUser [if b then .applyAll else .unapplyAll, .save v] s = Res.ok s') :
    ∀ d ∈ (s'.store m).differences, (s'.heap.cell d).applied = b ∧ (s'.heap.cell d).unsaved = false := by
  have h0 : ∃ t u, s.slotApplyAllDifferences b = Res.ok t ∧ t.updateActions = Res.ok u ∧ u.slotSaveDestination v = Res.ok s' := by
    cases b with
    | true =>
      obtain ⟨u, h1, h⟩ := Res.bind_eq_ok.mp h
      obtain ⟨w, h2, h⟩ := Res.bind_eq_ok.mp h
      obtain ⟨t, h3, h1⟩ := Res.bind_eq_ok.mp h1
      cases h
      exact ⟨t, u, h3, h1, h2⟩
    | false =>
      obtain ⟨u, h1, h⟩ := Res.bind_eq_ok.mp h
      obtain ⟨w, h2, h⟩ := Res.bind_eq_ok.mp h
      obtain ⟨t, h3, h1⟩ := Res.bind_eq_ok.mp h1
      cases h
      exact ⟨t, u, h3, h1, h2⟩
  obtain ⟨t, u, h1, h2, h3⟩ := h0
  unfold MLState.slotApplyAllDifferences at h1
  obtain ⟨m', hm', h1⟩ := Res.bind_eq_ok.mp h1
  have em : m' = m := by
    rw [hsel] at hm'
    unfold MLState.model at hm'
    dsimp only at hm'
    rw [if_neg hlive] at hm'
    exact (Res.ok.inj hm').symm
  subst em
  have ht : (∀ d ∈ (t.store m').differences, (t.heap.cell d).applied = b) ∧ t.selectedModel = some m' ∧ t.dead = s.dead ∧ t.info = some i := by
    rw [← Res.ok.inj h1]
    refine ⟨fun d hd => ?_, hsel, rfl, hi⟩
    have hd' : d ∈ (s.store m').differences := by simpa [MLState.emit, MLState.setModel, DModel.applyAllDifferences] using hd
    exact (applied_applyAllLoop b (s.store m').differences s.heap 0 d).trans (if_pos hd')
  have hu : u.store = t.store ∧ u.heap = t.heap ∧ u.selectedModel = t.selectedModel ∧ u.dead = t.dead ∧ u.info = t.info := by
    unfold MLState.updateActions at h2
    split at h2
    · obtain ⟨_, _, h2⟩ := Res.bind_eq_ok.mp h2
      obtain ⟨_, _, h2⟩ := Res.bind_eq_ok.mp h2
      obtain ⟨_, _, h2⟩ := Res.bind_eq_ok.mp h2
      obtain ⟨_, _, h2⟩ := Res.bind_eq_ok.mp h2
      rw [← Res.ok.inj h2]; exact ⟨rfl, rfl, rfl, rfl, rfl⟩
    · rw [← Res.ok.inj h2]; exact ⟨rfl, rfl, rfl, rfl, rfl⟩
  obtain ⟨t1, t2, t3, t4⟩ := ht
  obtain ⟨u1, u2, u3, u4, u5⟩ := hu
  unfold MLState.slotSaveDestination at h3
  rw [u3, t2] at h3
  obtain ⟨⟨w, ok⟩, h4, h3⟩ := Res.bind_eq_ok.mp h3
  have hw : s'.store = w.store ∧ s'.heap = w.heap := by
    rw [← Res.ok.inj h3]
    split <;> exact ⟨rfl, rfl⟩
  rw [hw.1, hw.2]
  obtain ⟨k1, k2⟩ := C36_save (v := v) (s := u) (m := m') (i := i) (by rw [u4, t3]; exact hlive) (u5.trans t4)
  by_cases hx : ∃ d ∈ (u.store m').differences, (u.heap.cell d).unsaved = true
  · obtain ⟨hp, q1, q2, _⟩ := (k2 hx).2 hv
    have e := q1.symm.trans h4
    simp only [Res.ok.injEq, Prod.mk.injEq] at e
    rw [← e.1]
    intro d hd
    have hd : d ∈ (u.store m').differences := hd
    refine ⟨?_, ?_⟩
    · show (hp.cell d).applied = b
      rw [q2 d hd]
      show (u.heap.cell d).applied = b
      rw [u2]
      exact t1 d (by rw [← u1]; exact hd)
    · show (hp.cell d).unsaved = false
      rw [q2 d hd]
  · have hx' : ∀ d ∈ (u.store m').differences, (u.heap.cell d).unsaved = false := by
      intro d hd
      cases q : (u.heap.cell d).unsaved with
      | false => rfl
      | true => exact absurd ⟨d, hd, q⟩ hx
    have e := (k1 hx').symm.trans h4
    simp only [Res.ok.injEq, Prod.mk.injEq] at e
    rw [← e.1]
    intro d hd
    refine ⟨?_, hx' d hd⟩
    rw [u2]
    exact t1 d (by rw [← u1]; exact hd)

/-- **C76, comparing again.** Two files were compared.  Whatever the user did since, after "apply all" and a save that does not fail the
destination file has the text of the source, and a diff program that compares them again finds them identical, which is what the user is told.
After "unapply all" and a save it has the text it had in the beginning. -/
theorem C76_again {e : Env} {s : MLState} {r : ProcessResult} {i : Info} (hs : Reachable s) (hi : s.info = some i) (hmode : i.mode = .ComparingFiles)
    (hr : r.finishedNormally = true) (D : UDiff) (hout : r.stdout = D.render.flatten) (ok : D.Ok) {f : UFile} (hf : D.files.filter UFile.changes = [f])
    (hd : e.isDir i.localSource = false) (hfile : e.isFile i.localSource = true) (new : Str)
    (hp : Patches 0 (f.hunks.map UHunk.edit) (split (e.contents i.localSource)) (split new)) :
    ∃ s1, s.slotDiffProcessFinished e r = Res.ok s1 ∧ ∀ ops : List UserOp, (∀ op ∈ ops, op.Ok s1) →
      ∀ v : MLState.SaveEnv, v.failure .ComparingFiles = none →
      (∃ s2 log, runUser (ops ++ [.applyAll, .save v]) s1 = Res.ok s2 ∧ s2.log = s1.log ++ log ∧
        fileAfter i.destination new log = e.contents i.localSource ∧ s2.hasUnsavedChanges = false ∧
        ∀ (e' : Env) (s3 s4 : MLState) (r' : ProcessResult), Honest r' (e.contents i.localSource) (fileAfter i.destination new log) → s3.slotDiffProcessFinished e' r' = Res.ok s4 →
          s4.log = s3.log ++ [.error .identical]) ∧
      (∃ s2 log, runUser (ops ++ [.unapplyAll, .save v]) s1 = Res.ok s2 ∧ s2.log = s1.log ++ log ∧ fileAfter i.destination new log = new ∧
        s2.hasUnsavedChanges = false) := by
  obtain ⟨s1, m, h1, hm, hk, _⟩ := C76_files hs hi hmode hr D hout ok hf hd hfile new hp
  refine ⟨s1, h1, fun ops hops v hv => ?_⟩
  have hopen : OpensDiff (.diffFinished e r) s s1 := ⟨h1, hr, by rw [hm]; simp⟩
  have key : ∀ b : Bool, ∃ s2 log, runUser (ops ++ [if b then .applyAll else .unapplyAll, .save v]) s1 = Res.ok s2 ∧ s2.log = s1.log ++ log ∧
      fileAfter i.destination new log = (if b then e.contents i.localSource else new) ∧ s2.hasUnsavedChanges = false := by
    intro b
    obtain ⟨s2, log, k1, k2, _, k4⟩ := hk (ops ++ [if b then .applyAll else .unapplyAll, .save v]) (by
      intro op hop
      rcases List.mem_append.1 hop with q | q
      · exact hops op q
      · simp only [List.mem_cons, List.not_mem_nil, or_false] at q
        rcases q with rfl | rfl
        · cases b <;> trivial
        · trivial)
    obtain ⟨t, k5, k6⟩ := runUser_split ops _ k1
    obtain ⟨_, _, ms, k, j, m0, d, o1, a1⟩ := (hopen.inUse hs).facts
    have ems : ms = [m] := Option.some.inj (o1.models.symm.trans hm)
    subst ems
    obtain ⟨t', k', j', m', d', g⟩ := runUser_ok ops o1 a1 hops
    have et : t' = t := Res.ok.inj (g.ok.symm.trans k5)
    subst et
    have em : m' = m := List.mem_singleton.1 (List.mem_of_getElem? g.atIt.model)
    subst em
    obtain ⟨i1, hi1⟩ := Option.ne_none_iff_exists'.1 o1.info
    have hm1 : i1.mode = .ComparingFiles := by
      obtain ⟨s1', ms', fs', h1', _, _, ⟨i1', hi1', hso⟩, _⟩ := compare_ready hs hi (by rw [hmode]; decide) hr D hout ok
        (by
          have : f ∈ D.files.filter UFile.changes := by rw [hf]; exact List.mem_singleton.2 rfl
          exact ⟨f, (List.mem_filter.1 this).1, (List.mem_filter.1 this).2⟩)
        (.inr ⟨hd, hfile, by rw [hf]; rfl⟩) (fun _ => split new) (by
          intro g hg hc
          have : g ∈ D.files.filter UFile.changes := List.mem_filter.2 ⟨hg, hc⟩
          rw [hf] at this
          rw [List.mem_singleton.1 this]
          unfold original
          rw [hd]
          exact hp)
      have e1 : s1' = s1 := Res.ok.inj (h1'.symm.trans h1)
      subst e1
      have e2 : i1' = i1 := Option.some.inj (hi1'.symm.trans hi1)
      subst e2
      unfold Info.SameOperands at hso
      have q := congrArg Info.mode hso
      exact Eq.trans q hmode
    have all := all_saved (b := b) g.atIt.selectedModel (g.opened.live _ (List.mem_singleton.2 rfl)) (g.frame.info.trans hi1) (by rw [hm1]; exact hv) k6
    obtain ⟨_, k7, k8⟩ := k4 (fun d hd => (all d hd).2)
    refine ⟨s2, log, k1, k2, ?_, ?_⟩
    · cases b with
      | true =>
        rw [show (split new).flatten = new from splitAux_flatten [] new] at k8
        exact k8 (fun d hd => (all d hd).1)
      | false =>
        rw [show (split new).flatten = new from splitAux_flatten [] new] at k7
        exact k7 (fun d hd => (all d hd).1)
    · obtain ⟨s2', k1', _, _, _, g'⟩ := runUser_ok (ops ++ [if b then .applyAll else .unapplyAll, .save v]) o1 a1 (by
        intro op hop
        rcases List.mem_append.1 hop with q | q
        · exact hops op q
        · simp only [List.mem_cons, List.not_mem_nil, or_false] at q
          rcases q with rfl | rfl
          · cases b <;> trivial
          · trivial)
      have e2 : s2' = s2 := Res.ok.inj (g'.ok.symm.trans k1)
      subst e2
      unfold MLState.hasUnsavedChanges
      rw [g'.opened.models]
      simp only [List.any_cons, List.any_nil, Bool.or_false]
      unfold DModel.hasUnsavedChanges
      rw [List.any_eq_false]
      intro d hd
      rw [(all d hd).2]
      simp
  constructor
  · obtain ⟨s2, log, k1, k2, k3, k4⟩ := key true
    refine ⟨s2, log, k1, k2, k3, k4, fun e' s3 s4 r' ho h => ?_⟩
    have := (C46_events h).2.1 ho.1 (ho.2.2 k3.symm)
    rw [this]
  · exact key false

/-- **C76, comparing two directories.** The output of the diff program changes the files `f`, each to `T f`; their names in the destination
directory are `rest f`, all different.  Then for each of them there is a model, and whatever the user does afterwards the file at that place of
the destination directory always has the source text with exactly those changes made that were not marked when it was last saved. -/
theorem C76_dirs {e : Env} {s : MLState} {r : ProcessResult} {i : Info} (hs : Reachable s) (hi : s.info = some i) (hmode : i.mode = .ComparingDirs)
    (hr : r.finishedNormally = true) (D : UDiff) (hout : r.stdout = D.render.flatten) (ok : D.Ok) (hc : ∃ f ∈ D.files, f.changes = true)
    (hd : e.isDir i.localSource = true) (T : UFile → List Str)
    (hp : ∀ f ∈ D.files, f.changes = true →
      Patches 0 (f.hunks.map UHunk.edit) (split (original e i.localSource (unescapePath e.win f.src.name))) (T f))
    (rest : UFile → Str) (hu : ∀ f ∈ D.files, f.changes = true → Under i.localDestination (unescapePath e.win f.dst.name) (rest f))
    (distinct : (D.files.filter UFile.changes).Pairwise (fun f f' => rest f ≠ rest f')) :
    ∃ (s1 : MLState) (ms : List Nat) (fs : List UFile), s.slotDiffProcessFinished e r = Res.ok s1 ∧ s1.models = some ms ∧ fs.Perm (D.files.filter UFile.changes) ∧ ms.length = fs.length ∧
      (∀ (k m : Nat) (f : UFile), ms[k]? = some m → fs[k]? = some f →
        (s1.store m).source = unescapePath e.win f.src.name ∧ (s1.store m).destination = unescapePath e.win f.dst.name ∧
        KeepsFile s1 m (i.destination ++ rest f) (original e i.localSource (unescapePath e.win f.src.name)) (T f)) ∧
      ∀ ops : List UserOp, (∀ op ∈ ops, op.Ok s1) → ∃ s' log, runUser ops s1 = Res.ok s' ∧ s'.log = s1.log ++ log ∧
        ∀ u t, Event.upload u t ∈ log → ∃ f ∈ D.files, f.changes = true ∧ u = i.destination ++ rest f := by
  obtain ⟨s1, ms, fs, h1, o, sel, ⟨i1, hi1, hso⟩, hfs, hlen, hst⟩ := compare_ready hs hi (by rw [hmode]; decide) hr D hout ok hc (.inl hd) T hp
  have hm1 : i1.mode = .ComparingDirs := by
    unfold Info.SameOperands at hso
    have q := congrArg Info.mode hso
    exact Eq.trans q hmode
  have hd1 : i1.destination = i.destination := by
    unfold Info.SameOperands at hso
    have q := congrArg Info.destination hso
    exact q
  have hl1 : i1.localDestination = i.localDestination := by
    unfold Info.SameOperands at hso
    have q := congrArg Info.localDestination hso
    exact q
  have hopen : OpensDiff (.diffFinished e r) s s1 := ⟨h1, hr, by rw [o.models]; simp⟩
  have mem : ∀ (k : Nat) (f : UFile), fs[k]? = some f → f ∈ D.files ∧ f.changes = true := by
    intro k f hf
    exact List.mem_filter.1 (hfs.mem_iff.1 (List.mem_of_getElem? hf))
  have ht : ∀ (k m : Nat) (f : UFile), ms[k]? = some m → fs[k]? = some f → saveTarget i1 (s1.store m) = i.destination ++ rest f := by
    intro k m f hk hf
    obtain ⟨_, q2, _, _⟩ := hst k m f hk hf
    rw [← hd1]
    refine C64_target hs hopen trivial .opened hm1 (m := m) (by rw [o.models]; exact List.mem_of_getElem? hk) ?_
    rw [hl1, q2]
    exact hu f (mem k f hf).1 (mem k f hf).2
  have hdis : fs.Pairwise (fun f f' => rest f ≠ rest f') := (hfs.pairwise_iff (fun h => h.symm)).2 distinct
  have file : ∀ x ∈ ms, ∃ (k : Nat) (f : UFile), ms[k]? = some x ∧ fs[k]? = some f := by
    intro x hx
    obtain ⟨k, hk, e⟩ := List.mem_iff_getElem.1 hx
    exact ⟨k, fs[k]'(by omega), by rw [List.getElem?_eq_getElem hk, e], List.getElem?_eq_getElem _⟩
  refine ⟨s1, ms, fs, h1, o.models, hfs, hlen, fun k m f hk hf => ?_, fun ops hops => ?_⟩
  · obtain ⟨q1, q2, q3, q4⟩ := hst k m f hk hf
    refine ⟨q1, q2, ?_⟩
    have := ready_keeps o sel hi1 (m := m) (by
      intro x hx hne
      obtain ⟨k', f', hk', hf'⟩ := file x hx
      refine ⟨?_, fun d hdx => flatMap_nodup_disjoint o.nodup o.disjoint hx (List.mem_of_getElem? hk) hne hdx⟩
      rw [ht k m f hk hf, ht k' x f' hk' hf']
      intro q
      have q := List.append_cancel_left q
      have hkk : k ≠ k' := by
        intro e
        subst e
        exact hne (Option.some.inj (hk'.symm.trans hk))
      obtain ⟨l1, e1⟩ := List.getElem?_eq_some_iff.1 hf
      obtain ⟨l2, e2⟩ := List.getElem?_eq_some_iff.1 hf'
      rw [List.pairwise_iff_getElem] at hdis
      rcases Nat.lt_or_gt_of_ne hkk with h | h
      · exact hdis k k' l1 l2 h (by rw [e1, e2]; exact q.symm)
      · exact hdis k' k l2 l1 h (by rw [e1, e2]; exact q)) q4 q3
    rw [ht k m f hk hf, q1] at this
    exact this
  · obtain ⟨s', h2, log, h3, h4⟩ := spares_run ops o sel hi1 hops
    refine ⟨s', log, h2, h3, fun u t q => ?_⟩
    obtain ⟨x, hx, e⟩ := h4 u t q
    obtain ⟨k, f, hk, hf⟩ := file x hx
    exact ⟨f, (mem k f hf).1, (mem k f hf).2, e.trans (ht k x f hk hf)⟩

/-- A list of models for comparing `b.txt` with `/d/b.txt`. -/
def exampleFiles : MLState :=
  (MLState.init none true ⟨fun _ => Diff.new 0 0 .Unchanged, 0⟩).setInfo
    (some { mode := .ComparingFiles, localSource := str "b.txt", localDestination := str "/d/b.txt", destination := str "file:/d/b.txt" })

theorem exampleFiles_reachable : Reachable exampleFiles :=
  ⟨none, true, ⟨fun _ => Diff.new 0 0 .Unchanged, 0⟩,
    [.setInfo (some { mode := .ComparingFiles, localSource := str "b.txt", localDestination := str "/d/b.txt", destination := str "file:/d/b.txt" })], rfl⟩

theorem exampleNew_split : split exampleNew.flatten = exampleNew := by decide

example (st : Str) : ∃ s1 m, exampleFiles.slotDiffProcessFinished examplePatch ⟨1, .NormalExit, exampleOne.render.flatten, st⟩ = Res.ok s1 ∧
    s1.models = some [m] ∧ KeepsFile s1 m (str "file:/d/b.txt") exampleOld exampleNew := by
  obtain ⟨s1, m, h1, h2, h3, _⟩ := C76_files (e := examplePatch) (r := ⟨1, .NormalExit, exampleOne.render.flatten, st⟩) (i := { mode := .ComparingFiles, localSource := str "b.txt", localDestination := str "/d/b.txt", destination := str "file:/d/b.txt" }) exampleFiles_reachable rfl rfl rfl exampleOne rfl
    exampleOne_ok (f := exampleOne.files.head (by decide)) rfl rfl rfl exampleNew.flatten (by
      rw [exampleNew_split]
      exact example_patches)
  rw [exampleNew_split] at h3
  exact ⟨s1, m, h1, h2, h3⟩

/-- Marking the only difference and saving makes `/d/b.txt` the old text; comparing again says "identical". -/
example (st : Str) : ∃ s1 s2 log, exampleFiles.slotDiffProcessFinished examplePatch ⟨1, .NormalExit, exampleOne.render.flatten, st⟩ = Res.ok s1 ∧
    runUser [.applyAll, .save {}] s1 = Res.ok s2 ∧ s2.log = s1.log ++ log ∧
    fileAfter (str "file:/d/b.txt") exampleNew.flatten log = exampleOld ∧ exampleOld ≠ exampleNew.flatten := by
  obtain ⟨s1, h1, h2⟩ := C76_again (e := examplePatch) (r := ⟨1, .NormalExit, exampleOne.render.flatten, st⟩) (i := { mode := .ComparingFiles, localSource := str "b.txt", localDestination := str "/d/b.txt", destination := str "file:/d/b.txt" }) exampleFiles_reachable rfl rfl rfl exampleOne rfl
    exampleOne_ok (f := exampleOne.files.head (by decide)) rfl rfl rfl exampleNew.flatten (by
      rw [exampleNew_split]
      exact example_patches)
  obtain ⟨⟨s2, log, h3, h4, h5, _⟩, _⟩ := h2 [] (fun _ h => by cases h) {} rfl
  exact ⟨s1, s2, log, h1, h3, h4, h5, by decide⟩

/-- A list of models for comparing two directories. -/
def exampleDirs : MLState :=
  (MLState.init none true ⟨fun _ => Diff.new 0 0 .Unchanged, 0⟩).setInfo
    (some { mode := .ComparingDirs, localSource := str "old", localDestination := [], destination := str "file:/d/" })

theorem exampleDirs_reachable : Reachable exampleDirs :=
  ⟨none, true, ⟨fun _ => Diff.new 0 0 .Unchanged, 0⟩,
    [.setInfo (some { mode := .ComparingDirs, localSource := str "old", localDestination := [], destination := str "file:/d/" })], rfl⟩

example (st : Str) : ∃ (s1 : MLState) (ms : List Nat), exampleDirs.slotDiffProcessFinished exampleDir ⟨1, .NormalExit, exampleDiff.render.flatten, st⟩ = Res.ok s1 ∧
    s1.models = some ms ∧ ms.length = 2 ∧ ∀ m ∈ ms, ∃ f ∈ exampleDiff.files,
      KeepsFile s1 m (str "file:/d/" ++ f.dst.name) (original exampleDir (str "old") (unescapePath false f.src.name)) (exampleNews f) := by
  obtain ⟨s1, ms, fs, h1, h2, h3, h4, h5, _⟩ := C76_dirs (e := exampleDir) (r := ⟨1, .NormalExit, exampleDiff.render.flatten, st⟩) (i := { mode := .ComparingDirs, localSource := str "old", localDestination := [], destination := str "file:/d/" }) exampleDirs_reachable rfl rfl rfl exampleDiff rfl
    exampleDiff_ok ⟨_, List.mem_cons_self .., by decide⟩ (by decide) exampleNews example_originals (fun f => f.dst.name) (by
      intro f hf _
      simp only [exampleDiff, List.mem_cons, List.not_mem_nil, or_false] at hf
      rcases hf with rfl | rfl
      · exact ⟨by decide, .inl rfl⟩
      · exact ⟨by decide, .inl rfl⟩) (by
      show List.Pairwise _ exampleDiff.files
      simp only [exampleDiff, List.pairwise_cons, List.mem_cons, List.not_mem_nil, or_false, forall_eq, false_imp_iff, implies_true, List.Pairwise.nil, and_true]
      decide)
  refine ⟨s1, ms, h1, h2, h4.trans h3.length_eq, fun m hm => ?_⟩
  obtain ⟨k, hk, e⟩ := List.mem_iff_getElem.1 hm
  have hk' : k < fs.length := h4 ▸ hk
  exact ⟨fs[k], (List.mem_filter.1 (h3.mem_iff.1 (List.getElem_mem hk'))).1, (h5 k m _ (by rw [List.getElem?_eq_getElem hk, e]) (List.getElem?_eq_getElem hk')).2.2⟩

end KompareDiff2
