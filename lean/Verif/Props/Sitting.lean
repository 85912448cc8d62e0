import Verif.Spec.Sitting
import Verif.Props.OnDisk
/-
Property theorems C78: a whole sitting.
-/
namespace KompareDiff2
open Spec

theorem Info.SameOperands.trans {i j k : Info} (h : i.SameOperands j) (h' : j.SameOperands k) : i.SameOperands k := by
  unfold Info.SameOperands at h h' ⊢
  have : ({ k with generator := i.generator, format := i.format } : Info) = { ({ k with generator := j.generator, format := j.format } : Info) with generator := i.generator, format := i.format } := rfl
  rw [this, h', h]

theorem Info.SameOperands.fields {i j : Info} (h : i.SameOperands j) : j.mode = i.mode ∧ j.destination = i.destination ∧ j.localSource = i.localSource ∧ j.localDestination = i.localDestination := by
  unfold Info.SameOperands at h
  have h1 := congrArg Info.mode h
  have h2 := congrArg Info.destination h
  have h3 := congrArg Info.localSource h
  have h4 := congrArg Info.localDestination h
  exact ⟨h1, h2, h3, h4⟩

/-- The diff program has finished with a difference. -/
structure Begun (i : Info) (s1 : MLState) (A B : Str) : Prop where
  begun : ∃ (e : Env) (s0 : MLState) (r : ProcessResult) (j : Info) (D : UDiff) (f : UFile),
    Reachable s0 ∧ s0.info = some j ∧ Info.SameOperands i j ∧ r.finishedNormally = true ∧ r.stdout = D.render.flatten ∧ D.Ok ∧
    D.files.filter UFile.changes = [f] ∧ Holds e i.localSource A ∧ Patches 0 (f.hunks.map UHunk.edit) (split A) (split B) ∧ s0.slotDiffProcessFinished e r = Res.ok s1

theorem Begun.keeps {i : Info} {s1 : MLState} {A B : Str} (h : Begun i s1 A B) (hm : i.mode = .ComparingFiles) :
    ∃ m, s1.models = some [m] ∧ KeepsFile s1 m i.destination A (split B) ∧
      (∀ ops : List UserOp, (∀ op ∈ ops, op.Ok s1) → ∃ s' log, runUser ops s1 = Res.ok s' ∧ s'.log = s1.log ++ log ∧ ∀ u t, Event.upload u t ∈ log → u = i.destination) ∧
      ∀ ops : List UserOp, (∀ op ∈ ops, op.Ok s1) → ∀ v : MLState.SaveEnv, v.failure .ComparingFiles = none → ∀ b : Bool,
        ∃ s2 log, runUser (ops ++ [if b then .applyAll else .unapplyAll, .save v]) s1 = Res.ok s2 ∧ s2.log = s1.log ++ log ∧
          fileAfter i.destination B log = (if b then A else B) ∧ s2.hasUnsavedChanges = false := by
  obtain ⟨e, s0, r, j, D, f, h1, h2, h3, h4, h5, h6, h7, ⟨h8, h8', h8''⟩, h9, h10⟩ := h.begun
  obtain ⟨q1, q2, q3, _⟩ := h3.fields
  rw [← q3] at h8 h8' h8''
  rw [← h8''] at h9
  obtain ⟨s1', m, k1, k2, k3, k4⟩ := C76_files h1 h2 (q1.trans hm) h4 D h5 h6 h7 h8 h8' B h9
  obtain ⟨s1'', l1, l2⟩ := C76_again h1 h2 (q1.trans hm) h4 D h5 h6 h7 h8 h8' B h9
  have e1 : s1' = s1 := Res.ok.inj (k1.symm.trans h10)
  have e2 : s1'' = s1 := Res.ok.inj (l1.symm.trans h10)
  subst e1; subst e2
  rw [q2, h8''] at k3
  rw [q2] at k4
  refine ⟨m, k2, k3, k4, fun ops hops v hv b => ?_⟩
  obtain ⟨⟨s2, log, a1, a2, a3, a4, _⟩, s2', log', b1, b2, b3, b4⟩ := l2 ops hops v hv
  rw [q2, h8''] at a3
  rw [q2] at b3
  cases b with
  | true => exact ⟨s2, log, a1, a2, a3, a4⟩
  | false => exact ⟨s2', log', b1, b2, b3, b4⟩

/-- How a state in which differences are shown came about. -/
structure Since (i : Info) (s : MLState) (A B : Str) : Prop where
  since : ∃ (s1 : MLState) (B1 : Str) (ops : List UserOp) (new : List Event), Begun i s1 A B1 ∧ (∀ op ∈ ops, op.Ok s1) ∧ runUser ops s1 = Res.ok s ∧
    s.log = s1.log ++ new ∧ B = fileAfter i.destination B1 new

theorem runUser_one (op : UserOp) {s s' : MLState} (h : op.run s = Res.ok s') : runUser [op] s = Res.ok s' := by
  simp only [runUser, h, Res.bind_ok]

theorem runUser_join (a b : List UserOp) {s t u : MLState} (h1 : runUser a s = Res.ok t) (h2 : runUser b t = Res.ok u) : runUser (a ++ b) s = Res.ok u := by
  induction a generalizing s with
  | nil => cases h1; exact h2
  | cons op a ih =>
    obtain ⟨v, k1, k2⟩ := Res.bind_eq_ok.mp h1
    show (op.run s).bind _ = _
    rw [k1]
    exact ih k2

theorem Begun.opens {i : Info} {s1 : MLState} {A B : Str} (h : Begun i s1 A B) (hm : i.mode = .ComparingFiles) : ∃ ms k j m d, Opened s1 ms ∧ At s1 ms k j m d := by
  obtain ⟨m, k2, _⟩ := h.keeps hm
  obtain ⟨e, s0, r, j, D, f, h1, h2, h3, h4, h5, h6, h7, h8, h9, h10⟩ := h.begun
  have hopen : OpensDiff (.diffFinished e r) s0 s1 := ⟨h10, h4, by rw [k2]; simp⟩
  obtain ⟨_, _, ms, k, j, m0, d, o1, a1⟩ := (hopen.inUse h1).facts
  exact ⟨ms, k, j, m0, d, o1, a1⟩

theorem Since.frame {i : Info} {s s1 : MLState} {A B : Str} {ops : List UserOp} (h : Begun i s1 A B) (hm : i.mode = .ComparingFiles)
    (h2 : ∀ op ∈ ops, op.Ok s1) (h3 : runUser ops s1 = Res.ok s) : Frame s1 s := by
  obtain ⟨ms, k, j, m0, d, o1, a1⟩ := h.opens hm
  obtain ⟨s', _, _, _, _, g⟩ := runUser_ok ops o1 a1 h2
  have := g.ok.symm.trans h3
  cases this
  exact g.frame

theorem ok_back {s s' : MLState} (hf : Frame s s') {op : UserOp} (h : op.Ok s') : op.Ok s := by
  cases op <;> simp only [UserOp.Ok, hf.models, hf.deadDiffs] at h ⊢ <;> exact h

theorem begun_info {i : Info} {s1 : MLState} {A B : Str} (h : Begun i s1 A B) (hm : i.mode = .ComparingFiles) : ∃ j, s1.info = some j ∧ Info.SameOperands i j := by
  obtain ⟨e, s0, r, j, D, f, h1, h2, h3, h4, h5, h6, h7, ⟨h8, h8', h8''⟩, h9, h10⟩ := h.begun
  obtain ⟨q1, q2, q3, _⟩ := h3.fields
  rw [← q3] at h8 h8' h8''
  obtain ⟨s1', ms', fs', h1', _, _, ⟨i1', hi1', hso⟩, _⟩ := compare_ready h1 h2 (by rw [q1, hm]; decide) h4 D h5 h6
    (by
      have : f ∈ D.files.filter UFile.changes := by rw [h7]; exact List.mem_singleton.2 rfl
      exact ⟨f, (List.mem_filter.1 this).1, (List.mem_filter.1 this).2⟩)
    (.inr ⟨h8, h8', by rw [h7]; rfl⟩) (fun _ => split B) (by
      intro g hg hc
      have : g ∈ D.files.filter UFile.changes := List.mem_filter.2 ⟨hg, hc⟩
      rw [h7] at this
      rw [List.mem_singleton.1 this]
      unfold original
      rw [h8, h8'']
      exact h9)
  have e1 : s1' = s1 := Res.ok.inj (h1'.symm.trans h10)
  subst e1
  exact ⟨i1', hi1', h3.trans hso⟩

/-- The program that was started has settings. -/
theorem compareMode_settings {e : Env} {s s' : MLState} {mode : Mode} {b : Bool} (h : s.compareMode e mode = Res.ok (s', b)) :
    s'.settings = s.settings ∧ s.settings ≠ none := by
  obtain ⟨i, args, _, _, _, hp, _⟩ := compareMode_info h
  constructor
  · unfold MLState.compareMode at h
    dsimp only at h
    split at h
    · cases h
    · obtain ⟨p, _, h⟩ := Res.bind_eq_ok.1 h
      cases h
      rfl
  · intro q
    unfold processArgs at hp
    rw [q, if_neg (by decide)] at hp
    cases hp

theorem compare_settings {e : Env} {s s' : MLState} {b : Bool} {i : Info} (h : s.compare e = Res.ok (s', b)) (hi : s'.info = some i)
    (hm : i.mode = .ComparingFiles ∨ i.mode = .ComparingDirs) : s'.settings ≠ none := by
  have key : ∀ {t : MLState} {mode : Mode}, t.compareMode e mode = Res.ok (s', b) → s'.settings ≠ none := by
    intro t mode q
    obtain ⟨q1, q2⟩ := compareMode_settings q
    rw [q1]; exact q2
  have open_ : ∀ {t : MLState} {k : Info}, t.info = some k → t.openAndDiff e = Res.ok (s', b) → i.mode = k.mode := by
    intro t k hk q
    obtain ⟨⟨j, i', h1, h2, h3⟩, _⟩ := openAndDiff_info q
    have e1 : j = k := Option.some.inj (h1.symm.trans hk)
    have e2 : i' = i := Option.some.inj (h2.symm.trans hi)
    subst e1; subst e2
    exact h3.fields.1
  unfold MLState.compare at h
  split at h
  · cases h
  · dsimp only at h
    split at h
    · exact key h
    · split at h
      · split at h
        · have := open_ rfl h
          rw [this] at hm
          rcases hm with hm | hm <;> cases hm
        · split at h
          · have := open_ rfl h
            rw [this] at hm
            rcases hm with hm | hm <;> cases hm
          · exact key h
      · split at h
        · have := open_ rfl h
          rw [this] at hm
          rcases hm with hm | hm <;> cases hm
        · have := open_ rfl h
          rw [this] at hm
          rcases hm with hm | hm <;> cases hm

/-- The invariant of a sitting. -/
structure Sat (i : Info) (s : MLState) (A B : Str) (p : Phase) : Prop where
  reach : Reachable s
  settings : s.settings ≠ none
  info : ∃ j, s.info = some j ∧ Info.SameOperands i j
  mode : i.mode = .ComparingFiles
  shown : p = .shown → Since i s A B
  running : p = .running → ∃ cmd, s.process = some (.compare (cmd ++ [str "--", i.localSource, i.localDestination]) none)

theorem started {e : Env} {s s1 : MLState} {i j : Info} {b : Bool} (hi : s.info = some j) (hso : Info.SameOperands i j) (hm : i.mode = .ComparingFiles)
    (h : s.compareMode e .ComparingFiles = Res.ok (s1, b)) :
    s1.info = some j ∧ ∃ cmd, s1.process = some (.compare (cmd ++ [str "--", i.localSource, i.localDestination]) none) := by
  obtain ⟨j', args, h1, h2, _, h3, h4, _⟩ := compareMode_info h
  have ej : j' = j := Option.some.inj (h1.symm.trans hi)
  subst ej
  obtain ⟨_, _, q3, q4⟩ := hso.fields
  refine ⟨h2, ?_⟩
  unfold processArgs at h3
  rw [if_neg (by decide)] at h3
  cases hs : s.settings with
  | none => rw [hs] at h3; cases h3
  | some st =>
    rw [hs] at h3
    cases h3
    rw [h4, ← q3, ← q4]
    exact ⟨_, rfl⟩

theorem sat_of {i : Info} {s : MLState} {A B : Str} {p : Phase} (h : Sitting i s A B p) : Sat i s A B p := by
  induction h with
  | compare e s s1 A B h1 h2 h3 h4 h5 =>
    have hr : Reachable s1 := h1.step (op := .compare e) (by simp only [MLOp.run]; rw [h2]; rfl)
    refine ⟨hr, compare_settings h2 h3 (.inl h4), ⟨i, h3, .refl i⟩, h4, (by intro q; cases q), fun _ => ?_⟩
    obtain ⟨k, k', a1, a2, a3, a4, a5⟩ := C41_compare h2
    have ek : k' = i := Option.some.inj (a2.symm.trans h3)
    subst ek
    rw [if_pos (.inl h4)] at a5
    obtain ⟨args, b1, b2, _⟩ := a5
    have hd : (Operand.decide (e.kind k.localSource) (e.kind k.localDestination)).2 = false := by
      rw [h4] at a3
      revert a3
      cases e.kind k.localSource <;> cases e.kind k.localDestination <;> simp [Operand.decide]
    rw [hd] at a4
    have hf := Info.SameOperands.fields a4
    simp only [Bool.false_eq_true, if_false] at hf
    obtain ⟨_, _, q3, q4⟩ := hf
    rw [b2]
    unfold processArgs at b1
    rw [if_neg (by decide), h4] at b1
    cases hs : s.settings with
    | none => rw [hs] at b1; cases b1
    | some st =>
      rw [hs] at b1
      cases b1
      rw [q3, q4]
      exact ⟨_, rfl⟩
  | again e s s1 A B p _ hrun ih =>
    obtain ⟨hr, hset, ⟨j, hj, hso⟩, hm, _, _⟩ := ih
    obtain ⟨q1, _⟩ := hso.fields
    have key : ∃ b, s.compareMode e .ComparingFiles = Res.ok (s1, b) := by
      rcases hrun with h | h
      · unfold MLState.refresh at h
        rw [hj] at h
        obtain ⟨⟨t, b⟩, h1, h2⟩ := Res.bind_eq_ok.1 h
        cases h2
        rw [q1, hm] at h1
        exact ⟨b, h1⟩
      · unfold MLState.swap at h
        rw [hj] at h
        dsimp only at h
        rw [q1, hm, if_pos (.inl rfl)] at h
        obtain ⟨⟨t, b⟩, h1, h2⟩ := Res.bind_eq_ok.1 h
        cases h2
        exact ⟨b, h1⟩
    obtain ⟨b, hb⟩ := key
    obtain ⟨k1, k2⟩ := started hj hso hm hb
    refine ⟨?_, by rw [(compareMode_settings hb).1]; exact hset, ⟨j, k1, hso⟩, hm, (by intro q; cases q), fun _ => k2⟩
    rcases hrun with h | h
    · exact hr.step (op := .refresh e) h
    · exact hr.step (op := .swap e) h
  | finished e r s s1 A B _ hA hr hrun ih =>
    obtain ⟨hre, hset, ⟨j, hj, hso⟩, hm, _, _⟩ := ih
    have hre' : Reachable s1 := hre.step (op := .diffFinished e r) hrun
    have hset' : s1.settings ≠ none := by rw [(beyond_finished hrun).settings]; exact hset
    by_cases hAB : A = B
    · rw [if_pos hAB]
      have := (C46_events hrun).2.1 hr.1 (hr.2.1 hAB)
      exact ⟨hre', hset', ⟨j, by rw [this]; exact hj, hso⟩, hm, (by intro q; cases q), (by intro q; cases q)⟩
    · rw [if_neg hAB]
      obtain ⟨hx, D, f, g1, g2, g3, g4⟩ := hr.2.2 hAB
      have hb : Begun i s1 A B := ⟨e, s, r, j, D, f, hre, hj, hso, (C46_success r).2 ⟨hr.1, hx⟩, g1, g2, g3, hA, g4, hrun⟩
      exact ⟨hre', hset', begun_info hb hm, hm, fun _ => ⟨s1, B, [], [], hb, by simp, rfl, by simp, rfl⟩, (by intro q; cases q)⟩
  | user op s s1 A B new _ hop hrun hlog ih =>
    obtain ⟨hre, hset, ⟨j, hj, hso⟩, hm, hs, _⟩ := ih
    obtain ⟨s0, B1, ops, old, a1, a2, a3, a4, a5⟩ := (hs rfl).since
    have hops : ∀ o ∈ ops ++ [op], o.Ok s0 := by
      intro o ho
      rcases List.mem_append.1 ho with q | q
      · exact a2 o q
      · rw [List.mem_singleton.1 q]; exact ok_back (Since.frame a1 hm a2 a3) hop
    have hj' := runUser_join ops [op] a3 (runUser_one op hrun)
    have hset0 : s0.settings ≠ none := by rw [← (Since.frame a1 hm a2 a3).settings]; exact hset
    refine ⟨hre.step (op := .user op) hrun, by rw [(Since.frame a1 hm hops hj').settings]; exact hset0, ?_, hm, fun _ => ⟨s0, B1, ops ++ [op], old ++ new, a1, hops, hj', ?_, ?_⟩, (by intro q; cases q)⟩
    · obtain ⟨j0, b1, b2⟩ := begun_info a1 hm
      exact ⟨j0, (Since.frame a1 hm hops hj').info.trans b1, b2⟩
    · rw [hlog, a4, List.append_assoc]
    · rw [fileAfter_append, ← a5]
  | edited s A B A' B' p _ hp ih => exact ⟨ih.reach, ih.settings, ih.info, ih.mode, (by intro q; cases q), (by intro q; cases q)⟩

/-- **C78.** At every moment of a sitting at which differences are shown — however often the files were compared, changed outside, marked and
saved before — exactly one file is shown, and the destination file has the text of the source file with exactly those changes made that were not
marked when it was last saved; if nothing is unsaved, those that are not marked now, so with everything marked it equals the source file. -/
theorem C78_file {i : Info} {s : MLState} {A B : Str} (h : Sitting i s A B .shown) :
    ∃ m, s.models = some [m] ∧
      (∃ out, Patches 0 ((pending ((s.store m).hunks.map (Hunk.view (lastMarks s.heap)))).map DView.edit) (split A) out ∧ B = out.flatten) ∧
      ((∀ d ∈ (s.store m).differences, (s.heap.cell d).unsaved = false) →
        (∃ out, Patches 0 ((pending ((s.store m).hunks.map (Hunk.view s.heap))).map DView.edit) (split A) out ∧ B = out.flatten) ∧
        ((∀ d ∈ (s.store m).differences, (s.heap.cell d).applied = true) → B = A)) := by
  have sat := sat_of h
  obtain ⟨s1, B1, ops, new, a1, a2, a3, a4, a5⟩ := (sat.shown rfl).since
  obtain ⟨m, k1, k2, _⟩ := a1.keeps sat.mode
  obtain ⟨s', new', b1, b2, b3, b4⟩ := k2 ops a2
  have es : s' = s := Res.ok.inj (b1.symm.trans a3)
  subst es
  have en : new' = new := List.append_cancel_left (b2.symm.trans a4)
  subst en
  rw [show (split B1).flatten = B1 from splitAux_flatten [] B1, ← a5] at b3 b4
  refine ⟨m, (Since.frame a1 sat.mode a2 a3).models.trans k1, b3, fun hu => ?_⟩
  obtain ⟨c1, _, c2⟩ := b4 hu
  exact ⟨c1, c2⟩

/-- **C78.** A sitting never gets stuck: while differences are shown every action of the user can be carried out; the program that runs was
given the two files, and whatever it answers truthfully is taken; `refresh()` works at every moment. -/
theorem C78_goes_on {i : Info} {s : MLState} {A B : Str} {p : Phase} (h : Sitting i s A B p) :
    (p = .shown → ∀ op : UserOp, op.Ok s → ∃ s1 new, op.run s = Res.ok s1 ∧ s1.log = s.log ++ new ∧ Sitting i s1 A (fileAfter i.destination B new) .shown) ∧
    (p = .running → (∃ cmd, s.process = some (.compare (cmd ++ [str "--", i.localSource, i.localDestination]) none)) ∧
      ∀ (e : Env) (r : ProcessResult), Holds e i.localSource A → Answers r A B → ∃ s1, s.slotDiffProcessFinished e r = Res.ok s1) ∧
    ∀ e : Env, ∃ s1, s.refresh e = Res.ok s1 := by
  have sat := sat_of h
  refine ⟨?_, fun hp => ⟨sat.running hp, fun e r hA hr => ?_⟩, fun e => ?_⟩
  · rintro rfl op hop
    obtain ⟨s1, B1, ops, old, a1, a2, a3, a4, a5⟩ := (sat.shown rfl).since
    obtain ⟨m, _, _, k3, _⟩ := a1.keeps sat.mode
    obtain ⟨s', log, b1, b2, _⟩ := k3 (ops ++ [op]) (by
      intro o ho
      rcases List.mem_append.1 ho with q | q
      · exact a2 o q
      · rw [List.mem_singleton.1 q]; exact ok_back (Since.frame a1 sat.mode a2 a3) hop)
    obtain ⟨t, c1, c2⟩ := runUser_split ops [op] b1
    have et : t = s := Res.ok.inj (c1.symm.trans a3)
    subst et
    have hrun : op.run t = Res.ok s' := by
      obtain ⟨u, d1, d2⟩ := Res.bind_eq_ok.mp c2
      cases d2
      exact d1
    obtain ⟨new, hnew⟩ : ∃ new, s'.log = t.log ++ new := by
      obtain ⟨ms, k, j, m0, d, o1, x1⟩ := a1.opens sat.mode
      obtain ⟨u, k', j', m', d', g⟩ := runUser_ok ops o1 x1 a2
      have eu : u = t := Res.ok.inj (g.ok.symm.trans a3)
      subst eu
      obtain ⟨i1, hi1⟩ := Option.ne_none_iff_exists'.1 g.opened.info
      obtain ⟨v, y1, new, y2, _⟩ := spares_run [op] g.opened ⟨_, _, _, _, g.atIt⟩ hi1 (by intro o ho; rw [List.mem_singleton.1 ho]; exact hop)
      rw [runUser_one op hrun] at y1
      cases y1
      exact ⟨new, y2⟩
    exact ⟨s', new, hrun, hnew, .user op t s' A B new h hop hrun hnew⟩
  · obtain ⟨j, hj, hso⟩ := sat.info
    by_cases hAB : A = B
    · have hf : r.finishedNormally = false := by
        cases q : r.finishedNormally with
        | false => rfl
        | true => exact absurd (hr.2.1 hAB) ((C46_success r).1 q).2
      unfold MLState.slotDiffProcessFinished
      rw [hf, hr.1]
      exact ⟨_, rfl⟩
    · obtain ⟨hx, D, f, g1, g2, g3, g4⟩ := hr.2.2 hAB
      obtain ⟨q, hq, _⟩ := C26_unified D g2 (by intro q; rw [q] at g3; cases g3) e.win e.cmp s.heap
      exact C46_total sat.reach (by rw [hj]; simp) (by rw [g1]; exact hq)
  · obtain ⟨j, hj, hso⟩ := sat.info
    obtain ⟨st, hst⟩ := Option.ne_none_iff_exists'.1 sat.settings
    unfold MLState.refresh MLState.compareMode
    rw [hj]
    dsimp only
    rw [show s.clear.info = some j from hj, show s.clear.settings = some st from hst]
    exact ⟨_, rfl⟩

/-- **C78.** During a sitting only the destination file is ever written, and only by actions of the user: comparing again and the answers of the
diff program write nothing. -/
theorem C78_writes {i : Info} {s : MLState} {A B : Str} {p : Phase} (h : Sitting i s A B p) :
    (p = .shown → ∀ (op : UserOp) (s1 : MLState) (new : List Event), op.Ok s → op.run s = Res.ok s1 → s1.log = s.log ++ new →
      ∀ u t, Event.upload u t ∈ new → u = i.destination) ∧
    (∀ (e : Env) (s1 : MLState), s.refresh e = Res.ok s1 ∨ s.swap e = Res.ok s1 → ∃ new, s1.log = s.log ++ new ∧ ∀ u t, Event.upload u t ∉ new) ∧
    (∀ (e : Env) (r : ProcessResult) (s1 : MLState), s.slotDiffProcessFinished e r = Res.ok s1 → ∃ new, s1.log = s.log ++ new ∧ ∀ u t, Event.upload u t ∉ new) := by
  have sat := sat_of h
  refine ⟨?_, ?_, ?_⟩
  · rintro rfl op s1 new hop hrun hlog u t hu
    obtain ⟨s0, B1, ops, old, a1, a2, a3, a4, a5⟩ := (sat.shown rfl).since
    obtain ⟨m, _, _, k3, _⟩ := a1.keeps sat.mode
    obtain ⟨s', log, b1, b2, b3⟩ := k3 (ops ++ [op]) (by
      intro o ho
      rcases List.mem_append.1 ho with q | q
      · exact a2 o q
      · rw [List.mem_singleton.1 q]; exact ok_back (Since.frame a1 sat.mode a2 a3) hop)
    rw [runUser_join ops [op] a3 (runUser_one op hrun)] at b1
    cases b1
    have : log = old ++ new := by
      rw [a4, List.append_assoc] at hlog
      exact List.append_cancel_left (b2.symm.trans hlog)
    exact b3 u t (by rw [this]; exact List.mem_append_right _ hu)
  · intro e s1 hrun
    obtain ⟨j, hj, hso⟩ := sat.info
    obtain ⟨q1, _⟩ := hso.fields
    have key : ∃ b, s.compareMode e .ComparingFiles = Res.ok (s1, b) := by
      rcases hrun with h | h
      · unfold MLState.refresh at h
        rw [hj] at h
        obtain ⟨⟨t, b⟩, h1, h2⟩ := Res.bind_eq_ok.1 h
        cases h2
        rw [q1, sat.mode] at h1
        exact ⟨b, h1⟩
      · unfold MLState.swap at h
        rw [hj] at h
        dsimp only at h
        rw [q1, sat.mode, if_pos (.inl rfl)] at h
        obtain ⟨⟨t, b⟩, h1, h2⟩ := Res.bind_eq_ok.1 h
        cases h2
        exact ⟨b, h1⟩
    obtain ⟨b, hb⟩ := key
    obtain ⟨_, _, _, _, _, _, _, h4⟩ := compareMode_info hb
    exact ⟨_, h4, by simp⟩
  · intro e r s1 hrun
    obtain ⟨c1, c2, c3⟩ := C46_events hrun
    cases hx : r.exitStatus with
    | CrashExit => rw [c1 hx]; exact ⟨_, rfl, by simp⟩
    | NormalExit =>
      by_cases h0 : r.exitCode = 0
      · rw [c2 hx h0]; exact ⟨_, rfl, by simp⟩
      · obtain ⟨_, q, _, d1, d2⟩ := c3 hx h0
        cases hq : q.models with
        | none => exact ⟨_, (d1 hq).2, by simp⟩
        | some ms =>
          obtain ⟨x, xs, _, _, hl⟩ := d2 ms hq
          rw [List.append_assoc, List.append_assoc] at hl
          refine ⟨_, hl, ?_⟩
          intro u t hu
          cases hm : q.malformed <;> simp [hm] at hu

/-- **C78.** Whenever differences are shown, "apply all" and a save that does not fail make the destination file equal to the source file, and
comparing again (at any later time, with any truthful answer) tells the user that the files are identical and shows nothing. -/
theorem C78_ends {i : Info} {s : MLState} {A B : Str} (h : Sitting i s A B .shown) (v : MLState.SaveEnv) (hv : v.failure .ComparingFiles = none) :
    ∃ s2 new, runUser [.applyAll, .save v] s = Res.ok s2 ∧ s2.log = s.log ++ new ∧ fileAfter i.destination B new = A ∧ s2.hasUnsavedChanges = false ∧
      Sitting i s2 A A .shown ∧
      ∀ (e e' : Env) (s3 s4 : MLState) (r : ProcessResult), s2.refresh e = Res.ok s3 → Answers r A A → s3.slotDiffProcessFinished e' r = Res.ok s4 →
        s4.log = s3.log ++ [.error .identical] ∧ s4.models.getD [] = [] := by
  have sat := sat_of h
  obtain ⟨s1, B1, ops, old, a1, a2, a3, a4, a5⟩ := (sat.shown rfl).since
  obtain ⟨m, _, _, _, k4⟩ := a1.keeps sat.mode
  obtain ⟨s2, log, b1, b2, b3, b4⟩ := k4 ops a2 v hv true
  obtain ⟨t, c1, c2⟩ := runUser_split ops _ b1
  have et : t = s := Res.ok.inj (c1.symm.trans a3)
  subst et
  simp only [if_true] at c2 b3
  obtain ⟨u, d1, d2⟩ := Res.bind_eq_ok.mp c2
  obtain ⟨w, d3, d4⟩ := Res.bind_eq_ok.mp d2
  cases d4
  obtain ⟨x1, new1, e1, e2, e3⟩ := (C78_goes_on h).1 rfl .applyAll trivial
  have : x1 = u := Res.ok.inj (e1.symm.trans d1)
  subst this
  obtain ⟨x2, new2, f1, f2, f3⟩ := (C78_goes_on e3).1 rfl (.save v) trivial
  have : x2 = s2 := Res.ok.inj (f1.symm.trans d3)
  subst this
  have hnew : x2.log = t.log ++ (new1 ++ new2) := by rw [f2, e2, List.append_assoc]
  have elog : log = old ++ (new1 ++ new2) := by
    rw [a4, List.append_assoc] at hnew
    exact List.append_cancel_left (b2.symm.trans hnew)
  have hfile : fileAfter i.destination B (new1 ++ new2) = A := by
    rw [a5, ← fileAfter_append, ← elog]
    exact b3
  refine ⟨x2, new1 ++ new2, c2, hnew, hfile, b4, ?_, ?_⟩
  · rw [← fileAfter_append, hfile] at f3
    exact f3
  · intro e e' s3 s4 r hre hr hfin
    rw [(C46_events hfin).2.1 hr.1 (hr.2.1 rfl)]
    refine ⟨rfl, ?_⟩
    obtain ⟨j, hj, hso⟩ := (sat_of f3).info
    have hre' := hre
    unfold MLState.refresh at hre'
    rw [hj] at hre'
    obtain ⟨⟨y, b⟩, g1, g2⟩ := Res.bind_eq_ok.1 hre'
    cases g2
    unfold MLState.compareMode at g1
    dsimp only at g1
    rw [show x2.clear.info = some j from hj] at g1
    obtain ⟨pa, _, g3⟩ := Res.bind_eq_ok.1 g1
    cases g3
    show (x2.models.map (fun _ => [])).getD [] = []
    cases x2.models <;> rfl

/-! ### Example -/

/-- The two files of the example. -/
def sittingInfo : Info :=
  { mode := .ComparingFiles, source := str "file:/s/b.txt", destination := str "file:/d/b.txt", localSource := str "/s/b.txt", localDestination := str "/d/b.txt" }

/-- The answer of the diff program. -/
def sittingAnswer : ProcessResult := ⟨1, .NormalExit, exampleOne.render.flatten, []⟩

theorem sitting_answers : Answers sittingAnswer exampleOld exampleNew.flatten := by
  refine ⟨rfl, fun h => absurd h (by decide), fun _ => ⟨by decide, exampleOne, exampleOne.files.head (by decide), rfl, exampleOne_ok, rfl, ?_⟩⟩
  rw [exampleNew_split]
  exact example_patches

theorem sitting_holds : Holds examplePatch sittingInfo.localSource exampleOld := ⟨rfl, rfl, by decide⟩

/-- One comparison, with the differences shown. -/
theorem sitting_running : ∃ s, Sitting sittingInfo s exampleOld exampleNew.flatten .running := by
  let s0 := (MLState.init (some {}) true ⟨fun _ => Diff.new 0 0 .Unchanged, 0⟩).setInfo (some sittingInfo)
  have hr : Reachable s0 := ⟨some {}, true, ⟨fun _ => Diff.new 0 0 .Unchanged, 0⟩, [.setInfo (some sittingInfo)], rfl⟩
  obtain ⟨s1, h1⟩ := C41_comparing_total (e := examplePatch) (s := s0) (i := sittingInfo) (st := {}) rfl rfl rfl
  have hi : s1.info = some sittingInfo := by
    have h2 := h1
    unfold MLState.compare at h2
    rw [show s0.info = some sittingInfo from rfl] at h2
    dsimp only at h2
    rw [if_neg (by decide), if_pos (by decide), if_neg (by decide), if_neg (by decide)] at h2
    cases h2
    rfl
  exact ⟨s1, .compare examplePatch s0 s1 _ _ hr h1 hi rfl (by decide)⟩

/-- Differences are shown; everything is applied and saved; both files are changed by another program; they are compared again and the differences
are shown again. -/
example : ∃ s s2 s3, Sitting sittingInfo s exampleOld exampleNew.flatten .shown ∧ runUser [.applyAll, .save {}] s = Res.ok s2 ∧
    Sitting sittingInfo s2 exampleOld exampleOld .shown ∧ Sitting sittingInfo s3 exampleOld exampleNew.flatten .shown := by
  obtain ⟨s0, h0⟩ := sitting_running
  obtain ⟨s, h1⟩ := ((C78_goes_on h0).2.1 rfl).2 examplePatch sittingAnswer sitting_holds sitting_answers
  have hs : Sitting sittingInfo s exampleOld exampleNew.flatten .shown := .finished examplePatch sittingAnswer s0 s _ _ h0 sitting_holds sitting_answers h1
  obtain ⟨s2, _, h2, _, _, _, h3, _⟩ := C78_ends hs {} rfl
  have he : Sitting sittingInfo s2 exampleOld exampleNew.flatten .idle := .edited s2 _ _ _ _ _ h3 (by decide)
  obtain ⟨s4, h4⟩ := (C78_goes_on he).2.2 examplePatch
  have hr : Sitting sittingInfo s4 exampleOld exampleNew.flatten .running := .again examplePatch s2 s4 _ _ _ he (.inl h4)
  obtain ⟨s5, h5⟩ := ((C78_goes_on hr).2.1 rfl).2 examplePatch sittingAnswer sitting_holds sitting_answers
  exact ⟨s, s2, s5, hs, h2, h3, .finished examplePatch sittingAnswer s4 s5 _ _ hr sitting_holds sitting_answers h5⟩

end KompareDiff2
