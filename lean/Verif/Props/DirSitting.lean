import Verif.Spec.DirSitting
import Verif.Props.Sitting
import Verif.Props.PatchFile
/-
Property theorems C82: a whole sitting with two directories.
-/
namespace KompareDiff2
open Spec

/-- The diff program has finished with differences. -/
structure DirBegun (i : Info) (s1 : MLState) (A B : Texts) : Prop where
  begun : ∃ (e : Env) (s0 : MLState) (r : ProcessResult) (j : Info),
    Reachable s0 ∧ s0.info = some j ∧ Info.SameOperands i j ∧ HoldsDir e i.localSource A ∧
    DirAnswers e.win i.localSource i.localDestination r A B ∧ A ≠ B ∧ s0.slotDiffProcessFinished e r = Res.ok s1

/-- Names for the elements of a list. -/
theorem list_names {α : Type} (g : α → Str) : ∀ (ms : List Nat) (fs : List α), ms.Nodup → ms.length = fs.length →
    ∃ name : Nat → Str, ∀ (k m : Nat) (f : α), ms[k]? = some m → fs[k]? = some f → name m = g f := by
  intro ms
  induction ms with
  | nil => intro fs _ _; exact ⟨fun _ => [], fun k m f h => by simp at h⟩
  | cons x ms ih =>
    intro fs hn hl
    cases fs with
    | nil => simp at hl
    | cons y fs =>
      obtain ⟨hx, hn⟩ := List.nodup_cons.1 hn
      obtain ⟨name, hname⟩ := ih fs hn (by simpa using hl)
      refine ⟨fun m => if m = x then g y else name m, fun k m f h1 h2 => ?_⟩
      cases k with
      | zero =>
        simp only [List.getElem?_cons_zero, Option.some.injEq] at h1 h2
        subst h1; subst h2
        exact if_pos rfl
      | succ k =>
        simp only [List.getElem?_cons_succ] at h1 h2
        have : m ≠ x := fun q => hx (q ▸ List.mem_of_getElem? h1)
        dsimp only
        rw [if_neg this]
        exact hname k m f h1 h2

theorem DirBegun.keeps {i : Info} {s1 : MLState} {A B : Texts} (h : DirBegun i s1 A B) (hm : i.mode = .ComparingDirs) :
    ∃ (ms : List Nat) (name : Nat → Str), s1.models = some ms ∧ (∃ k j m d, Opened s1 ms ∧ At s1 ms k j m d) ∧
      (∃ j, s1.info = some j ∧ Info.SameOperands i j) ∧
      (∀ m ∈ ms, Under i.localSource (s1.store m).source (name m) ∧ Under i.localDestination (s1.store m).destination (name m) ∧
        KeepsFile s1 m (i.destination ++ name m) (A (name m)) (split (B (name m)))) ∧
      ms.Pairwise (fun m m' => name m ≠ name m') ∧ (∀ n, (∀ m ∈ ms, name m ≠ n) → B n = A n) ∧
      (∀ ops : List UserOp, (∀ op ∈ ops, op.Ok s1) → ∃ s' log, runUser ops s1 = Res.ok s' ∧ s'.log = s1.log ++ log ∧
        ∀ u t, Event.upload u t ∈ log → ∃ m ∈ ms, u = i.destination ++ name m) := by
  obtain ⟨e, s0, r, j, h1, h2, h3, ⟨h4, h4'⟩, h5, hne, h6⟩ := h.begun
  obtain ⟨q1, q2, q3, q4⟩ := h3.fields
  obtain ⟨hx, D, rest, g1, g2, g3, g4, g5⟩ := h5.2.2 hne
  have hfin : r.finishedNormally = true := (C46_success r).2 ⟨h5.1, hx⟩
  have horig : ∀ f ∈ D.files, f.changes = true → original e j.localSource (unescapePath e.win f.src.name) = A (rest f) := by
    intro f hf hc
    obtain ⟨⟨u1, _⟩, _⟩ := g3 f hf hc
    rw [q3, u1]
    unfold original
    rw [if_pos h4]
    dsimp only
    rw [if_pos (List.isPrefixOf_iff_prefix.2 ⟨_, rfl⟩)]
    exact h4' _
  obtain ⟨n, hn⟩ : ∃ n, A n ≠ B n := by
    apply Classical.byContradiction
    intro q
    exact hne (funext fun n => Classical.byContradiction fun q' => q ⟨n, q'⟩)
  obtain ⟨f0, hf0, hc0, _⟩ := g5 n hn
  obtain ⟨s1', ms, fs, k1, k2, k3, k4, k5, k6⟩ := C76_dirs (T := fun f => split (B (rest f))) h1 h2 (q1.trans hm) hfin D g1 g2 ⟨f0, hf0, hc0⟩ (by rw [q3]; exact h4)
    (by
      intro f hf hc
      rw [horig f hf hc]
      exact (g3 f hf hc).2.2)
    rest (by
      intro f hf hc
      rw [q4]
      exact (g3 f hf hc).2.1) g4
  have e1 : s1' = s1 := Res.ok.inj (k1.symm.trans h6)
  subst e1
  have hopen : OpensDiff (.diffFinished e r) s0 s1' := ⟨h6, hfin, by rw [k2]; simp⟩
  obtain ⟨_, _, ms', k, jj, m0, d, o1, a1⟩ := (hopen.inUse h1).facts
  have em : ms' = ms := by have := o1.models; rw [k2] at this; cases this; rfl
  subst em
  obtain ⟨name, hname⟩ := list_names rest ms' fs o1.nodup k4
  have mem : ∀ f, f ∈ fs → f ∈ D.files ∧ f.changes = true := fun f hf => List.mem_filter.1 (k3.mem_iff.1 hf)
  have file : ∀ x ∈ ms', ∃ (k : Nat) (f : UFile), ms'[k]? = some x ∧ fs[k]? = some f := by
    intro x hx
    obtain ⟨k, hk, e⟩ := List.mem_iff_getElem.1 hx
    exact ⟨k, fs[k]'(by omega), by rw [List.getElem?_eq_getElem hk, e], List.getElem?_eq_getElem _⟩
  have back : ∀ f ∈ fs, ∃ m ∈ ms', name m = rest f := by
    intro f hf
    obtain ⟨k, hk, e⟩ := List.mem_iff_getElem.1 hf
    have hk' : k < ms'.length := by omega
    exact ⟨ms'[k], List.getElem_mem _, hname k _ f (List.getElem?_eq_getElem hk') (by rw [List.getElem?_eq_getElem hk, e])⟩
  refine ⟨ms', name, k2, ⟨k, jj, m0, d, o1, a1⟩, ?_, fun m hmm => ?_, ?_, fun n hn => ?_, fun ops hops => ?_⟩
  · obtain ⟨j', hj', _⟩ := beyond_info (beyond_finished h6) h2
    have b := (beyond_finished h6).info
    rw [h2, hj'] at b
    have b := Option.some.inj b
    refine ⟨j', hj', h3.trans ?_⟩
    unfold Info.SameOperands
    have c1 := congrArg Info.mode b
    have c2 := congrArg Info.diffMode b
    have c3 := congrArg Info.source b
    have c4 := congrArg Info.destination b
    have c5 := congrArg Info.localSource b
    have c6 := congrArg Info.localDestination b
    have c7 := congrArg Info.sourceTempDir b
    have c8 := congrArg Info.destinationTempDir b
    have c9 := congrArg Info.depth b
    have c10 := congrArg Info.applied b
    simp only [Info.unread] at c1 c2 c3 c4 c5 c6 c7 c8 c9 c10
    rw [c1, c2, c3, c4, c5, c6, c7, c8, c9, c10]
  · obtain ⟨k, f, hk, hf⟩ := file m hmm
    obtain ⟨p1, p2, p3⟩ := k5 k m f hk hf
    obtain ⟨hfD, hfc⟩ := mem f (List.mem_of_getElem? hf)
    obtain ⟨u1, u2, _⟩ := g3 f hfD hfc
    rw [hname k m f hk hf, p1, p2]
    refine ⟨u1, u2, ?_⟩
    rw [horig f hfD hfc, q2] at p3
    exact p3
  · have hdis : fs.Pairwise (fun f f' => rest f ≠ rest f') := (k3.pairwise_iff (fun h => h.symm)).2 g4
    rw [List.pairwise_iff_getElem] at hdis ⊢
    intro a b ha hb hab
    rw [hname a _ fs[a] (List.getElem?_eq_getElem ha) (List.getElem?_eq_getElem _), hname b _ fs[b] (List.getElem?_eq_getElem hb) (List.getElem?_eq_getElem _)]
    exact hdis a b _ _ hab
  · apply Classical.byContradiction
    intro q
    obtain ⟨f, hf, hc, hr⟩ := g5 n (fun q' => q q'.symm)
    obtain ⟨m, hm', e⟩ := back f (k3.mem_iff.2 (List.mem_filter.2 ⟨hf, hc⟩))
    exact hn m hm' (e.trans hr)
  · obtain ⟨s', log, p1, p2, p3⟩ := k6 ops hops
    refine ⟨s', log, p1, p2, fun u t hu => ?_⟩
    obtain ⟨f, hf, hc, e⟩ := p3 u t hu
    obtain ⟨m, hm', e'⟩ := back f (k3.mem_iff.2 (List.mem_filter.2 ⟨hf, hc⟩))
    exact ⟨m, hm', by rw [e', e, q2]⟩

/-- How a state in which differences are shown came about. -/
structure DirSince (i : Info) (s : MLState) (A B : Texts) : Prop where
  since : ∃ (s1 : MLState) (B1 : Texts) (ops : List UserOp) (new : List Event), DirBegun i s1 A B1 ∧ (∀ op ∈ ops, op.Ok s1) ∧ runUser ops s1 = Res.ok s ∧
    s.log = s1.log ++ new ∧ B = fun n => fileAfter (i.destination ++ n) (B1 n) new

theorem DirBegun.frame {i : Info} {s s1 : MLState} {A B : Texts} {ops : List UserOp} (h : DirBegun i s1 A B) (hm : i.mode = .ComparingDirs)
    (h2 : ∀ op ∈ ops, op.Ok s1) (h3 : runUser ops s1 = Res.ok s) : Frame s1 s := by
  obtain ⟨ms, _, _, ⟨k, j, m0, d, o1, a1⟩, _⟩ := h.keeps hm
  obtain ⟨s', _, _, _, _, g⟩ := runUser_ok ops o1 a1 h2
  have := g.ok.symm.trans h3
  cases this
  exact g.frame

/-- The invariant of a sitting. -/
structure DirSat (i : Info) (s : MLState) (A B : Texts) (p : Phase) : Prop where
  reach : Reachable s
  settings : s.settings ≠ none
  info : ∃ j, s.info = some j ∧ Info.SameOperands i j
  mode : i.mode = .ComparingDirs
  shown : p = .shown → DirSince i s A B
  running : p = .running → ∃ cmd, s.process = some (.compare (cmd ++ [str "--", i.localSource, i.localDestination]) none)

theorem dir_again {e : Env} {i j : Info} {s s1 : MLState} (hj : s.info = some j) (hso : Info.SameOperands i j) (hm : i.mode = .ComparingDirs)
    (hrun : s.refresh e = Res.ok s1 ∨ s.swap e = Res.ok s1) : ∃ b, s.compareMode e .ComparingDirs = Res.ok (s1, b) := by
  obtain ⟨q1, _⟩ := hso.fields
  rcases hrun with h | h
  · unfold MLState.refresh at h
    rw [hj] at h
    obtain ⟨⟨t, b⟩, h1, h2⟩ := Res.bind_eq_ok.1 h
    cases h2
    rw [q1, hm] at h1
    exact ⟨b, h1⟩
  · unfold MLState.swap at h
    rw [hj] at h
    dsimp only at h
    rw [q1, hm, if_pos (.inr rfl)] at h
    obtain ⟨⟨t, b⟩, h1, h2⟩ := Res.bind_eq_ok.1 h
    cases h2
    exact ⟨b, h1⟩

theorem dir_started {e : Env} {s s1 : MLState} {i j : Info} {b : Bool} (hi : s.info = some j) (hso : Info.SameOperands i j)
    (h : s.compareMode e .ComparingDirs = Res.ok (s1, b)) :
    s1.info = some j ∧ ∃ cmd, s1.process = some (.compare (cmd ++ [str "--", i.localSource, i.localDestination]) none) := by
  obtain ⟨j', args, h1, h2, _, h3, h4, _⟩ := compareMode_info h
  have ej : j' = j := Option.some.inj (h1.symm.trans hi)
  subst ej
  obtain ⟨_, _, q3, q4⟩ := hso.fields
  refine ⟨h2, ?_⟩
  unfold processArgs at h3
  rw [if_neg (by decide)] at h3
  cases hs : s.settings with
  | none => rw [hs] at h3; cases h3
  | some st =>
    rw [hs] at h3
    cases h3
    rw [h4, ← q3, ← q4]
    exact ⟨_, rfl⟩

theorem dirSat_of {i : Info} {s : MLState} {A B : Texts} {p : Phase} (h : DirSitting i s A B p) : DirSat i s A B p := by
  induction h with
  | compare e s s1 A B h1 h2 h3 h4 =>
    have hr : Reachable s1 := h1.step (op := .compare e) (by simp only [MLOp.run]; rw [h2]; rfl)
    refine ⟨hr, compare_settings h2 h3 (.inr h4), ⟨i, h3, .refl i⟩, h4, (by intro q; cases q), fun _ => ?_⟩
    obtain ⟨k, k', a1, a2, a3, a4, a5⟩ := C41_compare h2
    have ek : k' = i := Option.some.inj (a2.symm.trans h3)
    subst ek
    rw [if_pos (.inr h4)] at a5
    obtain ⟨args, b1, b2, _⟩ := a5
    have hd : (Operand.decide (e.kind k.localSource) (e.kind k.localDestination)).2 = false := by
      rw [h4] at a3
      revert a3
      cases e.kind k.localSource <;> cases e.kind k.localDestination <;> simp [Operand.decide]
    rw [hd] at a4
    have hf := Info.SameOperands.fields a4
    simp only [Bool.false_eq_true, if_false] at hf
    obtain ⟨_, _, q3, q4⟩ := hf
    rw [b2]
    unfold processArgs at b1
    rw [if_neg (by decide), h4] at b1
    cases hs : s.settings with
    | none => rw [hs] at b1; cases b1
    | some st =>
      rw [hs] at b1
      cases b1
      rw [q3, q4]
      exact ⟨_, rfl⟩
  | again e s s1 A B p _ hrun ih =>
    obtain ⟨hr, hset, ⟨j, hj, hso⟩, hm, _, _⟩ := ih
    obtain ⟨b, hb⟩ := dir_again hj hso hm hrun
    obtain ⟨k1, k2⟩ := dir_started hj hso hb
    refine ⟨?_, by rw [(compareMode_settings hb).1]; exact hset, ⟨j, k1, hso⟩, hm, (by intro q; cases q), fun _ => k2⟩
    rcases hrun with h | h
    · exact hr.step (op := .refresh e) h
    · exact hr.step (op := .swap e) h
  | finished e r s s1 A B _ hA hr hne hrun ih =>
    obtain ⟨hre, hset, ⟨j, hj, hso⟩, hm, _, _⟩ := ih
    have hb : DirBegun i s1 A B := ⟨e, s, r, j, hre, hj, hso, hA, hr, hne, hrun⟩
    obtain ⟨_, _, _, _, hinfo, _⟩ := hb.keeps hm
    exact ⟨hre.step (op := .diffFinished e r) hrun, by rw [(beyond_finished hrun).settings]; exact hset, hinfo, hm,
      fun _ => ⟨s1, B, [], [], hb, by simp, rfl, by simp, rfl⟩, (by intro q; cases q)⟩
  | identical e r s s1 A _ hr hrun ih =>
    obtain ⟨hre, hset, ⟨j, hj, hso⟩, hm, _, _⟩ := ih
    have := (C46_events hrun).2.1 hr.1 (hr.2.1 rfl)
    exact ⟨hre.step (op := .diffFinished e r) hrun, by rw [(beyond_finished hrun).settings]; exact hset, ⟨j, by rw [this]; exact hj, hso⟩, hm,
      (by intro q; cases q), (by intro q; cases q)⟩
  | user op s s1 A B new _ hop hrun hlog ih =>
    obtain ⟨hre, hset, ⟨j, hj, hso⟩, hm, hs, _⟩ := ih
    obtain ⟨s0, B1, ops, old, a1, a2, a3, a4, a5⟩ := (hs rfl).since
    have hops : ∀ o ∈ ops ++ [op], o.Ok s0 := by
      intro o ho
      rcases List.mem_append.1 ho with q | q
      · exact a2 o q
      · rw [List.mem_singleton.1 q]; exact ok_back (a1.frame hm a2 a3) hop
    have hj' := runUser_join ops [op] a3 (runUser_one op hrun)
    have hset0 : s0.settings ≠ none := by rw [← (a1.frame hm a2 a3).settings]; exact hset
    obtain ⟨_, _, _, _, ⟨j0, b1, b2⟩, _⟩ := a1.keeps hm
    refine ⟨hre.step (op := .user op) hrun, by rw [(a1.frame hm hops hj').settings]; exact hset0, ⟨j0, (a1.frame hm hops hj').info.trans b1, b2⟩, hm,
      fun _ => ⟨s0, B1, ops ++ [op], old ++ new, a1, hops, hj', ?_, ?_⟩, (by intro q; cases q)⟩
    · rw [hlog, a4, List.append_assoc]
    · funext n
      rw [fileAfter_append, a5]
  | edited s A B A' B' p _ hp ih => exact ⟨ih.reach, ih.settings, ih.info, ih.mode, (by intro q; cases q), (by intro q; cases q)⟩

/-- **C82.** At every moment of a sitting at which differences are shown — however often the directories were compared, changed outside, marked and
saved before — every file of the destination directory has the text of the source file with exactly those changes made that were not marked
when it was last saved; files that are not shown are equal. -/
theorem C82_files {i : Info} {s : MLState} {A B : Texts} (h : DirSitting i s A B .shown) :
    ∃ (ms : List Nat) (name : Nat → Str), s.models = some ms ∧ ms ≠ [] ∧ InStep i s A B ms name := by
  have sat := dirSat_of h
  obtain ⟨s1, B1, ops, new, a1, a2, a3, a4, a5⟩ := (sat.shown rfl).since
  obtain ⟨ms, name, k1, ⟨k, jj, m0, d, o1, x1⟩, _, k2, k3, k4, k5⟩ := a1.keeps sat.mode
  have hf := a1.frame sat.mode a2 a3
  have hhead : ∀ m, (s.store m).source = (s1.store m).source ∧ (s.store m).destination = (s1.store m).destination := by
    intro m
    have := hf.head m
    unfold DModel.head at this
    simp only [Prod.mk.injEq] at this
    exact ⟨this.1, this.2.1⟩
  have one : ∀ m ∈ ms, (∃ out, Patches 0 ((pending ((s.store m).hunks.map (Hunk.view (lastMarks s.heap)))).map DView.edit) (split (A (name m))) out ∧
      B (name m) = out.flatten) ∧ ((∀ d ∈ (s.store m).differences, (s.heap.cell d).unsaved = false) →
      (∃ out, Patches 0 ((pending ((s.store m).hunks.map (Hunk.view s.heap))).map DView.edit) (split (A (name m))) out ∧ B (name m) = out.flatten) ∧
      ((∀ d ∈ (s.store m).differences, (s.heap.cell d).applied = true) → B (name m) = A (name m))) := by
    intro m hm
    obtain ⟨s', new', b1, b2, b3, b4⟩ := (k2 m hm).2.2 ops a2
    have es : s' = s := Res.ok.inj (b1.symm.trans a3)
    subst es
    have en : new' = new := List.append_cancel_left (b2.symm.trans a4)
    subst en
    have eB : B (name m) = fileAfter (i.destination ++ name m) (B1 (name m)) new' := by rw [a5]
    rw [show (split (B1 (name m))).flatten = B1 (name m) from splitAux_flatten [] _, ← eB] at b3 b4
    exact ⟨b3, fun hu => ⟨(b4 hu).1, (b4 hu).2.2⟩⟩
  refine ⟨ms, name, hf.models.trans k1, o1.ne, fun m hm => ?_, k3, fun m hm => (one m hm).1, fun m hm => (one m hm).2, fun n hn => ?_⟩
  · rw [(hhead m).1, (hhead m).2]
    exact ⟨(k2 m hm).1, (k2 m hm).2.1⟩
  · obtain ⟨s', new', b1, b2, b3⟩ := k5 ops a2
    have es : s' = s := Res.ok.inj (b1.symm.trans a3)
    subst es
    have en : new' = new := List.append_cancel_left (b2.symm.trans a4)
    subst en
    rw [a5]
    dsimp only
    rw [fileAfter_other, k4 n hn]
    intro t ht
    obtain ⟨m, hm, e⟩ := b3 _ t ht
    exact hn m hm (List.append_cancel_left e).symm

/-- **C82.** A sitting never gets stuck: while differences are shown every action of the user can be carried out; the program that runs was
given the two directories, and whatever it answers truthfully is taken; `refresh()` works at every moment. -/
theorem C82_goes_on {i : Info} {s : MLState} {A B : Texts} {p : Phase} (h : DirSitting i s A B p) :
    (p = .shown → ∀ op : UserOp, op.Ok s → ∃ s1 new, op.run s = Res.ok s1 ∧ s1.log = s.log ++ new ∧
      DirSitting i s1 A (fun n => fileAfter (i.destination ++ n) (B n) new) .shown) ∧
    (p = .running → (∃ cmd, s.process = some (.compare (cmd ++ [str "--", i.localSource, i.localDestination]) none)) ∧
      ∀ (e : Env) (r : ProcessResult), HoldsDir e i.localSource A → DirAnswers e.win i.localSource i.localDestination r A B →
        ∃ s1, s.slotDiffProcessFinished e r = Res.ok s1) ∧
    ∀ e : Env, ∃ s1, s.refresh e = Res.ok s1 := by
  have sat := dirSat_of h
  refine ⟨?_, fun hp => ⟨sat.running hp, fun e r hA hr => ?_⟩, fun e => ?_⟩
  · rintro rfl op hop
    obtain ⟨s1, B1, ops, old, a1, a2, a3, a4, a5⟩ := (sat.shown rfl).since
    obtain ⟨ms, _, _, ⟨k, j, m0, d, o1, x1⟩, _⟩ := a1.keeps sat.mode
    obtain ⟨u, k', j', m', d', g⟩ := runUser_ok ops o1 x1 a2
    have eu : u = s := Res.ok.inj (g.ok.symm.trans a3)
    subst eu
    obtain ⟨i1, hi1⟩ := Option.ne_none_iff_exists'.1 g.opened.info
    obtain ⟨v, y1, new, y2, _⟩ := spares_run [op] g.opened ⟨_, _, _, _, g.atIt⟩ hi1 (by intro o ho; rw [List.mem_singleton.1 ho]; exact hop)
    obtain ⟨w, d1, d2⟩ := Res.bind_eq_ok.mp y1
    cases d2
    exact ⟨v, new, d1, y2, .user op u v A B new h hop d1 y2⟩
  · obtain ⟨j, hj, hso⟩ := sat.info
    by_cases hAB : A = B
    · have hf : r.finishedNormally = false := by
        cases q : r.finishedNormally with
        | false => rfl
        | true => exact absurd (hr.2.1 hAB) ((C46_success r).1 q).2
      unfold MLState.slotDiffProcessFinished
      rw [hf, hr.1]
      exact ⟨_, rfl⟩
    · obtain ⟨n, hn⟩ : ∃ n, A n ≠ B n := by
        apply Classical.byContradiction
        intro q
        exact hAB (funext fun n => Classical.byContradiction fun q' => q ⟨n, q'⟩)
      obtain ⟨hx, D, rest, g1, g2, _, _, g5⟩ := hr.2.2 hAB
      obtain ⟨f, hf, _⟩ := g5 n hn
      obtain ⟨q, hq, _⟩ := C26_unified D g2 (by intro q; rw [q] at hf; cases hf) e.win e.cmp s.heap
      exact C46_total sat.reach (by rw [hj]; simp) (by rw [g1]; exact hq)
  · obtain ⟨j, hj, hso⟩ := sat.info
    obtain ⟨st, hst⟩ := Option.ne_none_iff_exists'.1 sat.settings
    unfold MLState.refresh MLState.compareMode
    rw [hj]
    dsimp only
    rw [show s.clear.info = some j from hj, show s.clear.settings = some st from hst]
    exact ⟨_, rfl⟩

/-- **C82.** During a sitting only files of the destination directory that are shown are ever written, and only by actions of the user: comparing
again and the answers of the diff program write nothing. -/
theorem C82_writes {i : Info} {s : MLState} {A B : Texts} {p : Phase} (h : DirSitting i s A B p) :
    (p = .shown → ∃ (ms : List Nat) (name : Nat → Str), s.models = some ms ∧
      (∀ m ∈ ms, Under i.localDestination (s.store m).destination (name m)) ∧
      ∀ (op : UserOp) (s1 : MLState) (new : List Event), op.Ok s → op.run s = Res.ok s1 → s1.log = s.log ++ new →
        ∀ u t, Event.upload u t ∈ new → ∃ m ∈ ms, u = i.destination ++ name m) ∧
    (∀ (e : Env) (s1 : MLState), s.refresh e = Res.ok s1 ∨ s.swap e = Res.ok s1 → ∃ new, s1.log = s.log ++ new ∧ ∀ u t, Event.upload u t ∉ new) := by
  have sat := dirSat_of h
  refine ⟨?_, ?_⟩
  · rintro rfl
    obtain ⟨s0, B1, ops, old, a1, a2, a3, a4, a5⟩ := (sat.shown rfl).since
    obtain ⟨ms, name, k1, _, _, k2, _, _, k5⟩ := a1.keeps sat.mode
    have hf := a1.frame sat.mode a2 a3
    refine ⟨ms, name, hf.models.trans k1, fun m hm => ?_, ?_⟩
    · have := hf.head m
      unfold DModel.head at this
      simp only [Prod.mk.injEq] at this
      rw [this.2.1]
      exact (k2 m hm).2.1
    · intro op s1 new hop hrun hlog u t hu
      obtain ⟨s', log, b1, b2, b3⟩ := k5 (ops ++ [op]) (by
        intro o ho
        rcases List.mem_append.1 ho with q | q
        · exact a2 o q
        · rw [List.mem_singleton.1 q]; exact ok_back hf hop)
      rw [runUser_join ops [op] a3 (runUser_one op hrun)] at b1
      cases b1
      have : log = old ++ new := by
        rw [a4, List.append_assoc] at hlog
        exact List.append_cancel_left (b2.symm.trans hlog)
      exact b3 u t (by rw [this]; exact List.mem_append_right _ hu)
  · intro e s1 hrun
    obtain ⟨j, hj, hso⟩ := sat.info
    obtain ⟨b, hb⟩ := dir_again hj hso sat.mode hrun
    obtain ⟨_, _, _, _, _, _, _, h4⟩ := compareMode_info hb
    exact ⟨_, h4, by simp⟩

/-- The user can mark everything: select each file and apply all. -/
theorem mark_all {ms : List Nat} : ∀ (l : List Nat) {s : MLState} {k j m d : Nat}, Opened s ms → At s ms k j m d → (∀ x ∈ l, x ∈ ms) →
    ∃ (ops : List UserOp) (s' : MLState) (k' j' m' d' : Nat), (∀ op ∈ ops, op.Ok s) ∧ runUser ops s = Res.ok s' ∧ Opened s' ms ∧ At s' ms k' j' m' d' ∧ Frame s s' ∧
      (∀ x ∈ l, ∀ d ∈ (s.store x).differences, (s'.heap.cell d).applied = true) ∧ ∀ d, (s.heap.cell d).applied = true → (s'.heap.cell d).applied = true := by
  intro l
  induction l with
  | nil => intro s k j m d o a _; exact ⟨[], s, k, j, m, d, by simp, rfl, o, a, .refl s, (by intro x hx; cases hx), fun _ h => h⟩
  | cons x l ih =>
    intro s k j m d o a hl
    have hx := hl x (List.mem_cons_self ..)
    obtain ⟨y, hy⟩ := List.exists_mem_of_ne_nil _ (o.diffs x hx)
    have ok1 : (UserOp.select x y).Ok s := ⟨by rw [o.models]; exact hx, o.liveDiffs x hx y hy⟩
    obtain ⟨s1, k1, j1, y', g1, _⟩ := slotSelectionChanged_ok o hx (o.liveDiffs x hx y hy)
    have run1 : (UserOp.select x y).run s = Res.ok s1 := g1.ok
    obtain ⟨s2, k2, j2, m2, d2, g2, _⟩ := user_ok g1.opened g1.atIt .applyAll trivial
    have ha : ∀ d, (s2.heap.cell d).applied = if d ∈ (s.store x).differences then true else (s.heap.cell d).applied := by
      have h := g2.ok
      simp only [UserOp.run] at h
      unfold MLState.actionApplyAll at h
      obtain ⟨t, h1, h2⟩ := Res.bind_eq_ok.1 h
      unfold MLState.slotApplyAllDifferences at h1
      have hmod : s1.model s1.selectedModel = Res.ok x := by
        rw [g1.atIt.selectedModel]
        unfold MLState.model
        simp [g1.opened.live x hx]
      rw [hmod, Res.bind_ok] at h1
      intro d
      rw [(named_update h2).2.1, ← Res.ok.inj h1]
      have := applied_applyAllLoop true (s1.store x).differences s1.heap 0 d
      rw [g1.frame.differences, g1.heap] at this
      rw [← this, ← g1.frame.differences x, ← g1.heap]
      rfl
    have f2 : Frame s s2 := g1.frame.trans g2.frame
    obtain ⟨ops, s', k', j', m', d', p1, p2, p3, p4, p5, p6, p7⟩ := ih g2.opened g2.atIt (fun z hz => hl z (List.mem_cons_of_mem _ hz))
    refine ⟨[.select x y, .applyAll] ++ ops, s', k', j', m', d', ?_, ?_, p3, p4, f2.trans p5, ?_, ?_⟩
    · intro op hop
      rcases List.mem_append.1 hop with q | q
      · simp only [List.mem_cons, List.not_mem_nil, or_false] at q
        rcases q with rfl | rfl
        · exact ok1
        · trivial
      · exact ok_back f2 (p1 op q)
    · refine runUser_join [.select x y, .applyAll] ops ?_ p2
      exact runUser_join [.select x y] [.applyAll] (runUser_one _ run1) (runUser_one _ g2.ok)
    · intro z hz d hd
      rcases List.mem_cons.1 hz with rfl | hz
      · exact p7 d (by rw [ha, if_pos hd])
      · exact p6 z hz d (by rw [f2.differences]; exact hd)
    · intro d hd
      refine p7 d ?_
      rw [ha]
      split
      · rfl
      · exact hd

/-- A sequence of actions of the user. -/
theorem dir_users {i : Info} {A : Texts} : ∀ (ops : List UserOp) {s s' : MLState} {B : Texts}, DirSitting i s A B .shown → (∀ op ∈ ops, op.Ok s) →
    runUser ops s = Res.ok s' → ∃ B', DirSitting i s' A B' .shown := by
  intro ops
  induction ops with
  | nil => intro s s' B h _ e; cases e; exact ⟨B, h⟩
  | cons op ops ih =>
    intro s s' B h hops e
    obtain ⟨t, e1, e2⟩ := Res.bind_eq_ok.1 e
    obtain ⟨t', new, f1, _, f3⟩ := (C82_goes_on h).1 rfl op (hops op (List.mem_cons_self ..))
    have et : t' = t := Res.ok.inj (f1.symm.trans e1)
    subst et
    have sat := dirSat_of h
    obtain ⟨s1, B1, ops1, old, a1, a2, a3, _⟩ := (sat.shown rfl).since
    obtain ⟨ms, _, _, ⟨k, j, m0, d, o1, x1⟩, _⟩ := a1.keeps sat.mode
    obtain ⟨u, k', j', m', d', g⟩ := runUser_ok ops1 o1 x1 a2
    have eu : u = s := Res.ok.inj (g.ok.symm.trans a3)
    subst eu
    obtain ⟨w, _, _, _, _, gw, _⟩ := user_ok g.opened g.atIt op (hops op (List.mem_cons_self ..))
    have ew : w = t' := Res.ok.inj (gw.ok.symm.trans f1)
    subst ew
    refine ih f3 (fun o ho => ?_) e2
    have := hops o (List.mem_cons_of_mem _ ho)
    cases o <;> simp only [UserOp.Ok, gw.frame.models, gw.frame.deadDiffs] at this ⊢ <;> exact this

/-- **C82.** If all differences of all files are marked, "save all" without failures makes the destination directory equal to the source directory,
and comparing again (at any later time, with any truthful answer) tells the user that they are identical and shows nothing. -/
theorem C82_ends {i : Info} {s : MLState} {A B : Texts} (h : DirSitting i s A B .shown)
    (hall : ∀ m ∈ s.models.getD [], ∀ d ∈ (s.store m).differences, (s.heap.cell d).applied = true)
    (v : Nat → MLState.SaveEnv) (hv : ∀ m, (v m).failure .ComparingDirs = none) :
    ∃ s2, s.saveAll v = Res.ok (s2, true) ∧ s2.hasUnsavedChanges = false ∧ DirSitting i s2 A A .shown ∧
      ∀ (e e' : Env) (s3 s4 : MLState) (r : ProcessResult), s2.refresh e = Res.ok s3 → DirAnswers e'.win i.localSource i.localDestination r A A →
        s3.slotDiffProcessFinished e' r = Res.ok s4 → s4.log = s3.log ++ [.error .identical] ∧ s4.models.getD [] = [] := by
  have sat := dirSat_of h
  obtain ⟨ms, name, k1, k2, _⟩ := C82_files h
  obtain ⟨j, hj, hso⟩ := sat.info
  obtain ⟨q1, _⟩ := hso.fields
  obtain ⟨s2, c1, c2, c3, c4, c5⟩ := C36_saveAll (v := v) k1 k2 (fun m hm => sat.reach.owned.live m (by rw [k1]; exact hm)) hj
    (fun m _ => by rw [q1, sat.mode]; exact hv m)
  obtain ⟨x, new, e1, e2, e3⟩ := (C82_goes_on h).1 rfl (.saveAll v) trivial
  have ex : x = s2 := by
    have : (UserOp.saveAll v).run s = Res.ok s2 := by simp only [UserOp.run]; rw [c1]; rfl
    exact Res.ok.inj (e1.symm.trans this)
  subst ex
  obtain ⟨ms', name', l1, _, st⟩ := C82_files e3
  have em : ms' = ms := by rw [c3, k1] at l1; cases l1; rfl
  subst em
  have hun : ∀ m ∈ ms', ∀ d ∈ (x.store m).differences, (x.heap.cell d).unsaved = false := by
    intro m hm d hd
    unfold MLState.hasUnsavedChanges at c2
    rw [l1] at c2
    have := List.any_eq_false.1 c2 m hm
    unfold DModel.hasUnsavedChanges at this
    have := List.any_eq_false.1 (by simpa using this) d hd
    simpa using this
  have hA : (fun n => fileAfter (i.destination ++ n) (B n) new) = A := by
    funext n
    by_cases q : ∃ m ∈ ms', name' m = n
    · obtain ⟨m, hm, rfl⟩ := q
      refine (st.saved m hm (hun m hm)).2 (fun d hd => ?_)
      rw [c5]
      rw [c4] at hd
      exact hall m (by rw [k1]; exact hm) d hd
    · exact st.others n (fun m hm q' => q ⟨m, hm, q'⟩)
  rw [hA] at e3
  refine ⟨x, c1, c2, e3, ?_⟩
  intro e e' s3 s4 r hre hr hfin
  rw [(C46_events hfin).2.1 hr.1 (hr.2.1 rfl)]
  refine ⟨rfl, ?_⟩
  obtain ⟨j, hj, hso⟩ := (dirSat_of e3).info
  have hre' := hre
  unfold MLState.refresh at hre'
  rw [hj] at hre'
  obtain ⟨⟨y, b⟩, g1, g2⟩ := Res.bind_eq_ok.1 hre'
  cases g2
  unfold MLState.compareMode at g1
  dsimp only at g1
  rw [show x.clear.info = some j from hj] at g1
  obtain ⟨pa, _, g3⟩ := Res.bind_eq_ok.1 g1
  cases g3
  show (x.models.map (fun _ => [])).getD [] = []
  cases x.models <;> rfl

/-- **C82.** Whenever differences are shown, the user can make the destination directory equal to the source directory: by actions after which all
differences are marked, and "save all". -/
theorem C82_reach {i : Info} {s : MLState} {A B : Texts} (h : DirSitting i s A B .shown) (v : Nat → MLState.SaveEnv) (hv : ∀ m, (v m).failure .ComparingDirs = none) :
    ∃ (ops : List UserOp) (s1 s2 : MLState), (∀ op ∈ ops, op.Ok s) ∧ runUser ops s = Res.ok s1 ∧ s1.saveAll v = Res.ok (s2, true) ∧ s2.hasUnsavedChanges = false ∧
      DirSitting i s2 A A .shown := by
  have sat := dirSat_of h
  obtain ⟨s1, B1, ops1, old, a1, a2, a3, _⟩ := (sat.shown rfl).since
  obtain ⟨ms, _, _, ⟨k, j, m0, d, o1, x1⟩, _⟩ := a1.keeps sat.mode
  obtain ⟨u, k', j', m', d', g⟩ := runUser_ok ops1 o1 x1 a2
  have eu : u = s := Res.ok.inj (g.ok.symm.trans a3)
  subst eu
  obtain ⟨ops, s', _, _, _, _, p1, p2, p3, _, p5, p6, _⟩ := mark_all ms g.opened g.atIt (fun _ h => h)
  obtain ⟨B', hB⟩ := dir_users ops h p1 p2
  obtain ⟨s2, c1, c2, c3, _⟩ := C82_ends hB (by
    intro m hm d hd
    rw [p3.models] at hm
    rw [p5.differences] at hd
    exact p6 m hm d hd) v hv
  exact ⟨ops, s', s2, p1, p2, c1, c2, c3⟩

/-! ### Example -/

/-- The two directories of the example. -/
def dirSittingInfo : Info :=
  { mode := .ComparingDirs, source := str "file:/s/", destination := str "file:/d/", localSource := str "old/", localDestination := str "new/" }

/-- `old` has a file `b.txt` and no `sub/a.txt`. -/
def dirSittingEnv : Env :=
  { emptyEnv with
    isDir := fun p => decide (p = str "old/" ∨ p = str "new/"), exists_ := fun p => decide (p = str "old/b.txt"), contents := fun _ => exampleOld }

def dirSittingOld : Texts := fun n => if n = str "b.txt" then exampleOld else []

def dirSittingNew : Texts := fun n => if n = str "b.txt" then exampleNew.flatten else if n = str "sub/a.txt" then str "only\n" else []

theorem dirSitting_holds : HoldsDir dirSittingEnv dirSittingInfo.localSource dirSittingOld := by
  refine ⟨by decide, fun n => ?_⟩
  show (if decide (str "old/" ++ n = str "old/b.txt") = true then exampleOld else []) = if n = str "b.txt" then exampleOld else []
  by_cases q : n = str "b.txt"
  · subst q; rfl
  · rw [if_neg, if_neg q]
    intro q'
    exact q (List.append_cancel_left (as := str "old/") (of_decide_eq_true q'))

theorem dirSitting_differ : dirSittingOld ≠ dirSittingNew := by
  intro q
  have := congrFun q (str "sub/a.txt")
  revert this
  decide

theorem dirSitting_answers : DirAnswers false dirSittingInfo.localSource dirSittingInfo.localDestination dirOutput dirSittingOld dirSittingNew := by
  refine ⟨rfl, fun q => absurd q dirSitting_differ, fun _ => ⟨by decide, dirDiff, fun f => f.dst.name.drop 4, rfl, dirDiff_ok, ?_, ?_, ?_⟩⟩
  · intro f hf _
    simp only [dirDiff, List.mem_cons, List.not_mem_nil, or_false] at hf
    rcases hf with rfl | rfl
    · refine ⟨⟨by decide, .inr (.inl (by decide))⟩, ⟨by decide, .inr (.inl (by decide))⟩, ?_⟩
      have e1 : split (dirSittingOld ((str "new/b.txt").drop 4)) = split exampleOld := by rfl
      have e2 : split (dirSittingNew ((str "new/b.txt").drop 4)) = exampleNew := by decide
      dsimp only
      rw [e1, e2]
      exact example_patches
    · refine ⟨⟨by decide, .inr (.inl (by decide))⟩, ⟨by decide, .inr (.inl (by decide))⟩, ?_⟩
      have e1 : split (dirSittingOld ((str "new/sub/a.txt").drop 4)) = [] := by decide
      have e2 : split (dirSittingNew ((str "new/sub/a.txt").drop 4)) = [str "only\n"] := by decide
      dsimp only
      rw [e1, e2]
      exact .edit 0 ⟨1, [], [str "only\n"]⟩ [] [] [] [] (by decide) (.done _ _)
  · decide
  · intro n hn
    by_cases q1 : n = str "b.txt"
    · subst q1; exact ⟨_, List.mem_cons_self .., by decide, by decide⟩
    · by_cases q2 : n = str "sub/a.txt"
      · subst q2; exact ⟨_, List.mem_cons_of_mem _ (List.mem_cons_self ..), by decide, by decide⟩
      · exact absurd (by unfold dirSittingOld dirSittingNew; rw [if_neg q1, if_neg q1, if_neg q2]) hn

/-- The comparison runs. -/
theorem dirSitting_running : ∃ s, DirSitting dirSittingInfo s dirSittingOld dirSittingNew .running := by
  let s0 := (MLState.init (some {}) true ⟨fun _ => Diff.new 0 0 .Unchanged, 0⟩).setInfo (some dirSittingInfo)
  have hr : Reachable s0 := ⟨some {}, true, ⟨fun _ => Diff.new 0 0 .Unchanged, 0⟩, [.setInfo (some dirSittingInfo)], rfl⟩
  have h1 : ∃ s1, s0.compare dirSittingEnv = Res.ok (s1, true) ∧ s1.info = some dirSittingInfo := by
    unfold MLState.compare
    rw [show s0.info = some dirSittingInfo from rfl]
    dsimp only
    rw [if_pos ⟨by decide, by decide⟩]
    exact ⟨_, rfl, rfl⟩
  obtain ⟨s1, h1, hi⟩ := h1
  exact ⟨s1, .compare dirSittingEnv s0 s1 _ _ hr h1 hi rfl⟩

/-- Differences of two files are shown; everything is marked and saved; the directories are compared again, and are identical. -/
example : ∃ s s2 s3, DirSitting dirSittingInfo s dirSittingOld dirSittingNew .shown ∧ DirSitting dirSittingInfo s2 dirSittingOld dirSittingOld .shown ∧
    DirSitting dirSittingInfo s3 dirSittingOld dirSittingOld .idle := by
  obtain ⟨s0, h0⟩ := dirSitting_running
  obtain ⟨s, h1⟩ := ((C82_goes_on h0).2.1 rfl).2 dirSittingEnv dirOutput dirSitting_holds dirSitting_answers
  have hs : DirSitting dirSittingInfo s dirSittingOld dirSittingNew .shown :=
    .finished dirSittingEnv dirOutput s0 s _ _ h0 dirSitting_holds dirSitting_answers dirSitting_differ h1
  obtain ⟨_, _, s2, _, _, _, _, h2⟩ := C82_reach hs (fun _ => {}) (fun _ => rfl)
  obtain ⟨s4, h4⟩ := (C82_goes_on h2).2.2 dirSittingEnv
  have hr : DirSitting dirSittingInfo s4 dirSittingOld dirSittingOld .running := .again dirSittingEnv s2 s4 _ _ _ h2 (.inl h4)
  have ha : DirAnswers false dirSittingInfo.localSource dirSittingInfo.localDestination ⟨0, .NormalExit, [], []⟩ dirSittingOld dirSittingOld :=
    ⟨rfl, fun _ => rfl, fun q => absurd rfl q⟩
  obtain ⟨s5, h5⟩ := ((C82_goes_on hr).2.1 rfl).2 dirSittingEnv ⟨0, .NormalExit, [], []⟩ dirSitting_holds ha
  exact ⟨s, s2, s5, hs, h2, .identical dirSittingEnv _ s4 s5 _ hr ha h5⟩

end KompareDiff2
