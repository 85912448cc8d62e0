import Verif.Proofs.MovedOpen
/-
Moving objects: the calls that open a diff, and all others.
-/
namespace KompareDiff2
open Spec

variable {A : Actions → Actions → Prop} {c : Bool} {a b : Nat} {L L' : List Event} {s s' : MLState}

/-! ### Names, the applied state, blending -/

theorem move_setFiles {n : Nat} {m : DModel} (u : Uses n m) (a : Nat) (x y : Str) :
    ((moveModel a m).setSourceFile x).setDestinationFile y = moveModel a ((m.setSourceFile x).setDestinationFile y) ∧
    Uses n ((m.setSourceFile x).setDestinationFile y) := ⟨rfl, u.differences, u.hunks, u.selected⟩

theorem Spec.MovedBy.depthAndApplied (w : MovedBy A c a b L L' s s') (i : Info) {m : Nat} (hm : m < s.nextModel) :
    MovedBy A c a b L L' (MLState.depthAndApplied i s m) (MLState.depthAndApplied i s' (m + b)) := by
  unfold MLState.depthAndApplied
  rw [w.store m hm]
  obtain ⟨q1, q2⟩ := move_setFiles (w.uses m hm) a (lstripSeparators (s.store m).source i.depth)
    (lstripSeparators ((s.store m).setSourceFile (lstripSeparators (s.store m).source i.depth)).destination i.depth)
  obtain ⟨p1, p2, p3, p4⟩ := move_applyAll w.heap q2 i.applied
  have e : ((moveModel a (s.store m)).setSourceFile (lstripSeparators (moveModel a (s.store m)).source i.depth)).setDestinationFile
      (lstripSeparators ((moveModel a (s.store m)).setSourceFile (lstripSeparators (moveModel a (s.store m)).source i.depth)).destination i.depth) =
      moveModel a (((s.store m).setSourceFile (lstripSeparators (s.store m).source i.depth)).setDestinationFile
        (lstripSeparators ((s.store m).setSourceFile (lstripSeparators (s.store m).source i.depth)).destination i.depth)) := rfl
  dsimp only
  rw [e, p1]
  exact w.setBoth hm p2 (Nat.le_of_eq p3.symm) (by rw [p3]; exact p4)

theorem depthAndApplied_nextModel (i : Info) (s : MLState) (m : Nat) : (MLState.depthAndApplied i s m).nextModel = s.nextModel := rfl

theorem Spec.MovedBy.depthFold (i : Info) (l : List Nat) {s s' : MLState} (w : MovedBy A c a b L L' s s') (hl : ∀ m ∈ l, m < s.nextModel) :
    MovedBy A c a b L L' (l.foldl (MLState.depthAndApplied i) s) ((l.map (· + b)).foldl (MLState.depthAndApplied i) s') := by
  induction l generalizing s s' with
  | nil => exact w
  | cons m l ih => exact ih (w.depthAndApplied i (hl m (by simp))) fun x hx => hl x (List.mem_cons_of_mem _ hx)

theorem Spec.MovedBy.setDepthAndApplied (w : MovedBy A c a b L L' s s') :
    Agree (MovedBy A c a b L L') s.setDepthAndApplied s'.setDepthAndApplied := by
  refine w.list.bind fun l l' ⟨e, h, _⟩ => ?_
  subst e
  rw [w.info]
  cases s.info with
  | none => exact agree_ite (by cases l <;> simp) (fun _ => w) fun _ => trivial
  | some i => exact w.depthFold i l h

theorem Spec.MovedBy.blendFile (w : MovedBy A c a b L L' s s') {m : Nat} (hm : m < s.nextModel) (text : Str) :
    Agree (MovedBy A c a b L L') (s.blendFile m text) (s'.blendFile (m + b) text) := by
  refine (w.model (some m)).bind fun i j ⟨e, h⟩ => ?_
  cases h
  subst e
  rw [w.store m hm]
  obtain ⟨p1, p2, p3, p4⟩ := move_blend w.heap (w.uses m hm) text
  dsimp only
  rw [p1]
  exact (w.setBoth hm p2 p3 p4).firstModel.bind fun _ _ w => w.selectFirst

theorem blendFile_nextModel {m : Nat} {text : Str} {r : MLState} (h : s.blendFile m text = Res.ok r) : r.nextModel = s.nextModel := by
  unfold MLState.blendFile at h
  obtain ⟨i, h1, h⟩ := Res.bind_eq_ok.1 h
  dsimp only at h
  obtain ⟨x, h2, h⟩ := Res.bind_eq_ok.1 h
  have e1 : x.nextModel = s.nextModel := by
    unfold MLState.firstModel at h2
    obtain ⟨l, _, h2⟩ := Res.bind_eq_ok.1 h2
    obtain ⟨q, _, h2⟩ := Res.bind_eq_ok.1 h2
    cases h2; rfl
  unfold MLState.selectFirst MLState.selectWith at h
  obtain ⟨q, _, h⟩ := Res.bind_eq_ok.1 h
  obtain ⟨q', _, h⟩ := Res.bind_eq_ok.1 h
  cases h
  exact e1

theorem Spec.Agree.with_ok {α β : Type} {R : α → β → Prop} {x : Res α} {y : Res β} (h : Agree R x y) : Agree (fun u v => R u v ∧ x = Res.ok u) x y := by
  cases x <;> cases y <;> first | exact ⟨h, rfl⟩ | exact trivial | exact False.elim h

theorem Spec.MovedBy.blendDirLoop (e : Env) (dir : Str) (l : List Nat) {s s' : MLState} (w : MovedBy A c a b L L' s s')
    (hl : ∀ m ∈ l, m < s.nextModel) (x : Bool) :
    Agree (MovedRes (MovedBy A c a b L L')) (MLState.blendDirLoop e dir l s x) (MLState.blendDirLoop e dir (l.map (· + b)) s' x) := by
  induction l generalizing s s' x with
  | nil => exact ⟨w, rfl⟩
  | cons m l ih =>
    have hm := hl m (by simp)
    refine (w.model (some m)).bind fun i j ⟨e, h⟩ => ?_
    cases h
    subst e
    rw [w.store m hm]
    refine (w.blendFile hm _).with_ok.bind fun t t' ⟨w1, e1⟩ => ih w1 (fun x hx => ?_) true
    rw [blendFile_nextModel e1]
    exact hl x (List.mem_cons_of_mem _ hx)

theorem Spec.MovedBy.blendOriginal (w : MovedBy A c a b L L' s s') (e : Env) (url : Str) :
    Agree (MovedRes (MovedBy A c a b L L')) (s.blendOriginal e url) (s'.blendOriginal e url) := by
  refine agree_ite Iff.rfl (fun _ => ?_) fun _ => agree_ite Iff.rfl (fun _ => ?_) fun _ => ⟨w, rfl⟩
  · refine w.list.bind fun l l' ⟨q, h, _⟩ => ?_
    subst q
    exact Spec.MovedBy.blendDirLoop e url l w h false
  · refine w.list.bind fun l l' ⟨q, h, _⟩ => ?_
    subst q
    refine (atR_map (· + b) l 0).bind fun m m' ⟨q, hm⟩ => ?_
    subst q
    exact (w.blendFile (h m hm) _).bind fun _ _ w => ⟨w, rfl⟩

/-! ### Opening -/

/-- What is known after a call that opens a diff: the calls return the same value; with success the lists are alike, without if they were
before. -/
structure MovedOpen (A : Actions → Actions → Prop) (c : Bool) (a b : Nat) (L L' : List Event) (P : Prop) (x y : MLState × Bool) : Prop where
  same : y.2 = x.2
  good : x.2 = true → MovedBy (SameActions c) c a b L L' x.1 y.1
  bad : x.2 = false → P → MovedBy A c a b L L' x.1 y.1

theorem MovedOpen.res {P : Prop} {x y : MLState × Bool} (h : MovedOpen (SameActions c) c a b L L' P x y) (p : P) :
    MovedRes (MovedBy (SameActions c) c a b L L') x y := by
  refine ⟨?_, h.same⟩
  cases e : x.2
  · exact h.bad e p
  · exact h.good e

theorem move_openTail (e : Env) (text : Str) (h : HeapMoved a s.heap s'.heap) (w : MovedBy A c a b L L' s.emptied s'.emptied) :
    Agree (MovedOpen A c a b L L' (MovedBy A c a b L L' s s'))
      (do let (s, ok) ← (s.emit (.status .Parsing)).parseDiffOutput e text
          if ok = false then Res.ok (s.emit (.error .couldNotParse), false)
          else do
            let s ← s.updateActions
            Res.ok (s.show_.emit (.status .FinishedParsing), true))
      (do let (s, ok) ← (s'.emit (.status .Parsing)).parseDiffOutput e text
          if ok = false then Res.ok (s.emit (.error .couldNotParse), false)
          else do
            let s ← s.updateActions
            Res.ok (s.show_.emit (.status .FinishedParsing), true)) := by
  refine (move_parseDiffOutput (s := s.emit (.status .Parsing)) (s' := s'.emit (.status .Parsing)) e text h (w.emit (.status .Parsing))).bind ?_
  rintro ⟨x, ok⟩ ⟨y, ok'⟩ ⟨q1, q2, q3⟩
  have q1 : ok' = ok := q1
  subst q1
  refine agree_ite Iff.rfl (fun _ => ?_) fun hk => ?_
  · exact ⟨rfl, fun q => (by cases q), fun _ p => (q3 (p.emit (.status .Parsing))).emit (.error .couldNotParse)⟩
  · refine (q2 (by cases ok' <;> simp_all)).updateActions.bind fun u v w => ?_
    exact ⟨rfl, fun _ => w.show_.emit (.status .FinishedParsing), fun q => (by cases q)⟩

theorem move_openAndDiffTail (e : Env) (i : Info) (h : HeapMoved a s.heap s'.heap) (w : MovedBy A c a b L L' s.emptied s'.emptied) :
    Agree (MovedOpen A c a b L L' (MovedBy A c a b L L' s s'))
      (do let (s, ok) ← s.parseDiffOutput e (e.contents i.localDestination)
          if ok = false then Res.ok (s.emit (.error .notADiff), false)
          else do
            let s ← s.setDepthAndApplied
            let (s, ok) ← s.blendOriginal e i.localSource
            if ok = false then Res.ok (s.emit (.error .blendProblem), false)
            else do
              let s ← s.updateActions
              Res.ok (s.show_, true))
      (do let (s, ok) ← s'.parseDiffOutput e (e.contents i.localDestination)
          if ok = false then Res.ok (s.emit (.error .notADiff), false)
          else do
            let s ← s.setDepthAndApplied
            let (s, ok) ← s.blendOriginal e i.localSource
            if ok = false then Res.ok (s.emit (.error .blendProblem), false)
            else do
              let s ← s.updateActions
              Res.ok (s.show_, true)) := by
  refine (move_parseDiffOutput e _ h w).bind ?_
  rintro ⟨x, ok⟩ ⟨y, ok'⟩ ⟨q1, q2, q3⟩
  have q1 : ok' = ok := q1
  subst q1
  refine agree_ite Iff.rfl (fun _ => ?_) fun hk => ?_
  · exact ⟨rfl, fun q => (by cases q), fun _ p => (q3 p).emit (.error .notADiff)⟩
  · refine (q2 (by cases ok' <;> simp_all)).setDepthAndApplied.bind fun u v w => (w.blendOriginal e i.localSource).bind ?_
    rintro ⟨x, ok⟩ ⟨y, ok'⟩ ⟨w, q1⟩
    have q1 : ok' = ok := q1
    subst q1
    have w : MovedBy A c a b L L' x y := w
    refine agree_ite Iff.rfl (fun _ => ?_) fun hk => ?_
    · exact ⟨rfl, fun q => (by cases q), fun _ _ => w.emit (.error .blendProblem)⟩
    · refine w.updateActions.bind fun u v w => ?_
      exact ⟨rfl, fun _ => w.show_, fun q => (by cases q)⟩

/-- The lists would be alike if they were emptied. -/
structure MovedStart (A : Actions → Actions → Prop) (c : Bool) (a b : Nat) (L L' : List Event) (s s' : MLState) : Prop where
  heap : HeapMoved a s.heap s'.heap
  rest : MovedBy A c a b L L' s.emptied s'.emptied

theorem Spec.MovedBy.start (w : MovedBy A c a b L L' s s') : MovedStart A c a b L L' s s' := ⟨w.heap, w.emptied⟩

theorem MovedStart.setInfo (w : MovedStart A c a b L L' s s') (i : Option Info) :
    MovedStart A c a b L L' { s with info := i } { s' with info := i } := ⟨w.heap, { w.rest with info := rfl }⟩

theorem MovedStart.info (w : MovedStart A c a b L L' s s') : s'.info = s.info := w.rest.info

theorem move_openDiff (e : Env) (file : Str) (w : MovedStart A c a b L L' s.clear s'.clear) (hf : file ≠ []) :
    Agree (MovedOpen A c a b L L' (MovedBy A c a b L L' s.clear s'.clear)) (s.openDiff e file) (s'.openDiff e file) := by
  unfold MLState.openDiff
  rw [if_neg hf, if_neg hf]
  exact move_openTail e _ w.heap w.rest

theorem move_parseAndOpenDiff (e : Env) (text : Str) (w : MovedStart A c a b L L' s.clear s'.clear) :
    Agree (MovedOpen A c a b L L' (MovedBy A c a b L L' s.clear s'.clear)) (s.parseAndOpenDiff e text) (s'.parseAndOpenDiff e text) :=
  move_openTail e _ w.heap w.rest

theorem move_openAndDiff (e : Env) (w : MovedStart A c a b L L' s.clear s'.clear) :
    Agree (MovedOpen A c a b L L' (MovedBy A c a b L L' s.clear s'.clear)) (s.openAndDiff e) (s'.openAndDiff e) := by
  unfold MLState.openAndDiff
  have hi : s'.info = s.info := w.info
  rw [hi]
  cases s.info with
  | none => exact trivial
  | some i => exact move_openAndDiffTail e i w.heap w.rest

/-- A process was started. -/
theorem move_compareMode (e : Env) (mode : Mode) (w : MovedStart A c a b L L' s.clear s'.clear) :
    Agree (fun x y => y.2 = x.2 ∧ MovedStart A c a b L L' x.1 y.1 ∧ (MovedBy A c a b L L' s.clear s'.clear → MovedBy A c a b L L' x.1 y.1))
      (s.compareMode e mode) (s'.compareMode e mode) := by
  unfold MLState.compareMode
  have hi : s'.clear.info = s.clear.info := w.info
  have hs : s'.clear.settings = s.clear.settings := w.rest.settings
  dsimp only
  rw [hi, hs]
  cases ei : s.clear.info with
  | none => exact trivial
  | some i =>
    dsimp only
    refine (Agree.eq (x := processArgs _ _ _ _ _ _)).bind fun p _ ep => ?_
    subst ep
    refine ⟨rfl, ⟨w.heap, ?_⟩, fun w => ?_⟩
    · exact Spec.MovedBy.emit (s := { s.clear.emptied with info := some i, process := some (.compare p.1 p.2) })
        (s' := { s'.clear.emptied with info := some i, settings := s.clear.settings, process := some (.compare p.1 p.2) })
        { w.rest with process := rfl, info := rfl, settings := rfl } (.status .RunningDiff)
    · exact Spec.MovedBy.emit (s := { s.clear with info := some i, process := some (.compare p.1 p.2) })
        (s' := { s'.clear with info := some i, settings := s.clear.settings, process := some (.compare p.1 p.2) })
        { w with process := rfl, info := rfl, settings := rfl } (.status .RunningDiff)

theorem parseDiffOutput_false {e : Env} {text : Str} {r : MLState} (h : s.parseDiffOutput e text = Res.ok (r, false)) : r.models = none := by
  rw [MLState.parseDiffOutput_eq] at h
  obtain ⟨q, _, h⟩ := Res.bind_eq_ok.1 h
  obtain ⟨cl, _, h⟩ := Res.bind_eq_ok.1 h
  unfold MLState.afterReset at h
  split at h
  · cases h
  · dsimp only at h
    split at h
    · rename_i e; cases h; exact e
    · obtain ⟨_, _, h⟩ := Res.bind_eq_ok.1 h
      obtain ⟨_, _, h⟩ := Res.bind_eq_ok.1 h
      obtain ⟨_, _, h⟩ := Res.bind_eq_ok.1 h
      have := congrArg Prod.snd (Res.ok.inj h)
      cases this

theorem Spec.Agree.with_oks {α β : Type} {R : α → β → Prop} {x : Res α} {y : Res β} (h : Agree R x y) :
    Agree (fun u v => R u v ∧ x = Res.ok u ∧ y = Res.ok v) x y := by
  cases x <;> cases y <;> first | exact ⟨h, rfl, rfl⟩ | exact trivial | exact False.elim h

/-- What is known when the process has finished normally. -/
structure MovedFinish (A : Actions → Actions → Prop) (c : Bool) (a b : Nat) (L L' : List Event) (P : Prop) (x y : MLState) : Prop where
  same : y.models = none ↔ x.models = none
  good : x.models ≠ none → MovedBy (SameActions c) c a b L L' x y
  keep : P → MovedBy A c a b L L' x y ∨ MovedBy (SameActions c) c a b L L' x y

theorem move_finished (e : Env) (r : ProcessResult) (w : MovedStart A c a b L L' s s') (hr : r.finishedNormally = true) :
    Agree (MovedFinish A c a b L L' (MovedBy A c a b L L' s s')) (s.slotDiffProcessFinished e r) (s'.slotDiffProcessFinished e r) := by
  unfold MLState.slotDiffProcessFinished
  rw [if_pos hr, if_pos hr]
  refine (move_parseDiffOutput (s := s.emit (.status .Parsing)) (s' := s'.emit (.status .Parsing)) e r.stdout w.heap
    (w.rest.emit (.status .Parsing))).with_oks.bind ?_
  rintro ⟨x, ok⟩ ⟨y, ok'⟩ ⟨⟨q1, q2, q3⟩, hx, hy⟩
  have q1 : ok' = ok := q1
  subst q1
  cases ok' with
  | false =>
    have mx := parseDiffOutput_false hx
    have my := parseDiffOutput_false hy
    refine ⟨⟨fun _ => mx, fun _ => my⟩, fun q => absurd mx q, fun p => Or.inl ?_⟩
    exact { ((q3 (p.emit (.status .Parsing))).emit (.error .couldNotParse)).emit (.status .FinishedParsing) with process := rfl }
  | true =>
    have w1 : MovedBy A c a b L L' x y := q2 rfl
    have fin : ∀ u v, MovedBy A c a b L L' u v → Agree (MovedFinish A c a b L L' (MovedBy A c a b L L' s s'))
        (u.updateActions >>= fun s => Res.ok { (s.show_.emit (.status .FinishedParsing)) with process := none })
        (v.updateActions >>= fun s => Res.ok { (s.show_.emit (.status .FinishedParsing)) with process := none }) := by
      intro u v w
      refine w.updateActions.bind fun u v w => ?_
      have w : MovedBy (SameActions c) c a b L L' { (u.show_.emit (.status .FinishedParsing)) with process := none }
          { (v.show_.emit (.status .FinishedParsing)) with process := none } := { w.show_.emit (.status .FinishedParsing) with process := rfl }
      refine ⟨?_, fun _ => w, fun _ => Or.inr w⟩
      rw [w.models]
      exact Option.map_eq_none_iff
    dsimp only
    rw [if_neg (by simp), if_neg (by simp), w1.info]
    cases x.info with
    | none => exact trivial
    | some i => exact agree_ite Iff.rfl (fun _ => (w1.blendOriginal e _).bind fun u v h => fin _ _ h.1) fun _ => fin _ _ w1

theorem Spec.MovedBy.finished (w : MovedBy (SameActions c) c a b L L' s s') (e : Env) (r : ProcessResult) :
    Agree (MovedBy (SameActions c) c a b L L') (s.slotDiffProcessFinished e r) (s'.slotDiffProcessFinished e r) := by
  by_cases hr : r.finishedNormally = true
  · exact (move_finished e r w.start hr).mono fun x y h => (h.keep w).elim id id
  · unfold MLState.slotDiffProcessFinished
    rw [if_neg hr, if_neg hr]
    refine agree_ite Iff.rfl (fun _ => ?_) fun _ => ?_
    · exact (show MovedBy (SameActions c) c a b L L' { (s.emit (.error .identical)) with process := none }
        { (s'.emit (.error .identical)) with process := none } from { w.emit (.error .identical) with process := rfl })
    · exact (show MovedBy (SameActions c) c a b L L' { (s.emit (.error (.stderr r.stderr))) with process := none }
        { (s'.emit (.error (.stderr r.stderr))) with process := none } from { w.emit (.error (.stderr r.stderr)) with process := rfl })

/-! ### The calls on lists that are alike -/

theorem Spec.MovedBy.openDiff (w : MovedBy (SameActions c) c a b L L' s s') (e : Env) (file : Str) :
    Agree (MovedRes (MovedBy (SameActions c) c a b L L')) (s.openDiff e file) (s'.openDiff e file) := by
  by_cases hf : file = []
  · unfold MLState.openDiff
    rw [if_pos hf, if_pos hf]
    exact ⟨w, rfl⟩
  · exact (move_openDiff e file w.clear.start hf).mono fun _ _ h => h.res w.clear

theorem Spec.MovedBy.parseAndOpenDiff (w : MovedBy (SameActions c) c a b L L' s s') (e : Env) (text : Str) :
    Agree (MovedRes (MovedBy (SameActions c) c a b L L')) (s.parseAndOpenDiff e text) (s'.parseAndOpenDiff e text) :=
  (move_parseAndOpenDiff e text w.clear.start).mono fun _ _ h => h.res w.clear

theorem Spec.MovedBy.openAndDiff (w : MovedBy (SameActions c) c a b L L' s s') (e : Env) :
    Agree (MovedRes (MovedBy (SameActions c) c a b L L')) (s.openAndDiff e) (s'.openAndDiff e) :=
  (move_openAndDiff e w.clear.start).mono fun _ _ h => h.res w.clear

theorem Spec.MovedBy.compareMode (w : MovedBy A c a b L L' s s') (e : Env) (mode : Mode) :
    Agree (MovedRes (MovedBy A c a b L L')) (s.compareMode e mode) (s'.compareMode e mode) :=
  (move_compareMode e mode w.clear.start).mono fun _ _ h => ⟨h.2.2 w.clear, h.1⟩

theorem Spec.MovedBy.compare (w : MovedBy (SameActions c) c a b L L' s s') (e : Env) :
    Agree (MovedRes (MovedBy (SameActions c) c a b L L')) (s.compare e) (s'.compare e) := by
  unfold MLState.compare
  rw [w.info]
  cases s.info with
  | none => exact trivial
  | some i =>
    have ws : ∀ j, MovedBy (SameActions c) c a b L L' { s with info := some j } { s' with info := some j } := fun j => { w with info := rfl }
    refine agree_ite Iff.rfl (fun _ => (ws _).compareMode e _) fun _ => ?_
    refine agree_ite Iff.rfl (fun _ => ?_) fun _ => ?_
    · refine agree_ite Iff.rfl (fun _ => (ws _).openAndDiff e) fun _ => ?_
      exact agree_ite Iff.rfl (fun _ => (ws _).openAndDiff e) fun _ => (ws _).compareMode e _
    · exact agree_ite Iff.rfl (fun _ => (ws _).openAndDiff e) fun _ => (ws _).openAndDiff e

theorem Spec.MovedBy.refresh (w : MovedBy A c a b L L' s s') (e : Env) : Agree (MovedBy A c a b L L') (s.refresh e) (s'.refresh e) := by
  unfold MLState.refresh
  rw [w.info]
  cases s.info with
  | none => exact trivial
  | some i => exact (w.compareMode e i.mode).bind fun _ _ h => h.1

theorem Spec.MovedBy.swap (w : MovedBy A c a b L L' s s') (e : Env) : Agree (MovedBy A c a b L L') (s.swap e) (s'.swap e) := by
  unfold MLState.swap
  rw [w.info]
  cases s.info with
  | none => exact trivial
  | some i => exact agree_ite Iff.rfl (fun _ => (w.compareMode e i.mode).bind fun _ _ h => h.1) fun _ => w

theorem Spec.MovedBy.recreateDiff (w : MovedBy A c a b L L' s s') (e : Env) : Agree Eq (s.recreateDiff e) (s'.recreateDiff e) := by
  refine w.list.bind fun l l' ⟨q, h, _⟩ => ?_
  subst q
  show _ = _
  rw [List.flatMap_map]
  unfold List.flatMap
  refine congrArg List.flatten (List.map_congr_left fun m hm => ?_)
  show (s.store m).recreateDiff e.win s.heap = (s'.store (m + b)).recreateDiff e.win s'.heap
  rw [w.store m (h m hm), move_recreate e.win w.heap (w.uses m (h m hm))]

theorem Spec.MovedBy.edit (w : MovedBy A c a b L L' s s') (hash : Str → Nat) {m : Nat} (hm : m < s.nextModel) (old new : List Str) (line : Int) :
    Agree (fun x y => MovedBy A c a b L L' x.1 y.1 ∧ y.2.1 = x.2.1.map (· + a) ∧ y.2.2 = x.2.2.map (· + a))
      (s.edit hash m old new line) (s'.edit hash (m + b) old new line) := by
  refine (w.model (some m)).bind fun i j ⟨e, h⟩ => ?_
  cases h
  subst e
  rw [w.store m hm]
  refine (move_linesChanged hash w.heap (w.uses m hm) old new line).bind fun x y ⟨q1, q2, q3, q4, q5, q6⟩ => ?_
  refine ⟨?_, q5, q6⟩
  dsimp only
  rw [q1]
  exact w.setBoth hm q2 q3 q4

end KompareDiff2
