import Verif.Proofs.Reentrant

/-!
Receivers that stop calling, and what they hear (C69).
-/

namespace KompareDiff2
open Spec

/-! ### The first parts of the slots send nothing -/

theorem prevModel_log {s t : MLState} (h : s.prevModel = Res.ok t) : t.log = s.log := by
  unfold MLState.prevModel at h
  split at h
  · obtain ⟨l, _, h⟩ := Res.bind_eq_ok.1 h
    split at h
    · obtain ⟨_, _, h⟩ := Res.bind_eq_ok.1 h
      cases h; rfl
    · cases h; rfl
  · cases h; rfl

theorem nextModel_log {s t : MLState} (h : s.nextModel_ = Res.ok t) : t.log = s.log := by
  unfold MLState.nextModel_ at h
  obtain ⟨l, _, h⟩ := Res.bind_eq_ok.1 h
  split at h
  · obtain ⟨_, _, h⟩ := Res.bind_eq_ok.1 h
    cases h; rfl
  · cases h; rfl

theorem firstModel_log {s t : MLState} (h : s.firstModel = Res.ok t) : t.log = s.log := by
  unfold MLState.firstModel at h
  obtain ⟨_, _, h⟩ := Res.bind_eq_ok.1 h
  obtain ⟨_, _, h⟩ := Res.bind_eq_ok.1 h
  cases h; rfl

theorem lastModel_log {s t : MLState} (h : s.lastModel = Res.ok t) : t.log = s.log := by
  unfold MLState.lastModel at h
  obtain ⟨_, _, h⟩ := Res.bind_eq_ok.1 h
  obtain ⟨_, _, h⟩ := Res.bind_eq_ok.1 h
  cases h; rfl

theorem selectFirst_log {s t : MLState} (h : s.selectFirst = Res.ok t) : t.log = s.log := by
  unfold MLState.selectFirst at h
  obtain ⟨_, _, h⟩ := Res.bind_eq_ok.1 h
  exact (selectWith_log h).1

theorem selectLast_log {s t : MLState} (h : s.selectLast = Res.ok t) : t.log = s.log := by
  unfold MLState.selectLast at h
  obtain ⟨_, _, h⟩ := Res.bind_eq_ok.1 h
  exact (selectWith_log h).1

theorem previousModelPre_log {s : MLState} {p : MLState × Event} (h : s.previousModelPre = Res.ok p) : p.1.log = s.log := by
  unfold MLState.previousModelPre at h
  obtain ⟨t, h1, h⟩ := Res.bind_eq_ok.1 h
  split at h
  · obtain ⟨u, h2, h⟩ := Res.bind_eq_ok.1 h
    cases h
    exact (selectFirst_log h2).trans (prevModel_log h1)
  · obtain ⟨u, h2, h⟩ := Res.bind_eq_ok.1 h
    obtain ⟨w, h3, h⟩ := Res.bind_eq_ok.1 h
    cases h
    exact (selectFirst_log h3).trans ((firstModel_log h2).trans (prevModel_log h1))

theorem nextModelPre_log {s : MLState} {p : MLState × Event} (h : s.nextModelPre = Res.ok p) : p.1.log = s.log := by
  unfold MLState.nextModelPre at h
  obtain ⟨t, h1, h⟩ := Res.bind_eq_ok.1 h
  split at h
  · obtain ⟨u, h2, h⟩ := Res.bind_eq_ok.1 h
    cases h
    exact (selectFirst_log h2).trans (nextModel_log h1)
  · obtain ⟨u, h2, h⟩ := Res.bind_eq_ok.1 h
    obtain ⟨w, h3, h⟩ := Res.bind_eq_ok.1 h
    cases h
    exact (selectFirst_log h3).trans ((lastModel_log h2).trans (nextModel_log h1))

theorem previousDifferencePre_log {s : MLState} {p : MLState × Event} (h : s.previousDifferencePre = Res.ok p) : p.1.log = s.log := by
  unfold MLState.previousDifferencePre at h
  obtain ⟨m, _, h⟩ := Res.bind_eq_ok.1 h
  obtain ⟨t, h1, h⟩ := Res.bind_eq_ok.1 h
  have e1 := (selectWith_log h1).1
  split at h
  · cases h; exact e1
  · obtain ⟨u, h2, h⟩ := Res.bind_eq_ok.1 h
    have e2 := (prevModel_log h2).trans e1
    split at h
    · obtain ⟨w, h3, h⟩ := Res.bind_eq_ok.1 h
      cases h
      exact (selectLast_log h3).trans e2
    · obtain ⟨w, h3, h⟩ := Res.bind_eq_ok.1 h
      obtain ⟨x, h4, h⟩ := Res.bind_eq_ok.1 h
      cases h
      exact (selectFirst_log h4).trans ((firstModel_log h3).trans e2)

theorem nextDifferencePre_log {s : MLState} {p : MLState × Event} (h : s.nextDifferencePre = Res.ok p) : p.1.log = s.log := by
  unfold MLState.nextDifferencePre at h
  obtain ⟨m, _, h⟩ := Res.bind_eq_ok.1 h
  obtain ⟨t, h1, h⟩ := Res.bind_eq_ok.1 h
  have e1 := (selectWith_log h1).1
  split at h
  · cases h; exact e1
  · obtain ⟨u, h2, h⟩ := Res.bind_eq_ok.1 h
    have e2 := (nextModel_log h2).trans e1
    split at h
    · obtain ⟨w, h3, h⟩ := Res.bind_eq_ok.1 h
      cases h
      exact (selectFirst_log h3).trans e2
    · obtain ⟨w, h3, h⟩ := Res.bind_eq_ok.1 h
      obtain ⟨x, h4, h⟩ := Res.bind_eq_ok.1 h
      cases h
      exact (selectLast_log h4).trans ((lastModel_log h3).trans e2)

theorem selectionPre_log {s : MLState} {m d : Option Nat} {p : MLState × Event} (h : s.selectionPre m d = Res.ok p) : p.1.log = s.log := by
  unfold MLState.selectionPre at h
  obtain ⟨l, _, h⟩ := Res.bind_eq_ok.1 h
  obtain ⟨x, _, h⟩ := Res.bind_eq_ok.1 h
  obtain ⟨r, h1, h⟩ := Res.bind_eq_ok.1 h
  cases r with
  | none =>
    dsimp only at h
    obtain ⟨t, h2, h⟩ := Res.bind_eq_ok.1 h
    obtain ⟨u, h3, h⟩ := Res.bind_eq_ok.1 h
    cases h
    have e := (selectFirst_log h3).trans (firstModel_log h2)
    exact e
  | some t =>
    dsimp only at h
    have e1 : t.log = s.log := by
      unfold MLState.setSelectedModel at h1
      rw [if_neg (by simp)] at h1
      obtain ⟨u, hu, h1⟩ := Res.bind_eq_ok.1 h1
      have := Option.some.inj (Res.ok.inj h1)
      subst this
      obtain ⟨ac, rfl⟩ := updateActions_only hu
      rfl
    obtain ⟨y, _, h⟩ := Res.bind_eq_ok.1 h
    split at h
    · obtain ⟨u, h3, h⟩ := Res.bind_eq_ok.1 h
      cases h
      exact (selectFirst_log h3).trans e1
    · cases h; exact e1

theorem diffSelectionPre_log {s : MLState} {d : Option Nat} {p : MLState × Event} (h : s.diffSelectionPre d = Res.ok p) : p.1.log = s.log := by
  unfold MLState.diffSelectionPre at h
  obtain ⟨y, _, h⟩ := Res.bind_eq_ok.1 h
  dsimp only at h
  split at h
  · obtain ⟨u, h3, h⟩ := Res.bind_eq_ok.1 h
    cases h
    have e := selectFirst_log h3
    exact e
  · cases h; rfl

/-! ### Receivers that stop calling -/

/-- It ends, and at least `n` signals were sent by then. -/
def Ends (ms : List Nat) (s0 : MLState) (n : Nat) (x : Res MLState) : Prop := ∃ s', x = Res.ok s' ∧ Midway ms s0 s' ∧ n ≤ s'.log.length

/-- The receivers end whatever they do once `n` signals were sent. -/
def CallEnds (ms : List Nat) (s0 : MLState) (n : Nat) (call : MLState → Res MLState) : Prop :=
  ∀ s, Midway ms s0 s → n ≤ s.log.length → Ends ms s0 s.log.length (call s)

theorem Ends.bind {ms : List Nat} {s0 : MLState} {n k : Nat} {x : Res MLState} {g : MLState → Res MLState} (h : Ends ms s0 n x)
    (hg : ∀ s, Midway ms s0 s → n ≤ s.log.length → Ends ms s0 k (g s)) : Ends ms s0 k (x >>= g) := by
  obtain ⟨s', rfl, h1, h2⟩ := h
  exact hg s' h1 h2

theorem Ends.le {ms : List Nat} {s0 : MLState} {n k : Nat} {x : Res MLState} (h : Ends ms s0 n x) (hk : k ≤ n) : Ends ms s0 k x := by
  obtain ⟨s', h1, h2, h3⟩ := h
  exact ⟨s', h1, h2, Nat.le_trans hk h3⟩

theorem Midway.updateEnds {ms : List Nat} {s0 s : MLState} (h : Midway ms s0 s) {n : Nat} (hn : n ≤ s.log.length) : Ends ms s0 n s.updateActions := by
  obtain ⟨k, j, m, d, a⟩ := h.atIt
  obtain ⟨ac, h1, _⟩ := updateActions_ok h.opened a
  exact ⟨_, h1, h.actions ac, hn⟩

theorem emitStatusBar_log {s t : MLState} (h : s.emitStatusBar = Res.ok t) : t.log.length = s.log.length + 1 := by
  unfold MLState.emitStatusBar at h
  obtain ⟨_, _, h⟩ := Res.bind_eq_ok.1 h
  obtain ⟨_, _, h⟩ := Res.bind_eq_ok.1 h
  obtain ⟨_, _, h⟩ := Res.bind_eq_ok.1 h
  cases h
  simp [MLState.emit]

theorem emit_length (s : MLState) (e : Event) : (s.emit e).log.length = s.log.length + 1 := by simp [MLState.emit]

theorem finishR_ends {ms : List Nat} {s0 : MLState} {n : Nat} {call : MLState → Res MLState} {p : MLState × Event}
    (hc : CallEnds ms s0 n call) (h : Midway ms s0 p.1) (hn : n ≤ p.1.log.length + 1) : Ends ms s0 p.1.log.length (MLState.finishR call p) := by
  unfold MLState.finishR
  have e1 := emit_length p.1 p.2
  refine (hc _ (h.emit p.2) (by omega)).bind (fun t ht hl => ?_)
  unfold MLState.statusBarR
  obtain ⟨l, h1, h2⟩ := ht.statusBar
  have e2 := emitStatusBar_log h1
  rw [h1, Res.bind_ok]
  refine (hc _ h2 (by omega)).bind (fun u hu hl' => ?_)
  exact hu.updateEnds (by omega)

theorem nav_ends {ms : List Nat} {s0 s : MLState} {n : Nat} {call : MLState → Res MLState} (hc : CallEnds ms s0 n call) {op : UserOp} (h : Midway ms s0 s)
    (hop : op.Ok s0) (hn : n ≤ s.log.length + 1) {pre : Res (MLState × Event)} (hl : ∀ p, pre = Res.ok p → p.1.log = s.log)
    (he : op.run s = pre >>= finishPlain) : Ends ms s0 s.log.length (pre >>= MLState.finishR call) := by
  obtain ⟨p, hp, hm⟩ := pre_fine h hop he
  rw [hp, Res.bind_ok, ← hl p hp]
  exact finishR_ends hc hm (by rw [hl p hp]; exact hn)

theorem applyR_ends {ms : List Nat} {s0 s : MLState} {n : Nat} {call : MLState → Res MLState} (hc : CallEnds ms s0 n call) (h : Midway ms s0 s)
    (hn : n ≤ s.log.length + 1) (b : Bool) : Ends ms s0 s.log.length (s.applyR call b) := by
  obtain ⟨s', h1, h2⟩ := single_fine (op := .applySlot b) h trivial
  have h1' : s.slotApplyDifference b = Res.ok s' := h1
  unfold MLState.applyR
  rw [h1', Res.bind_ok]
  have e : s'.log.length = s.log.length + 1 := by
    unfold MLState.slotApplyDifference at h1'
    obtain ⟨_, _, h1'⟩ := Res.bind_eq_ok.1 h1'
    obtain ⟨_, _, h1'⟩ := Res.bind_eq_ok.1 h1'
    obtain ⟨_, _, h1'⟩ := Res.bind_eq_ok.1 h1'
    cases h1'
    exact emit_length _ _
  exact (hc _ h2 (by omega)).le (by omega)

theorem applyAllR_ends {ms : List Nat} {s0 s : MLState} {n : Nat} {call : MLState → Res MLState} (hc : CallEnds ms s0 n call) (h : Midway ms s0 s)
    (hn : n ≤ s.log.length + 1) (b : Bool) : Ends ms s0 s.log.length (s.applyAllR call b) := by
  obtain ⟨s', h1, h2⟩ := single_fine (op := .applyAllSlot b) h trivial
  have h1' : s.slotApplyAllDifferences b = Res.ok s' := h1
  unfold MLState.applyAllR
  rw [h1', Res.bind_ok]
  have e : s'.log.length = s.log.length + 1 := by
    unfold MLState.slotApplyAllDifferences at h1'
    obtain ⟨_, _, h1'⟩ := Res.bind_eq_ok.1 h1'
    cases h1'
    exact emit_length _ _
  exact (hc _ h2 (by omega)).le (by omega)

theorem applyIfR_ends {ms : List Nat} {s0 s : MLState} {n : Nat} {call : MLState → Res MLState} (hc : CallEnds ms s0 n call) (h : Midway ms s0 s)
    (hn : n ≤ s.log.length + 1) (b : Bool) : Ends ms s0 s.log.length (s.applyIfR call b) := by
  obtain ⟨k, j, m, d, a⟩ := h.atIt
  unfold MLState.applyIfR
  rw [a.selectedDifference, h.opened.diff (h.opened.mem a.model) (List.mem_of_getElem? a.diff), Res.bind_ok]
  split
  · exact applyR_ends hc h hn b
  · exact ⟨s, rfl, h, Nat.le_refl _⟩

/-- `Ends` with a Boolean. -/
def Ends2 (ms : List Nat) (s0 : MLState) (n : Nat) (x : Res (MLState × Bool)) : Prop := ∃ r, x = Res.ok r ∧ Midway ms s0 r.1 ∧ n ≤ r.1.log.length

theorem errorR_ends {ms : List Nat} {s0 s : MLState} {n : Nat} {call : MLState → Res MLState} (hc : CallEnds ms s0 n call) (h : Midway ms s0 s)
    (hn : n ≤ s.log.length + 1) (e : ErrorKind) (b : Bool) : Ends2 ms s0 s.log.length (s.errorR call e b) := by
  unfold MLState.errorR
  have e1 := emit_length s (.error e)
  obtain ⟨s', h1, h2, h3⟩ := hc _ (h.emit (.error e)) (by omega)
  rw [h1]
  exact ⟨_, rfl, h2, by show _ ≤ s'.log.length; omega⟩

theorem saveDestination_grows {s : MLState} {v : MLState.SaveEnv} {m : Nat} {r : MLState × Bool} (h : s.saveDestination v m = Res.ok r) :
    s.log.length ≤ r.1.log.length := by
  unfold MLState.saveDestination at h
  obtain ⟨m, _, h⟩ := Res.bind_eq_ok.1 h
  have e : ∀ x, s.log.length ≤ (s.emit x).log.length := fun x => by rw [emit_length]; omega
  split at h
  · cases h; exact Nat.le_refl _
  split at h
  · cases h; exact e _
  split at h
  · cases h; exact e _
  split at h
  · cases h; exact e _
  split at h
  · cases h
  split at h
  · cases h; exact e _
  dsimp only at h
  split at h
  · cases h; exact e _
  · cases h; exact e _

theorem saveDestinationR_ends {ms : List Nat} {s0 s : MLState} {n : Nat} {call : MLState → Res MLState} (hc : CallEnds ms s0 n call) (h : Midway ms s0 s)
    (hn : n ≤ s.log.length + 1) (v : MLState.SaveEnv) {m : Nat} (hm : m ∈ ms) : Ends2 ms s0 s.log.length (s.saveDestinationR call v m) := by
  unfold MLState.saveDestinationR
  rw [h.opened.model hm, Res.bind_ok]
  split
  · exact ⟨_, rfl, h, Nat.le_refl _⟩
  split
  · exact errorR_ends hc h hn _ _
  split
  · exact errorR_ends hc h hn _ _
  split
  · exact errorR_ends hc h hn _ _
  obtain ⟨i, hi⟩ := Option.ne_none_iff_exists'.1 h.opened.info
  rw [hi]
  dsimp only
  split
  · exact errorR_ends hc h hn _ _
  split
  · exact errorR_ends hc h hn _ _
  obtain ⟨k, j, m', d, a⟩ := h.atIt
  obtain ⟨s', b, h1, g⟩ := saveDestination_ok h.opened a v hm
  rw [h1]
  exact ⟨_, rfl, ⟨g.opened, ⟨k, j, m', d, g.atIt⟩, h.frame.trans g.frame⟩, saveDestination_grows h1⟩

theorem saveLoopR_ends {ms : List Nat} {s0 : MLState} {n : Nat} {call : MLState → Res MLState} (hc : CallEnds ms s0 n call)
    (v : Nat → MLState.SaveEnv) : ∀ (l : List Nat) (s : MLState), Midway ms s0 s → n ≤ s.log.length + 1 → (∀ x ∈ l, x ∈ ms) →
      Ends2 ms s0 s.log.length (MLState.saveLoopR call v l s)
  | [], s, h, _, _ => ⟨_, rfl, h, Nat.le_refl _⟩
  | m :: l, s, h, hn, hl => by
    simp only [MLState.saveLoopR]
    obtain ⟨r, h1, h2, h3⟩ := saveDestinationR_ends hc h hn (v m) (hl m (by simp))
    rw [h1, Res.bind_ok]
    split
    · exact ⟨_, rfl, h2, h3⟩
    · obtain ⟨r', g1, g2, g3⟩ := saveLoopR_ends hc v l r.1 h2 (by omega) (fun x hx => hl x (List.mem_cons_of_mem _ hx))
      exact ⟨r', g1, g2, by omega⟩

theorem saveAllR_ends {ms : List Nat} {s0 s : MLState} {n : Nat} {call : MLState → Res MLState} (hc : CallEnds ms s0 n call) (h : Midway ms s0 s)
    (hn : n ≤ s.log.length + 1) (v : Nat → MLState.SaveEnv) : Ends2 ms s0 s.log.length (MLState.saveAllR call v s) := by
  unfold MLState.saveAllR
  rw [h.opened.models]
  split
  · rename_i e; cases e
  · exact ⟨_, rfl, h, Nat.le_refl _⟩
  · rename_i e; cases e
    exact saveLoopR_ends hc v ms s h hn (fun _ hx => hx)

theorem slotSaveR_ends {ms : List Nat} {s0 s : MLState} {n : Nat} {call : MLState → Res MLState} (hc : CallEnds ms s0 n call) (h : Midway ms s0 s)
    (hn : n ≤ s.log.length + 1) (v : MLState.SaveEnv) : Ends ms s0 s.log.length (s.slotSaveR call v) := by
  obtain ⟨k, j, m, d, a⟩ := h.atIt
  unfold MLState.slotSaveR
  rw [a.selectedModel]
  dsimp only
  obtain ⟨r, h1, h2, h3⟩ := saveDestinationR_ends hc h hn v (h.opened.mem a.model)
  rw [h1, Res.bind_ok]
  split
  · have e := emit_length { r.1 with actions := { r.1.actions with save := false } } .updateActions
    dsimp only at e
    exact (hc _ ((h2.actions _).emit _) (by omega)).le (by omega)
  · have e := emit_length r.1 .updateActions
    exact (hc _ (h2.emit _) (by omega)).le (by omega)

theorem runR_ends {ms : List Nat} {s0 s : MLState} {n : Nat} {call : MLState → Res MLState} (hc : CallEnds ms s0 n call) (h : Midway ms s0 s)
    (hn : n ≤ s.log.length + 1) (op : UserOp) (hop : op.Ok s0) : Ends ms s0 s.log.length (op.runR call s) := by
  cases op with
  | nextDifference => exact nav_ends hc h hop hn (fun p => nextDifferencePre_log) (nextDifference_parts s)
  | previousDifference => exact nav_ends hc h hop hn (fun p => previousDifferencePre_log) (previousDifference_parts s)
  | nextFile => exact nav_ends hc h hop hn (fun p => nextModelPre_log) (nextModel_parts s)
  | previousFile => exact nav_ends hc h hop hn (fun p => previousModelPre_log) (previousModel_parts s)
  | select m d => exact nav_ends hc h hop hn (fun p => selectionPre_log) (selection_parts s (some m) (some d))
  | selectDiff d => exact nav_ends hc h hop hn (fun p => diffSelectionPre_log) (diffSelection_parts s (some d))
  | apply =>
    show Ends ms s0 _ (s.actionApplyR call)
    unfold MLState.actionApplyR
    refine (applyIfR_ends hc h hn true).bind (fun t ht hl => ?_)
    obtain ⟨p, hp, hm⟩ := pre_fine ht (op := .nextDifference) trivial (nextDifference_parts t)
    have e := congrArg List.length (nextDifferencePre_log hp)
    rw [hp, Res.bind_ok]
    exact (finishR_ends hc hm (by omega)).bind (fun u hu hl' => hu.updateEnds (by omega))
  | unapply =>
    show Ends ms s0 _ (s.actionUnapplyR call)
    unfold MLState.actionUnapplyR
    refine (applyIfR_ends hc h hn false).bind (fun t ht hl => ?_)
    obtain ⟨p, hp, hm⟩ := pre_fine ht (op := .previousDifference) trivial (previousDifference_parts t)
    have e := congrArg List.length (previousDifferencePre_log hp)
    rw [hp, Res.bind_ok]
    exact (finishR_ends hc hm (by omega)).bind (fun u hu hl' => hu.updateEnds (by omega))
  | applyAll => exact (applyAllR_ends hc h hn true).bind (fun t ht hl => ht.updateEnds hl)
  | unapplyAll => exact (applyAllR_ends hc h hn false).bind (fun t ht hl => ht.updateEnds hl)
  | applySlot b => exact applyR_ends hc h hn b
  | applyAllSlot b => exact applyAllR_ends hc h hn b
  | setReadWrite b =>
    obtain ⟨s', h1, h2⟩ := single_fine (op := .setReadWrite b) h trivial
    refine ⟨s', h1, h2, ?_⟩
    have h1' : s.setReadWrite b = Res.ok s' := h1
    unfold MLState.setReadWrite at h1'
    split at h1'
    · cases h1'; exact Nat.le_refl _
    · obtain ⟨ac, rfl⟩ := updateActions_only h1'
      exact Nat.le_refl _
  | save v => exact slotSaveR_ends hc h hn v
  | saveModel v m =>
    have hop' : m ∈ s0.models.getD [] := hop
    show Ends ms s0 _ (s.saveDestinationR call v m >>= fun r => Res.ok r.1)
    have hms : s0.models = some ms := by rw [← h.frame.models]; exact h.opened.models
    rw [hms] at hop'
    obtain ⟨r, h1, h2, h3⟩ := saveDestinationR_ends hc h hn v hop'
    rw [h1]; exact ⟨_, rfl, h2, h3⟩
  | saveAll v =>
    show Ends ms s0 _ (MLState.saveAllR call v s >>= fun r => Res.ok r.1)
    obtain ⟨r, h1, h2, h3⟩ := saveAllR_ends hc h hn v
    rw [h1]; exact ⟨_, rfl, h2, h3⟩

theorem callsR_ends {ms : List Nat} {s0 : MLState} {n : Nat} {call : MLState → Res MLState} (hc : CallEnds ms s0 n call) :
    ∀ (ops : List UserOp), (∀ op ∈ ops, op.Ok s0) → ∀ s, Midway ms s0 s → n ≤ s.log.length + 1 → Ends ms s0 s.log.length (callsR (UserOp.runR call) ops s)
  | [], _, s, h, _ => ⟨s, rfl, h, Nat.le_refl _⟩
  | op :: ops, hr, s, h, hn => by
    simp only [callsR]
    refine (runR_ends hc h hn op (hr op (by simp))).bind (fun t ht hl => ?_)
    exact (callsR_ends hc ops (fun o ho => hr o (List.mem_cons_of_mem _ ho)) t ht (by omega)).le hl

/-- If the receivers do nothing any more after `k` signals, then `n` levels are enough. -/
theorem react_ends {ms : List Nat} {s0 : MLState} {f : Receivers} (hf : ∀ log, ∀ op ∈ f log, op.Ok s0) {k : Nat} (hk : ∀ log, k ≤ log.length → f log = []) :
    ∀ n, CallEnds ms s0 (k - n) (f.react n)
  | 0, s, h, hl => by
    unfold Receivers.react
    rw [if_pos (hk _ (by omega))]
    exact ⟨s, rfl, h, Nat.le_refl _⟩
  | n + 1, s, h, hl => by
    unfold Receivers.react
    exact callsR_ends (react_ends hf hk n) _ (hf _) s h (by omega)

/-! ### What the receivers hear -/

/-- The selection last told is the selection. -/
def Told (s : MLState) : Prop := (heard s.log).model = s.selectedModel ∧ (heard s.log).diff = s.selectedDifference

theorem Spec.Announced.told {s : MLState} (h : Announced s) : Told s := ⟨h.model, h.diff⟩

theorem Unheard.told {s s' : MLState} (h : Unheard s s') (a : Told s) : Told s' := by
  unfold Told
  rw [h.heard, h.selectedModel, h.selectedDifference]
  exact a

/-- The status bar tells the rest. -/
theorem statusBar_told {s t : MLState} (h : s.emitStatusBar = Res.ok t) (a : Told s) : Announced t := by
  unfold MLState.emitStatusBar at h
  obtain ⟨l, hl, h⟩ := Res.bind_eq_ok.1 h
  obtain ⟨m, hm, h⟩ := Res.bind_eq_ok.1 h
  obtain ⟨dc, hd, h⟩ := Res.bind_eq_ok.1 h
  have ht := Res.ok.inj h
  subst ht
  have hs : s.selectedModel = some m := by
    unfold MLState.model at hm
    split at hm
    · cases hm
    · rename_i i hi
      split at hm
      · cases hm
      · rw [hi, Res.ok.inj hm]
  have hb : heard (s.log ++ [.statusBar (MLState.indexOfPtr l s.selectedModel)
      (MLState.indexOfPtr (s.store m).differences s.selectedDifference) s.modelCount dc (s.store m).appliedCount]) =
      { (heard s.log) with bar := some ⟨MLState.indexOfPtr l s.selectedModel, MLState.indexOfPtr (s.store m).differences s.selectedDifference,
        s.modelCount, dc, (s.store m).appliedCount⟩ } := by
    rw [heard_snoc]; rfl
  refine ⟨?_, ?_, ?_⟩
  · show (heard (s.log ++ [_])).model = s.selectedModel
    rw [heard_snoc]; exact a.1
  · show (heard (s.log ++ [_])).diff = s.selectedDifference
    rw [heard_snoc]; exact a.2
  · refine ⟨_, congrArg Listener.bar hb, ?_, ?_, rfl, hd⟩
    · show s.currentModel = _
      unfold MLState.currentModel
      rw [hl]; rfl
    · show s.currentDifference = _
      unfold MLState.currentDifference
      rw [hm]
      rw [hs]; rfl

/-- Nothing is said that is not so. -/
def Tells (s s' : MLState) : Prop := Told s → Told s' ∧ (Announced s → Announced s')

theorem Tells.refl (s : MLState) : Tells s s := fun h => ⟨h, id⟩
theorem Tells.trans {a b c : MLState} (h : Tells a b) (g : Tells b c) : Tells a c := fun x =>
  ⟨(g (h x).1).1, fun y => (g (h x).1).2 ((h x).2 y)⟩
theorem Unheard.tells {s s' : MLState} (h : Unheard s s') : Tells s s' := fun x => ⟨h.told x, h.announced⟩
theorem Spec.Announced.tells {s s' : MLState} (h : Announced s') : Tells s s' := fun _ => ⟨h.told, fun _ => h⟩

/-- The receivers leave every announcement true. -/
def CallTells (ms : List Nat) (s0 : MLState) (call : MLState → Res MLState) : Prop :=
  ∀ s s', Midway ms s0 s → call s = Res.ok s' → Tells s s'

theorem Fine.ok {ms : List Nat} {s0 s' : MLState} {x : Res MLState} (h : Fine ms s0 x) (e : x = Res.ok s') : Midway ms s0 s' := by
  rcases h with h | ⟨t, h, hm⟩
  · rw [h] at e; cases e
  · rw [h] at e; cases e; exact hm

theorem Fine2.ok {ms : List Nat} {s0 : MLState} {r : MLState × Bool} {x : Res (MLState × Bool)} (h : Fine2 ms s0 x) (e : x = Res.ok r) : Midway ms s0 r.1 := by
  rcases h with h | ⟨t, h, hm⟩
  · rw [h] at e; cases e
  · rw [h] at e; cases e; exact hm

theorem finishR_tells {ms : List Nat} {s0 s' : MLState} {call : MLState → Res MLState} (hf : CallFine ms s0 call) (hc : CallTells ms s0 call)
    {p : MLState × Event} (h : Midway ms s0 p.1) (a : Told (p.1.emit p.2)) (e : MLState.finishR call p = Res.ok s') : Announced s' := by
  unfold MLState.finishR at e
  obtain ⟨t, e1, e⟩ := Res.bind_eq_ok.1 e
  obtain ⟨v, e2, e⟩ := Res.bind_eq_ok.1 e
  unfold MLState.statusBarR at e2
  obtain ⟨u, e3, e2⟩ := Res.bind_eq_ok.1 e2
  have hm := h.emit p.2
  have ht := (hf _ hm).ok e1
  obtain ⟨l, h1, h2⟩ := ht.statusBar
  rw [h1] at e3
  have hu := statusBar_told h1 (hc _ _ hm e1 a).1
  cases e3
  have hv := (hc _ _ h2 e2 hu.told).2 hu
  exact (unheard_update e).1.announced hv

theorem nav_tells {ms : List Nat} {s0 s s' : MLState} {call : MLState → Res MLState} (hf : CallFine ms s0 call) (hc : CallTells ms s0 call) {op : UserOp}
    (h : Midway ms s0 s) (hop : op.Ok s0) (hp' : op.Proper s) (hs : op.selects = true) (a : Told s)
    {pre : Res (MLState × Event)} (he : op.run s = pre >>= finishPlain) (e : (pre >>= MLState.finishR call) = Res.ok s') : Announced s' := by
  obtain ⟨p, hp, hm⟩ := pre_fine h hop he
  rw [hp, Res.bind_ok] at e
  refine finishR_tells hf hc hm ?_ e
  obtain ⟨t, h1, h2⟩ := single_fine h hop
  have ht := (told_selects a.1 hp' hs h1).1
  rw [he, hp, Res.bind_ok] at h1
  unfold finishPlain at h1
  obtain ⟨u, h3, h4⟩ := Res.bind_eq_ok.1 h1
  obtain ⟨ac, rfl⟩ := updateActions_only h4
  unfold MLState.emitStatusBar at h3
  obtain ⟨_, _, h3⟩ := Res.bind_eq_ok.1 h3
  obtain ⟨_, _, h3⟩ := Res.bind_eq_ok.1 h3
  obtain ⟨_, _, h3⟩ := Res.bind_eq_ok.1 h3
  have h3 := Res.ok.inj h3
  subst h3
  have g1 := ht.model
  have g2 := ht.diff
  dsimp only [MLState.emit] at g1 g2
  rw [heard_snoc] at g1 g2
  exact ⟨g1, g2⟩

theorem applyR_tells {ms : List Nat} {s0 s s' : MLState} {call : MLState → Res MLState} (hc : CallTells ms s0 call) (h : Midway ms s0 s) {b : Bool}
    (e : s.applyR call b = Res.ok s') : Tells s s' := by
  obtain ⟨t, h1, h2⟩ := single_fine (op := .applySlot b) h trivial
  have h1' : s.slotApplyDifference b = Res.ok t := h1
  unfold MLState.applyR at e
  rw [h1', Res.bind_ok] at e
  exact (unheard_applySlot h1').tells.trans (hc _ _ h2 e)

theorem applyAllR_tells {ms : List Nat} {s0 s s' : MLState} {call : MLState → Res MLState} (hc : CallTells ms s0 call) (h : Midway ms s0 s) {b : Bool}
    (e : s.applyAllR call b = Res.ok s') : Tells s s' := by
  obtain ⟨t, h1, h2⟩ := single_fine (op := .applyAllSlot b) h trivial
  have h1' : s.slotApplyAllDifferences b = Res.ok t := h1
  unfold MLState.applyAllR at e
  rw [h1', Res.bind_ok] at e
  exact (unheard_applyAllSlot h1').tells.trans (hc _ _ h2 e)

theorem applyIfR_tells {ms : List Nat} {s0 s s' : MLState} {call : MLState → Res MLState} (hc : CallTells ms s0 call) (h : Midway ms s0 s) {b : Bool}
    (e : s.applyIfR call b = Res.ok s') : Tells s s' := by
  unfold MLState.applyIfR at e
  obtain ⟨d, _, e⟩ := Res.bind_eq_ok.1 e
  split at e
  · exact applyR_tells hc h e
  · cases e; exact .refl _

theorem errorR_tells {ms : List Nat} {s0 s : MLState} {r : MLState × Bool} {call : MLState → Res MLState} (hc : CallTells ms s0 call) (h : Midway ms s0 s)
    {k : ErrorKind} {b : Bool} (e : s.errorR call k b = Res.ok r) : Tells s r.1 := by
  unfold MLState.errorR at e
  obtain ⟨t, h1, e⟩ := Res.bind_eq_ok.1 e
  cases e
  exact (unheard_emit s (e := .error k) (fun _ => rfl)).tells.trans (hc _ _ (h.emit _) h1)

theorem saveDestinationR_tells {ms : List Nat} {s0 s : MLState} {r : MLState × Bool} {call : MLState → Res MLState} (hc : CallTells ms s0 call) (h : Midway ms s0 s)
    {v : MLState.SaveEnv} {m : Nat} (e : s.saveDestinationR call v m = Res.ok r) : Tells s r.1 := by
  unfold MLState.saveDestinationR at e
  obtain ⟨m, _, e⟩ := Res.bind_eq_ok.1 e
  split at e
  · cases e; exact .refl _
  split at e
  · exact errorR_tells hc h e
  split at e
  · exact errorR_tells hc h e
  split at e
  · exact errorR_tells hc h e
  split at e
  · cases e
  split at e
  · exact errorR_tells hc h e
  split at e
  · exact errorR_tells hc h e
  · exact (unheard_saveDestination e).1.tells

theorem saveLoopR_tells {ms : List Nat} {s0 : MLState} {call : MLState → Res MLState} (hf : CallFine ms s0 call) (hc : CallTells ms s0 call)
    {v : Nat → MLState.SaveEnv} : ∀ (l : List Nat) (s : MLState) {r : MLState × Bool}, Midway ms s0 s → (∀ x ∈ l, x ∈ ms) →
      MLState.saveLoopR call v l s = Res.ok r → Tells s r.1
  | [], s, r, h, _, e => by cases e; exact .refl _
  | m :: l, s, r, h, hl, e => by
    simp only [MLState.saveLoopR] at e
    obtain ⟨t, h1, e⟩ := Res.bind_eq_ok.1 e
    have k := saveDestinationR_tells hc h h1
    have hm := (saveDestinationR_fine hf h (v m) (hl m (by simp))).ok h1
    split at e
    · cases e; exact k
    · exact k.trans (saveLoopR_tells hf hc l t.1 hm (fun x hx => hl x (List.mem_cons_of_mem _ hx)) e)

theorem slotSaveR_tells {ms : List Nat} {s0 s s' : MLState} {call : MLState → Res MLState} (hf : CallFine ms s0 call) (hc : CallTells ms s0 call)
    (h : Midway ms s0 s) {v : MLState.SaveEnv} (e : s.slotSaveR call v = Res.ok s') : Tells s s' := by
  obtain ⟨k, j, m, d, a⟩ := h.atIt
  unfold MLState.slotSaveR at e
  rw [a.selectedModel] at e
  dsimp only at e
  obtain ⟨r, h1, e⟩ := Res.bind_eq_ok.1 e
  have k := saveDestinationR_tells hc h h1
  have hm := (saveDestinationR_fine hf h v (h.opened.mem a.model)).ok h1
  refine k.trans ?_
  split at e
  · have k1 : Unheard r.1 { r.1 with actions := { r.1.actions with save := false } } := ⟨rfl, rfl, rfl, rfl, rfl, fun _ => rfl⟩
    exact (k1.trans (unheard_emit _ (e := .updateActions) (fun _ => rfl))).tells.trans (hc _ _ ((hm.actions { r.1.actions with save := false }).emit _) e)
  · exact (unheard_emit r.1 (e := .updateActions) (fun _ => rfl)).tells.trans (hc _ _ (hm.emit _) e)

theorem UserOp.Whole.ok {s : MLState} {op : UserOp} (h : op.Whole s) : op.Ok s := by
  cases op <;> first | trivial | exact h | exact ⟨h.1, h.2.2⟩ | exact h.elim

theorem UserOp.Whole.proper {s0 s : MLState} {op : UserOp} (h : op.Whole s0) (f : Frame s0 s) : op.Proper s := by
  cases op with
  | select m d => exact ⟨by rw [f.models]; exact h.1, by rw [f.differences]; exact h.2.1⟩
  | selectDiff d => exact h.elim
  | saveModel v m => show m ∈ _; rw [f.models]; exact h
  | _ => trivial

theorem runR_tells {ms : List Nat} {s0 s s' : MLState} {call : MLState → Res MLState} (hf : CallFine ms s0 call) (hc : CallTells ms s0 call)
    (h : Midway ms s0 s) {op : UserOp} (hop : op.Whole s0) (e : op.runR call s = Res.ok s') : Tells s s' ∧ (Told s → op.selects = true → Announced s') := by
  have hp := hop.proper h.frame
  have nav : ∀ {x : Prop}, (Told s → Announced s') → Tells s s' ∧ (Told s → x → Announced s') := fun g =>
    ⟨fun a => ⟨(g a).told, fun _ => g a⟩, fun a _ => g a⟩
  cases op with
  | nextDifference => exact nav (fun a => nav_tells hf hc h hop.ok hp rfl a (nextDifference_parts s) e)
  | previousDifference => exact nav (fun a => nav_tells hf hc h hop.ok hp rfl a (previousDifference_parts s) e)
  | nextFile => exact nav (fun a => nav_tells hf hc h hop.ok hp rfl a (nextModel_parts s) e)
  | previousFile => exact nav (fun a => nav_tells hf hc h hop.ok hp rfl a (previousModel_parts s) e)
  | select m d => exact nav (fun a => nav_tells hf hc h hop.ok hp rfl a (selection_parts s (some m) (some d)) e)
  | selectDiff d => exact hop.elim
  | apply =>
    refine nav (fun a => ?_)
    have e' : s.actionApplyR call = Res.ok s' := e
    unfold MLState.actionApplyR at e'
    obtain ⟨t, h1, e'⟩ := Res.bind_eq_ok.1 e'
    have ht := (applyIfR_fine hf h true).ok h1
    have ta := (applyIfR_tells hc h h1 a).1
    obtain ⟨p, hp, e'⟩ := Res.bind_eq_ok.1 e'
    obtain ⟨u, h2, e'⟩ := Res.bind_eq_ok.1 e'
    have hu := nav_tells hf hc ht (op := .nextDifference) (s' := u) trivial trivial rfl ta (nextDifference_parts t) (by rw [hp]; exact h2)
    exact (unheard_update e').1.announced hu
  | unapply =>
    refine nav (fun a => ?_)
    have e' : s.actionUnapplyR call = Res.ok s' := e
    unfold MLState.actionUnapplyR at e'
    obtain ⟨t, h1, e'⟩ := Res.bind_eq_ok.1 e'
    have ht := (applyIfR_fine hf h false).ok h1
    have ta := (applyIfR_tells hc h h1 a).1
    obtain ⟨p, hp, e'⟩ := Res.bind_eq_ok.1 e'
    obtain ⟨u, h2, e'⟩ := Res.bind_eq_ok.1 e'
    have hu := nav_tells hf hc ht (op := .previousDifference) (s' := u) trivial trivial rfl ta (previousDifference_parts t) (by rw [hp]; exact h2)
    exact (unheard_update e').1.announced hu
  | applyAll =>
    obtain ⟨t, h1, h2⟩ := Res.bind_eq_ok.1 e
    exact ⟨(applyAllR_tells hc h h1).trans (unheard_update h2).1.tells, fun _ hh => by cases hh⟩
  | unapplyAll =>
    obtain ⟨t, h1, h2⟩ := Res.bind_eq_ok.1 e
    exact ⟨(applyAllR_tells hc h h1).trans (unheard_update h2).1.tells, fun _ hh => by cases hh⟩
  | applySlot b => exact ⟨applyR_tells hc h e, fun _ hh => by cases hh⟩
  | applyAllSlot b => exact ⟨applyAllR_tells hc h e, fun _ hh => by cases hh⟩
  | setReadWrite b => exact ⟨(unheard_others (op := .setReadWrite b) rfl e).1.tells, fun _ hh => by cases hh⟩
  | save v => exact ⟨slotSaveR_tells hf hc h e, fun _ hh => by cases hh⟩
  | saveModel v m =>
    obtain ⟨r, h1, h2⟩ := Res.bind_eq_ok.1 e
    cases h2
    exact ⟨saveDestinationR_tells hc h h1, fun _ hh => by cases hh⟩
  | saveAll v =>
    obtain ⟨r, h1, h2⟩ := Res.bind_eq_ok.1 e
    cases h2
    refine ⟨?_, fun _ hh => by cases hh⟩
    unfold MLState.saveAllR at h1
    rw [h.opened.models] at h1
    split at h1
    · rename_i e; cases e
    · cases h1; exact .refl _
    · rename_i e; cases e
      exact saveLoopR_tells hf hc ms s h (fun _ hx => hx) h1

theorem callsR_tells {ms : List Nat} {s0 : MLState} {call : MLState → Res MLState} (hf : CallFine ms s0 call) (hc : CallTells ms s0 call) :
    ∀ (ops : List UserOp), (∀ op ∈ ops, op.Whole s0) → ∀ s s', Midway ms s0 s → callsR (UserOp.runR call) ops s = Res.ok s' → Tells s s'
  | [], _, s, s', h, e => by cases e; exact .refl _
  | op :: ops, hr, s, s', h, e => by
    simp only [callsR] at e
    obtain ⟨t, h1, e⟩ := Res.bind_eq_ok.1 e
    have hop := hr op (by simp)
    exact (runR_tells hf hc h hop h1).1.trans (callsR_tells hf hc ops (fun o ho => hr o (List.mem_cons_of_mem _ ho)) t s' ((runR_fine hf h op hop.ok).1.ok h1) e)

theorem react_tells {ms : List Nat} {s0 : MLState} {f : Receivers} (hf : ∀ log, ∀ op ∈ f log, op.Whole s0) : ∀ n, CallTells ms s0 (f.react n)
  | 0, s, s', h, e => by
    unfold Receivers.react at e
    split at e
    · cases e; exact .refl _
    · cases e
  | n + 1, s, s', h, e => by
    unfold Receivers.react at e
    exact callsR_tells (react_fine (fun l o ho => (hf l o ho).ok) n) (react_tells hf n) _ (hf _) s s' h e

end KompareDiff2
