import Verif.Spec.Reentrant
import Verif.Proofs.InUse
import Verif.Proofs.Announce

/-!
Proofs about receivers that call slots (C69).
-/

namespace KompareDiff2
open Spec

/-- What holds at every signal of an operation on the open diff `s0`. -/
structure Midway (ms : List Nat) (s0 s : MLState) : Prop where
  opened : Opened s ms
  atIt : ∃ k j m d, At s ms k j m d
  frame : Frame s0 s

/-- Endless, or fine. -/
def Fine (ms : List Nat) (s0 : MLState) (x : Res MLState) : Prop := x = Res.hang ∨ ∃ s', x = Res.ok s' ∧ Midway ms s0 s'

/-- The same, with right actions. -/
def FineR (ms : List Nat) (s0 : MLState) (x : Res MLState) : Prop := x = Res.hang ∨ ∃ s', x = Res.ok s' ∧ Midway ms s0 s' ∧ Right s'

theorem FineR.fine {ms : List Nat} {s0 : MLState} {x : Res MLState} (h : FineR ms s0 x) : Fine ms s0 x := by
  rcases h with h | ⟨s', h, h', _⟩
  · exact .inl h
  · exact .inr ⟨s', h, h'⟩

theorem Fine.bind {ms : List Nat} {s0 : MLState} {x : Res MLState} {g : MLState → Res MLState} (h : Fine ms s0 x)
    (hg : ∀ s, Midway ms s0 s → Fine ms s0 (g s)) : Fine ms s0 (x >>= g) := by
  rcases h with rfl | ⟨s', rfl, h'⟩
  · exact .inl rfl
  · exact hg s' h'

theorem Fine.bindR {ms : List Nat} {s0 : MLState} {x : Res MLState} {g : MLState → Res MLState} (h : Fine ms s0 x)
    (hg : ∀ s, Midway ms s0 s → FineR ms s0 (g s)) : FineR ms s0 (x >>= g) := by
  rcases h with rfl | ⟨s', rfl, h'⟩
  · exact .inl rfl
  · exact hg s' h'

theorem Midway.emit {ms : List Nat} {s0 s : MLState} (h : Midway ms s0 s) (e : Event) : Midway ms s0 (s.emit e) :=
  ⟨h.opened, h.atIt, Frame.emit _ _ h.frame _⟩

theorem Midway.actions {ms : List Nat} {s0 s : MLState} (h : Midway ms s0 s) (ac : Actions) : Midway ms s0 { s with actions := ac } :=
  ⟨h.opened, h.atIt, ⟨h.frame.models, h.frame.dead, h.frame.deadDiffs, h.frame.canSave, h.frame.info, h.frame.settings, h.frame.nextModel, h.frame.heapNext,
    h.frame.differences, h.frame.hunks, h.frame.cells, h.frame.head⟩⟩

theorem Midway.log {ms : List Nat} {s0 s : MLState} (h : Midway ms s0 s) (l : List Event) : Midway ms s0 { s with log := l } :=
  ⟨h.opened, h.atIt, ⟨h.frame.models, h.frame.dead, h.frame.deadDiffs, h.frame.canSave, h.frame.info, h.frame.settings, h.frame.nextModel, h.frame.heapNext,
    h.frame.differences, h.frame.hunks, h.frame.cells, h.frame.head⟩⟩

theorem Midway.update {ms : List Nat} {s0 s : MLState} (h : Midway ms s0 s) : FineR ms s0 s.updateActions := by
  obtain ⟨k, j, m, d, a⟩ := h.atIt
  obtain ⟨ac, h1, h2⟩ := updateActions_ok h.opened a
  exact .inr ⟨_, h1, h.actions ac, h2⟩

theorem Midway.statusBar {ms : List Nat} {s0 s : MLState} (h : Midway ms s0 s) : ∃ l, s.emitStatusBar = Res.ok { s with log := l } ∧ Midway ms s0 { s with log := l } := by
  obtain ⟨k, j, m, d, a⟩ := h.atIt
  obtain ⟨l, hl⟩ := emitStatusBar_ok h.opened (h.opened.mem a.model) a.selectedModel
  exact ⟨l, hl, h.log l⟩

/-- The receivers keep the diff in order. -/
def CallFine (ms : List Nat) (s0 : MLState) (call : MLState → Res MLState) : Prop := ∀ s, Midway ms s0 s → Fine ms s0 (call s)

theorem finishR_fine {ms : List Nat} {s0 : MLState} {call : MLState → Res MLState} (hc : CallFine ms s0 call) {p : MLState × Event}
    (h : Midway ms s0 p.1) : FineR ms s0 (MLState.finishR call p) := by
  unfold MLState.finishR
  refine Fine.bindR (hc _ (h.emit _)) (fun t ht => ?_)
  unfold MLState.statusBarR
  obtain ⟨l, h1, h2⟩ := ht.statusBar
  rw [h1, Res.bind_ok]
  exact Fine.bindR (hc _ h2) (fun u hu => hu.update)

/-- The plain end of a slot. -/
def finishPlain (p : MLState × Event) : Res MLState := (p.1.emit p.2).emitStatusBar >>= fun s => s.updateActions

/-- What the whole slot shows about its first part. -/
theorem pre_fine {ms : List Nat} {s0 s : MLState} {op : UserOp} {pre : Res (MLState × Event)} (h : Midway ms s0 s) (hop : op.Ok s0)
    (he : op.run s = pre >>= finishPlain) : ∃ p, pre = Res.ok p ∧ Midway ms s0 p.1 := by
  obtain ⟨k, j, m, d, a⟩ := h.atIt
  obtain ⟨s', k', j', m', d', g, _⟩ := user_ok h.opened a op (hop.frame h.frame)
  have hok := g.ok
  rw [he] at hok
  obtain ⟨p, hp, hok⟩ := Res.bind_eq_ok.1 hok
  refine ⟨p, hp, ?_⟩
  unfold finishPlain at hok
  obtain ⟨t, ht, hu⟩ := Res.bind_eq_ok.1 hok
  obtain ⟨ac, rfl⟩ := updateActions_only hu
  have hl : ∃ l, t = { p.1 with log := l } := by
    unfold MLState.emitStatusBar at ht
    obtain ⟨_, _, ht⟩ := Res.bind_eq_ok.1 ht
    obtain ⟨_, _, ht⟩ := Res.bind_eq_ok.1 ht
    obtain ⟨_, _, ht⟩ := Res.bind_eq_ok.1 ht
    exact ⟨_, (Res.ok.inj ht).symm⟩
  obtain ⟨l, rfl⟩ := hl
  have hf := h.frame.trans g.frame
  exact ⟨g.opened, ⟨k', j', m', d', g.atIt⟩, ⟨hf.models, hf.dead, hf.deadDiffs, hf.canSave, hf.info, hf.settings, hf.nextModel, hf.heapNext,
    hf.differences, hf.hunks, hf.cells, hf.head⟩⟩

/-! ### The slots are their parts -/

theorem previousModel_parts (s : MLState) : s.slotPreviousModel = s.previousModelPre >>= finishPlain := by
  unfold MLState.slotPreviousModel MLState.previousModelPre
  cases s.prevModel <;> try rfl
  rename_i t
  simp only [Res.bind_ok]
  split
  · cases t.selectFirst <;> rfl
  · cases t.firstModel <;> try rfl
    rename_i u
    simp only [Res.bind_ok]
    cases u.selectFirst <;> rfl

theorem nextModel_parts (s : MLState) : s.slotNextModel = s.nextModelPre >>= finishPlain := by
  unfold MLState.slotNextModel MLState.nextModelPre
  cases s.nextModel_ <;> try rfl
  rename_i t
  simp only [Res.bind_ok]
  split
  · cases t.selectFirst <;> rfl
  · cases t.lastModel <;> try rfl
    rename_i u
    simp only [Res.bind_ok]
    cases u.selectFirst <;> rfl

theorem previousDifference_parts (s : MLState) : s.slotPreviousDifference = s.previousDifferencePre >>= finishPlain := by
  unfold MLState.slotPreviousDifference MLState.previousDifferencePre
  cases s.model s.selectedModel <;> try rfl
  rename_i m
  simp only [Res.bind_ok]
  cases s.selectWith m DModel.prevDifference <;> try rfl
  rename_i t
  simp only [Res.bind_ok]
  split
  · rfl
  · cases t.prevModel <;> try rfl
    rename_i u
    simp only [Res.bind_ok]
    split
    · cases u.selectLast <;> rfl
    · cases u.firstModel <;> try rfl
      rename_i w
      simp only [Res.bind_ok]
      cases w.selectFirst <;> rfl

theorem nextDifference_parts (s : MLState) : s.slotNextDifference = s.nextDifferencePre >>= finishPlain := by
  unfold MLState.slotNextDifference MLState.nextDifferencePre
  cases s.model s.selectedModel <;> try rfl
  rename_i m
  simp only [Res.bind_ok]
  cases s.selectWith m DModel.nextDifference <;> try rfl
  rename_i t
  simp only [Res.bind_ok]
  split
  · rfl
  · cases t.nextModel_ <;> try rfl
    rename_i u
    simp only [Res.bind_ok]
    split
    · cases u.selectFirst <;> rfl
    · cases u.lastModel <;> try rfl
      rename_i w
      simp only [Res.bind_ok]
      cases w.selectLast <;> rfl

theorem selection_parts (s : MLState) (m d : Option Nat) : s.slotSelectionChanged m d = s.selectionPre m d >>= finishPlain := by
  unfold MLState.slotSelectionChanged MLState.selectionPre
  cases s.list <;> try rfl
  rename_i l
  simp only [Res.bind_ok]
  cases MLState.model { s with selectedModel := m, modelIndex := MLState.indexOfPtr l m, selectedDifference := d } m <;> try rfl
  rename_i x
  simp only [Res.bind_ok]
  generalize MLState.setSelectedModel _ _ = r
  cases r <;> try rfl
  rename_i o
  simp only [Res.bind_ok]
  cases o with
  | none =>
    dsimp only
    generalize MLState.firstModel _ = r
    cases r <;> try rfl
    rename_i t
    simp only [Res.bind_ok]
    cases t.selectFirst <;> rfl
  | some t =>
    dsimp only
    cases t.model t.selectedModel <;> try rfl
    rename_i y
    simp only [Res.bind_ok]
    split
    · generalize MLState.selectFirst _ = r
      cases r <;> rfl
    · rfl

theorem diffSelection_parts (s : MLState) (d : Option Nat) : s.slotDiffSelectionChanged d = s.diffSelectionPre d >>= finishPlain := by
  unfold MLState.slotDiffSelectionChanged MLState.diffSelectionPre
  dsimp only
  cases MLState.model { s with selectedDifference := d } s.selectedModel <;> try rfl
  rename_i x
  simp only [Res.bind_ok]
  split
  · generalize MLState.selectFirst _ = r
    cases r <;> rfl
  · rfl

/-! ### Applying -/

theorem single_fine {ms : List Nat} {s0 s : MLState} {op : UserOp} (h : Midway ms s0 s) (hop : op.Ok s0) :
    ∃ s', op.run s = Res.ok s' ∧ Midway ms s0 s' := by
  obtain ⟨k, j, m, d, a⟩ := h.atIt
  obtain ⟨s', k', j', m', d', g, _⟩ := user_ok h.opened a op (hop.frame h.frame)
  exact ⟨s', g.ok, g.opened, ⟨k', j', m', d', g.atIt⟩, h.frame.trans g.frame⟩

theorem applyR_fine {ms : List Nat} {s0 s : MLState} {call : MLState → Res MLState} (hc : CallFine ms s0 call) (h : Midway ms s0 s) (b : Bool) :
    Fine ms s0 (s.applyR call b) := by
  obtain ⟨s', h1, h2⟩ := single_fine (op := .applySlot b) h trivial
  have h1' : s.slotApplyDifference b = Res.ok s' := h1
  unfold MLState.applyR
  rw [h1', Res.bind_ok]
  exact hc _ h2

theorem applyAllR_fine {ms : List Nat} {s0 s : MLState} {call : MLState → Res MLState} (hc : CallFine ms s0 call) (h : Midway ms s0 s) (b : Bool) :
    Fine ms s0 (s.applyAllR call b) := by
  obtain ⟨s', h1, h2⟩ := single_fine (op := .applyAllSlot b) h trivial
  have h1' : s.slotApplyAllDifferences b = Res.ok s' := h1
  unfold MLState.applyAllR
  rw [h1', Res.bind_ok]
  exact hc _ h2

theorem applyIfR_fine {ms : List Nat} {s0 s : MLState} {call : MLState → Res MLState} (hc : CallFine ms s0 call) (h : Midway ms s0 s) (b : Bool) :
    Fine ms s0 (s.applyIfR call b) := by
  obtain ⟨k, j, m, d, a⟩ := h.atIt
  unfold MLState.applyIfR
  rw [a.selectedDifference, h.opened.diff (h.opened.mem a.model) (List.mem_of_getElem? a.diff), Res.bind_ok]
  split
  · exact applyR_fine hc h b
  · exact .inr ⟨s, rfl, h⟩

/-! ### Saving -/

/-- Endless, or fine, with a Boolean. -/
def Fine2 (ms : List Nat) (s0 : MLState) (x : Res (MLState × Bool)) : Prop := x = Res.hang ∨ ∃ r, x = Res.ok r ∧ Midway ms s0 r.1

theorem errorR_fine {ms : List Nat} {s0 s : MLState} {call : MLState → Res MLState} (hc : CallFine ms s0 call) (h : Midway ms s0 s) (e : ErrorKind) (b : Bool) :
    Fine2 ms s0 (s.errorR call e b) := by
  unfold MLState.errorR
  rcases hc _ (h.emit (.error e)) with h1 | ⟨s', h1, h2⟩
  · rw [h1]; exact .inl rfl
  · rw [h1]; exact .inr ⟨_, rfl, h2⟩

theorem saveDestinationR_fine {ms : List Nat} {s0 s : MLState} {call : MLState → Res MLState} (hc : CallFine ms s0 call) (h : Midway ms s0 s)
    (v : MLState.SaveEnv) {m : Nat} (hm : m ∈ ms) : Fine2 ms s0 (s.saveDestinationR call v m) := by
  unfold MLState.saveDestinationR
  rw [h.opened.model hm, Res.bind_ok]
  split
  · exact .inr ⟨_, rfl, h⟩
  split
  · exact errorR_fine hc h _ _
  split
  · exact errorR_fine hc h _ _
  split
  · exact errorR_fine hc h _ _
  obtain ⟨i, hi⟩ := Option.ne_none_iff_exists'.1 h.opened.info
  rw [hi]
  dsimp only
  split
  · exact errorR_fine hc h _ _
  split
  · exact errorR_fine hc h _ _
  obtain ⟨k, j, m', d, a⟩ := h.atIt
  obtain ⟨s', b, h1, g⟩ := saveDestination_ok h.opened a v hm
  rw [h1]
  exact .inr ⟨_, rfl, g.opened, ⟨k, j, m', d, g.atIt⟩, h.frame.trans g.frame⟩

theorem saveLoopR_fine {ms : List Nat} {s0 : MLState} {call : MLState → Res MLState} (hc : CallFine ms s0 call)
    (v : Nat → MLState.SaveEnv) : ∀ (l : List Nat) (s : MLState), Midway ms s0 s → (∀ x ∈ l, x ∈ ms) → Fine2 ms s0 (MLState.saveLoopR call v l s)
  | [], s, h, _ => .inr ⟨_, rfl, h⟩
  | m :: l, s, h, hl => by
    simp only [MLState.saveLoopR]
    rcases saveDestinationR_fine hc h (v m) (hl m (by simp)) with h1 | ⟨r, h1, h2⟩
    · rw [h1]; exact .inl rfl
    · rw [h1, Res.bind_ok]
      split
      · exact .inr ⟨_, rfl, h2⟩
      · exact saveLoopR_fine hc v l r.1 h2 (fun x hx => hl x (List.mem_cons_of_mem _ hx))

theorem saveAllR_fine {ms : List Nat} {s0 s : MLState} {call : MLState → Res MLState} (hc : CallFine ms s0 call) (h : Midway ms s0 s)
    (v : Nat → MLState.SaveEnv) : Fine2 ms s0 (MLState.saveAllR call v s) := by
  unfold MLState.saveAllR
  rw [h.opened.models]
  split
  · rename_i e; cases e
  · exact .inr ⟨_, rfl, h⟩
  · rename_i e; cases e
    exact saveLoopR_fine hc v ms s h (fun _ hx => hx)

theorem slotSaveR_fine {ms : List Nat} {s0 s : MLState} {call : MLState → Res MLState} (hc : CallFine ms s0 call) (h : Midway ms s0 s)
    (v : MLState.SaveEnv) : Fine ms s0 (s.slotSaveR call v) := by
  obtain ⟨k, j, m, d, a⟩ := h.atIt
  unfold MLState.slotSaveR
  rw [a.selectedModel]
  dsimp only
  rcases saveDestinationR_fine hc h v (h.opened.mem a.model) with h1 | ⟨r, h1, h2⟩
  · rw [h1]; exact .inl rfl
  · rw [h1, Res.bind_ok]
    apply hc
    split
    · exact (h2.actions _).emit _
    · exact h2.emit _

/-! ### All operations -/

theorem nav_fine {ms : List Nat} {s0 s : MLState} {call : MLState → Res MLState} (hc : CallFine ms s0 call) {op : UserOp} (h : Midway ms s0 s) (hop : op.Ok s0)
    {pre : Res (MLState × Event)} (he : op.run s = pre >>= finishPlain) : FineR ms s0 (pre >>= MLState.finishR call) := by
  obtain ⟨p, hp, hm⟩ := pre_fine h hop he
  rw [hp, Res.bind_ok]
  exact finishR_fine hc hm

theorem runR_fine {ms : List Nat} {s0 s : MLState} {call : MLState → Res MLState} (hc : CallFine ms s0 call) (h : Midway ms s0 s) (op : UserOp) (hop : op.Ok s0) :
    Fine ms s0 (op.runR call s) ∧ (op.updates = true → FineR ms s0 (op.runR call s)) := by
  have both : ∀ {x : Res MLState} {b : Prop}, FineR ms s0 x → Fine ms s0 x ∧ (b → FineR ms s0 x) := fun h => ⟨h.fine, fun _ => h⟩
  cases op with
  | nextDifference => exact both (nav_fine hc h hop (nextDifference_parts s))
  | previousDifference => exact both (nav_fine hc h hop (previousDifference_parts s))
  | nextFile => exact both (nav_fine hc h hop (nextModel_parts s))
  | previousFile => exact both (nav_fine hc h hop (previousModel_parts s))
  | select m d => exact both (nav_fine hc h hop (selection_parts s (some m) (some d)))
  | selectDiff d => exact both (nav_fine hc h hop (diffSelection_parts s (some d)))
  | apply =>
    refine both ?_
    show FineR ms s0 (s.actionApplyR call)
    unfold MLState.actionApplyR
    refine Fine.bindR (applyIfR_fine hc h true) (fun t ht => ?_)
    have := nav_fine hc ht (op := .nextDifference) trivial (nextDifference_parts t)
    obtain ⟨p, hp, hm⟩ := pre_fine ht (op := .nextDifference) trivial (nextDifference_parts t)
    rw [hp, Res.bind_ok]
    exact Fine.bindR (finishR_fine hc hm).fine (fun u hu => hu.update)
  | unapply =>
    refine both ?_
    show FineR ms s0 (s.actionUnapplyR call)
    unfold MLState.actionUnapplyR
    refine Fine.bindR (applyIfR_fine hc h false) (fun t ht => ?_)
    obtain ⟨p, hp, hm⟩ := pre_fine ht (op := .previousDifference) trivial (previousDifference_parts t)
    rw [hp, Res.bind_ok]
    exact Fine.bindR (finishR_fine hc hm).fine (fun u hu => hu.update)
  | applyAll => exact both (Fine.bindR (applyAllR_fine hc h true) (fun t ht => ht.update))
  | unapplyAll => exact both (Fine.bindR (applyAllR_fine hc h false) (fun t ht => ht.update))
  | applySlot b => exact ⟨applyR_fine hc h b, by simp [UserOp.updates]⟩
  | applyAllSlot b => exact ⟨applyAllR_fine hc h b, by simp [UserOp.updates]⟩
  | setReadWrite b =>
    obtain ⟨s', h1, h2⟩ := single_fine (op := .setReadWrite b) h trivial
    exact ⟨.inr ⟨s', h1, h2⟩, by simp [UserOp.updates]⟩
  | save v => exact ⟨slotSaveR_fine hc h v, by simp [UserOp.updates]⟩
  | saveModel v m =>
    have hop' : m ∈ s0.models.getD [] := hop
    refine ⟨?_, by simp [UserOp.updates]⟩
    show Fine ms s0 (s.saveDestinationR call v m >>= fun r => Res.ok r.1)
    have hms : s0.models = some ms := by rw [← h.frame.models]; exact h.opened.models
    rw [hms] at hop'
    rcases saveDestinationR_fine hc h v hop' with h1 | ⟨r, h1, h2⟩
    · rw [h1]; exact .inl rfl
    · rw [h1]; exact .inr ⟨_, rfl, h2⟩
  | saveAll v =>
    refine ⟨?_, by simp [UserOp.updates]⟩
    show Fine ms s0 (MLState.saveAllR call v s >>= fun r => Res.ok r.1)
    rcases saveAllR_fine hc h v with h1 | ⟨r, h1, h2⟩
    · rw [h1]; exact .inl rfl
    · rw [h1]; exact .inr ⟨_, rfl, h2⟩

theorem callsR_fine {ms : List Nat} {s0 : MLState} {run : UserOp → MLState → Res MLState} :
    ∀ (ops : List UserOp), (∀ op ∈ ops, ∀ s, Midway ms s0 s → Fine ms s0 (run op s)) → ∀ s, Midway ms s0 s → Fine ms s0 (callsR run ops s)
  | [], _, s, h => .inr ⟨s, rfl, h⟩
  | op :: ops, hr, s, h => by
    simp only [callsR]
    exact (hr op (by simp) s h).bind (fun t ht => callsR_fine ops (fun o ho => hr o (List.mem_cons_of_mem _ ho)) t ht)

theorem react_fine {ms : List Nat} {s0 : MLState} {f : Receivers} (hf : ∀ log, ∀ op ∈ f log, op.Ok s0) : ∀ n, CallFine ms s0 (f.react n)
  | 0, s, h => by
    unfold Receivers.react
    split
    · exact .inr ⟨s, rfl, h⟩
    · exact .inl rfl
  | n + 1, s, h => by
    unfold Receivers.react
    exact callsR_fine _ (fun op ho t ht => (runR_fine (react_fine hf n) ht op (hf _ op ho)).1) s h

/-! ### Without receivers -/

theorem saveDestinationR_silent (v : MLState.SaveEnv) (s : MLState) (m : Nat) : s.saveDestinationR Res.ok v m = s.saveDestination v m := by
  unfold MLState.saveDestinationR
  conv => rhs; unfold MLState.saveDestination
  cases hm : s.model (some m) <;> try rfl
  rename_i m'
  have hmm : m' = m := by
    unfold MLState.model at hm
    dsimp only at hm
    split at hm
    · cases hm
    · cases hm; rfl
  subst hmm
  simp only [Res.bind_ok, MLState.errorR]
  split
  · rfl
  split
  · rfl
  split
  · rfl
  split
  · rfl
  cases hi : s.info with
  | none => rfl
  | some i =>
    dsimp only
    split
    · rfl
    split
    · rename_i hc
      rw [if_neg (by simp [hc])]
    · rename_i hc
      have hc' : v.copyOk = true := by simpa using hc
      rw [if_pos hc']
      unfold MLState.saveDestination
      rw [hm, Res.bind_ok]
      simp [*]

theorem saveLoopR_silent (v : Nat → MLState.SaveEnv) : ∀ (l : List Nat) (s : MLState), MLState.saveLoopR Res.ok v l s = MLState.saveLoop v l s
  | [], _ => rfl
  | m :: l, s => by
    simp only [MLState.saveLoopR, MLState.saveLoop]
    rw [saveDestinationR_silent]
    cases s.saveDestination (v m) m <;> try rfl
    rename_i r
    simp only [Res.bind_ok]
    split
    · rename_i h; obtain ⟨a, b⟩ := r; dsimp only at h; subst h; rfl
    · exact saveLoopR_silent v l r.1

theorem finishR_silent (p : MLState × Event) : MLState.finishR Res.ok p = finishPlain p := by
  unfold MLState.finishR MLState.statusBarR finishPlain
  rw [Res.bind_ok]
  cases (p.1.emit p.2).emitStatusBar <;> rfl

theorem res_bind_ok_id {α} (x : Res α) : (x >>= Res.ok) = x := by cases x <;> rfl

theorem finishR_silent' : MLState.finishR Res.ok = finishPlain := funext finishR_silent

theorem runR_silent (op : UserOp) (s : MLState) : op.runR Res.ok s = op.run s := by
  cases op with
  | nextDifference => simp only [UserOp.runR, UserOp.run, finishR_silent', nextDifference_parts]
  | previousDifference => simp only [UserOp.runR, UserOp.run, finishR_silent', previousDifference_parts]
  | nextFile => simp only [UserOp.runR, UserOp.run, finishR_silent', nextModel_parts]
  | previousFile => simp only [UserOp.runR, UserOp.run, finishR_silent', previousModel_parts]
  | select m d => simp only [UserOp.runR, UserOp.run, finishR_silent', selection_parts]
  | selectDiff d => simp only [UserOp.runR, UserOp.run, finishR_silent', diffSelection_parts]
  | apply =>
    simp only [UserOp.runR, UserOp.run, MLState.actionApplyR, MLState.actionApply, MLState.applyIfR, MLState.applyR, finishR_silent', res_bind_ok_id]
    cases s.diff s.selectedDifference <;> try rfl
    simp only [Res.bind_ok, Bool.not_true]
    split
    · cases s.slotApplyDifference true <;> try rfl
      rename_i t
      simp only [Res.bind_ok, nextDifference_parts]
      cases t.nextDifferencePre <;> rfl
    · simp only [Res.bind_ok, nextDifference_parts]
      cases s.nextDifferencePre <;> rfl
  | unapply =>
    simp only [UserOp.runR, UserOp.run, MLState.actionUnapplyR, MLState.actionUnapply, MLState.applyIfR, MLState.applyR, finishR_silent', res_bind_ok_id]
    cases s.diff s.selectedDifference <;> try rfl
    simp only [Res.bind_ok, Bool.not_false]
    split
    · cases s.slotApplyDifference false <;> try rfl
      rename_i t
      simp only [Res.bind_ok, previousDifference_parts]
      cases t.previousDifferencePre <;> rfl
    · simp only [Res.bind_ok, previousDifference_parts]
      cases s.previousDifferencePre <;> rfl
  | applyAll => simp only [UserOp.runR, UserOp.run, MLState.applyAllR, MLState.actionApplyAll, res_bind_ok_id]
  | unapplyAll => simp only [UserOp.runR, UserOp.run, MLState.applyAllR, MLState.actionUnapplyAll, res_bind_ok_id]
  | applySlot b => simp only [UserOp.runR, UserOp.run, MLState.applyR, res_bind_ok_id]
  | applyAllSlot b => simp only [UserOp.runR, UserOp.run, MLState.applyAllR, res_bind_ok_id]
  | setReadWrite b => rfl
  | save v =>
    simp only [UserOp.runR, UserOp.run, MLState.slotSaveR, MLState.slotSaveDestination, saveDestinationR_silent]
    cases s.selectedModel <;> rfl
  | saveModel v m => simp only [UserOp.runR, UserOp.run, saveDestinationR_silent]
  | saveAll v =>
    simp only [UserOp.runR, UserOp.run, MLState.saveAllR, MLState.saveAll, saveLoopR_silent]
    cases s.models with
    | none => rfl
    | some l => cases l <;> rfl

theorem react_silent {f : Receivers} (hf : ∀ log, f log = []) (n : Nat) : f.react n = Res.ok := by
  funext s
  cases n with
  | zero => unfold Receivers.react; rw [if_pos (hf _)]
  | succ n => unfold Receivers.react; rw [hf]; rfl

theorem runUserR_silent {f : Receivers} (hf : ∀ log, f log = []) (n : Nat) (ops : List UserOp) : ∀ s, runUserR f n ops s = runUser ops s := by
  unfold runUserR
  rw [react_silent hf]
  induction ops with
  | nil => intro s; rfl
  | cons op ops ih =>
    intro s
    simp only [callsR, runUser, runR_silent]
    cases op.run s <;> try rfl
    exact ih _

end KompareDiff2
