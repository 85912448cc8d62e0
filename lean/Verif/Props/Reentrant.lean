import Verif.Proofs.ReentrantNav
import Verif.Props.ModelList
import Verif.Props.Announce

/-!
C69: the slots stay safe, and what they promise stays true, when the receivers of their signals call further slots while the signals are delivered.
-/

namespace KompareDiff2
open Spec

theorem InUse.midway {s : MLState} (h : InUse s) : ∃ ms, Midway ms s s := by
  obtain ⟨_, _, ms, k, j, m, d, ho, ha⟩ := h.facts
  exact ⟨ms, ho, ⟨k, j, m, d, ha⟩, .refl s⟩

/-- Receivers that call nothing change nothing: the slots with receivers are the slots. -/
theorem C69_silent {f : Receivers} (hf : ∀ log, f log = []) (n : Nat) (ops : List UserOp) (s : MLState) : runUserR f n ops s = runUser ops s :=
  runUserR_silent hf n ops s

/-- The results, too: without calls of the receivers `saveDestination` and `saveAll` return what they return without receivers, also when there is nothing to save. -/
theorem C69_silent_results {f : Receivers} (hf : ∀ log, f log = []) (n : Nat) (s : MLState) :
    (∀ v m, s.saveDestinationR (f.react n) v m = s.saveDestination v m) ∧ ∀ v, s.saveAllR (f.react n) v = s.saveAll v := by
  have hr : f.react n = Res.ok := by
    funext t
    cases n with
    | zero => simp only [Receivers.react, hf, if_true]
    | succ n => simp only [Receivers.react, hf, callsR]
  rw [hr]
  refine ⟨fun v m => saveDestinationR_silent v s m, fun v => ?_⟩
  unfold MLState.saveAllR MLState.saveAll
  cases s.models with
  | none => rfl
  | some l =>
    cases l with
    | nil => rfl
    | cons m l => exact saveLoopR_silent v (m :: l) s

/-- Whatever the receivers do while an error is signalled, the result of saving a file is the one it would be without them, and `false` is returned only after an error
was signalled. -/
theorem C69_result {s s' : MLState} {call : MLState → Res MLState} {v : MLState.SaveEnv} {m : Nat} {b : Bool} (h : s.saveDestinationR call v m = Res.ok (s', b)) :
    (∃ t, s.saveDestination v m = Res.ok (t, b)) ∧ (b = false → ∃ k, call (s.emit (.error k)) = Res.ok s') := by
  unfold MLState.saveDestinationR at h
  replace h := Res.bind_eq_ok.1 h
  obtain ⟨m', hm, h⟩ := h
  have hmm : m' = m := by
    unfold MLState.model at hm
    dsimp only at hm
    split at hm
    · cases hm
    · cases hm; rfl
  subst hmm
  have err : ∀ {k b'}, s.errorR call k b' = Res.ok (s', b) → b' = b ∧ call (s.emit (.error k)) = Res.ok s' := by
    intro k b' h
    obtain ⟨u, h1, h2⟩ := Res.bind_eq_ok.1 h
    cases h2
    exact ⟨rfl, h1⟩
  unfold MLState.saveDestination
  rw [hm]
  simp only [Res.bind_ok]
  by_cases h1 : (s.store m').hasUnsavedChanges s.heap = false
  · rw [if_pos h1] at h ⊢
    cases h
    exact ⟨⟨_, rfl⟩, fun h => by cases h⟩
  rw [if_neg h1] at h ⊢
  by_cases h2 : v.tempOpens = false
  · rw [if_pos h2] at h ⊢
    obtain ⟨rfl, h'⟩ := err h
    exact ⟨⟨_, rfl⟩, fun _ => ⟨_, h'⟩⟩
  rw [if_neg h2] at h ⊢
  by_cases h3 : v.writeOk = false
  · rw [if_pos h3] at h ⊢
    obtain ⟨rfl, h'⟩ := err h
    exact ⟨⟨_, rfl⟩, fun _ => ⟨_, h'⟩⟩
  rw [if_neg h3] at h ⊢
  by_cases h4 : v.closeOk = false
  · rw [if_pos h4] at h ⊢
    obtain ⟨rfl, h'⟩ := err h
    exact ⟨⟨_, rfl⟩, fun _ => ⟨_, h'⟩⟩
  rw [if_neg h4] at h ⊢
  cases hi : s.info with
  | none => rw [hi] at h; cases h
  | some i =>
    rw [hi] at h
    dsimp only at h ⊢
    by_cases h5 : i.mode = .ComparingDirs ∧ v.statOk = false ∧ v.mkdirOk = false
    · rw [if_pos h5] at h ⊢
      obtain ⟨rfl, h'⟩ := err h
      exact ⟨⟨_, rfl⟩, fun _ => ⟨_, h'⟩⟩
    rw [if_neg h5] at h ⊢
    by_cases h6 : v.copyOk = false
    · rw [if_pos h6] at h
      obtain ⟨rfl, h'⟩ := err h
      rw [if_neg (by simp [h6])]
      exact ⟨⟨_, rfl⟩, fun h => by cases h⟩
    · rw [if_neg h6] at h
      have h6 : v.copyOk = true := by simpa using h6
      unfold MLState.saveDestination at h
      rw [hm] at h
      simp only [Res.bind_ok, if_neg h1, if_neg h2, if_neg h3, if_neg h4, hi, if_neg h5, if_pos h6] at h
      rw [if_pos h6]
      cases h
      exact ⟨⟨_, rfl⟩, fun h => by cases h⟩

/-- In an open diff every save of the selected file, however it fails, has a result. -/
example : ∃ s m, InUse s ∧ ∀ v, ∃ r, s.saveDestinationR (Receivers.react (fun _ => []) 0) v m = Res.ok r := by
  obtain ⟨s, h⟩ := example_inUse
  obtain ⟨_, _, ms, k, j, m, d, ho, ha⟩ := h.facts
  refine ⟨s, m, h, fun v => ?_⟩
  obtain ⟨s', b, h1, _⟩ := saveDestination_ok ho ha v (ho.mem ha.model)
  exact ⟨_, ((C69_silent_results (fun _ => rfl) 0 s).1 v m).trans h1⟩

/-- Whatever the receivers of the signals call while a signal is delivered (navigation, selection, applying, saving, in any number and nested to any
depth, depending on everything signalled so far): the operations on an open diff either go on for ever, or end with a valid selection, right
navigation actions, the same files and the same differences; they never end in undefined behaviour. -/
theorem C69_safe {s : MLState} {f : Receivers} (h : InUse s) (hf : ∀ log, ∀ op ∈ f log, op.Ok s) (n : Nat) {ops : List UserOp}
    (hops : ∀ op ∈ ops, op.Ok s) :
    runUserR f n ops s = Res.hang ∨ ∃ s' ms k j m d, runUserR f n ops s = Res.ok s' ∧ SelectionValid s' ms k j m d ∧ NavigationRight s' ∧
      s'.models = s.models ∧ (∀ m, (s'.store m).differences = (s.store m).differences ∧ (s'.store m).hunks = (s.store m).hunks) := by
  obtain ⟨ms, hm⟩ := h.midway
  rcases callsR_fine (ms := ms) (s0 := s) ops (fun op ho t ht => (runR_fine (react_fine hf n) ht op (hops op ho)).1) s hm with g | ⟨s', g, hm'⟩
  · exact .inl g
  · obtain ⟨k, j, m, d, a⟩ := hm'.atIt
    exact .inr ⟨s', ms, k, j, m, d, g, a.valid hm'.opened, callsR_navs (react_fine hf n) (react_navs hf n) ops hops s s' hm g h.facts.2.1,
      hm'.frame.models, fun m => ⟨hm'.frame.differences m, hm'.frame.hunks m⟩⟩

/-- After an operation that updates the actions all of them are right, even if the receivers moved the selection or applied differences
meanwhile. -/
theorem C69_actions {s s' : MLState} {f : Receivers} {op : UserOp} {n : Nat} (h : InUse s) (hf : ∀ log, ∀ op ∈ f log, op.Ok s) (hop : op.Ok s)
    (hu : op.updates = true) (hs : runUserR f n [op] s = Res.ok s') : NavigationRight s' ∧ (s'.canSave = true → WritingRight s') := by
  obtain ⟨ms, hm⟩ := h.midway
  have e : op.runR (f.react n) s = Res.ok s' := by
    rw [← hs]
    simp only [runUserR, callsR]
    cases op.runR (f.react n) s <;> rfl
  exact (((runR_fine (react_fine hf n) hm op hop).2 hu).ok e).2

/-- It ends if the receivers stop calling: if they call nothing any more once `k` signals were sent, `k` levels are enough. -/
theorem C69_ends {s : MLState} {f : Receivers} {k : Nat} (h : InUse s) (hf : ∀ log, ∀ op ∈ f log, op.Ok s) (hk : f.StopsAfter k) {ops : List UserOp}
    (hops : ∀ op ∈ ops, op.Ok s) {n : Nat} (hn : k ≤ s.log.length + 1 + n) : ∃ s', runUserR f n ops s = Res.ok s' := by
  obtain ⟨ms, hm⟩ := h.midway
  obtain ⟨s', e, _⟩ := callsR_ends (react_ends hf hk n) ops hops s hm (by omega)
  exact ⟨s', e⟩

/-- Receivers that answer every signal by going to the next file do go on for ever: no depth is enough.  (Nothing in the slots stops them.) -/
theorem C69_endless {s : MLState} {f : Receivers} (h : InUse s) (hf : ∀ log, ∃ rest, f log = .nextFile :: rest) (n : Nat) (ops : List UserOp) :
    runUserR f n (.nextFile :: ops) s = Res.hang := by
  obtain ⟨ms, hm⟩ := h.midway
  have step : ∀ (call : MLState → Res MLState), (∀ t, Midway ms s t → call t = Res.hang) → ∀ t, Midway ms s t → UserOp.nextFile.runR call t = Res.hang := by
    intro call hc t ht
    obtain ⟨p, hp, hm⟩ := pre_fine ht (op := .nextFile) trivial (nextModel_parts t)
    simp only [UserOp.runR]
    rw [hp, Res.bind_ok]
    unfold MLState.finishR
    rw [hc _ (hm.emit _)]
    rfl
  have key : ∀ n t, Midway ms s t → f.react n t = Res.hang := by
    intro n
    induction n with
    | zero =>
      intro t _
      obtain ⟨rest, hr⟩ := hf t.log
      unfold Receivers.react
      rw [if_neg (by rw [hr]; simp)]
    | succ n ih =>
      intro t ht
      obtain ⟨rest, hr⟩ := hf t.log
      unfold Receivers.react
      rw [hr]
      simp only [callsR]
      rw [step _ ih t ht]
      rfl
  unfold runUserR
  simp only [callsR]
  rw [step _ (key n) s hm]
  rfl

/-- A listener that is told first (before the receivers that call) stays informed: if the receivers call whole selections only, what
was announced last is what is selected, and the status bar shows it. -/
theorem C69_announced {s s' : MLState} {f : Receivers} {n : Nat} {ops : List UserOp} (h : InUse s) (hf : ∀ log, ∀ op ∈ f log, op.Whole s)
    (hops : ∀ op ∈ ops, op.Whole s) (ha : Announced s) (hs : runUserR f n ops s = Res.ok s') : Announced s' := by
  obtain ⟨ms, hm⟩ := h.midway
  exact (callsR_tells (react_fine (fun l o ho => (hf l o ho).ok) n) (react_tells hf n) ops hops s s' hm hs ha.told).2 ha

/-- Opening, with receivers that wait for something to select (and may then call slots while the status bar, the list of files, the selection
and the end of parsing are signalled): the outcome is the same, only that they may have moved the selection or go on for ever. -/
theorem C69_opening {s s1 : MLState} {e : Env} {text : Str} {f : Receivers} (hr : Reachable s) (h : s.parseAndOpenDiff e text = Res.ok (s1, true))
    (hw : f.Waits) (hf : ∀ log, ∀ op ∈ f log, op.Ok s1) (n : Nat) :
    s.parseAndOpenDiffR (f.react n) e text = Res.hang ∨ ∃ s' ms k j m d, s.parseAndOpenDiffR (f.react n) e text = Res.ok (s', true) ∧
      SelectionValid s' ms k j m d ∧ NavigationRight s' ∧ s'.models = s1.models ∧
      (∀ m, (s'.store m).differences = (s1.store m).differences ∧ (s'.store m).hunks = (s1.store m).hunks) := by
  rw [parseAndOpenDiffR_patient (react_patient hw n)]
  have h' := h
  unfold MLState.parseAndOpenDiff at h'
  obtain ⟨⟨t, b⟩, ht, h'⟩ := Res.bind_eq_ok.1 h'
  dsimp only at h'
  cases b with
  | false => cases h'
  | true =>
    have hfr := Frame.opened ht h
    have w1 : WF (s.clear.emit (.status .Parsing)) := hr.wf.keep ((keep_clear s).trans (keep_emit _ _))
    obtain ⟨_, _, _, r, _, _, _, ho⟩ := parseDiffOutput_spec w1 ht
    obtain ⟨dms, m, d, _, hop, hat, _⟩ := ho rfl
    have hm : Midway _ s1 t := ⟨hop, ⟨0, 0, m, d, hat⟩, hfr⟩
    rw [ht, Res.bind_ok]
    dsimp only
    rw [if_pos rfl]
    rcases openEndR_fine (react_fine hf n) hm with g | ⟨s', g, hm'⟩
    · left; rw [g]; rfl
    · right
      obtain ⟨k, j, m, d, a⟩ := hm'.atIt
      refine ⟨s', _, k, j, m, d, by rw [g]; rfl, a.valid hm'.opened, openEndR_right (react_fine hf n) (react_navs hf n) hm g,
        hm'.frame.models, fun m => ⟨hm'.frame.differences m, hm'.frame.hunks m⟩⟩

/-- If nothing can be parsed, or opening fails otherwise, such receivers make no difference at all. -/
theorem C69_opening_fails {s s1 : MLState} {e : Env} {text : Str} {f : Receivers} (hr : Reachable s) (hw : f.Waits) (n : Nat) :
    (s.parseAndOpenDiff e text = Res.ok (s1, false) → s.parseAndOpenDiffR (f.react n) e text = Res.ok (s1, false)) ∧
    (s.parseAndOpenDiff e text = Res.ub → s.parseAndOpenDiffR (f.react n) e text = Res.ub) := by
  rw [parseAndOpenDiffR_patient (react_patient hw n)]
  constructor
  · intro h
    unfold MLState.parseAndOpenDiff at h
    obtain ⟨⟨t, b⟩, ht, h⟩ := Res.bind_eq_ok.1 h
    dsimp only at h
    rw [ht, Res.bind_ok]
    cases b with
    | false => rw [if_pos rfl] at h; cases h; rfl
    | true =>
      rw [if_neg (by simp)] at h
      obtain ⟨u, _, h⟩ := Res.bind_eq_ok.1 h
      cases h
  · intro h
    unfold MLState.parseAndOpenDiff at h
    dsimp only at h
    cases ht : (s.clear.emit (.status .Parsing)).parseDiffOutput e text with
    | ub => rfl
    | hang => rw [ht] at h; cases h
    | ok r =>
      obtain ⟨t, b⟩ := r
      rw [ht, Res.bind_ok] at h
      cases b with
      | false => cases h
      | true =>
        have w1 : WF (s.clear.emit (.status .Parsing)) := hr.wf.keep ((keep_clear s).trans (keep_emit _ _))
        obtain ⟨_, _, _, r, _, _, _, ho⟩ := parseDiffOutput_spec w1 ht
        obtain ⟨dms, m, d, _, hop, hat, _⟩ := ho rfl
        obtain ⟨ac, hu, _⟩ := updateActions_ok hop hat
        dsimp only at h
        rw [if_neg (by simp), hu] at h
        cases h

/-- The same for a diff in a file. -/
theorem C69_opening_file {s : MLState} {e : Env} {file : Str} (hf : file ≠ []) (call : MLState → Res MLState) :
    s.openDiffR call e file = s.parseAndOpenDiffR call e (e.contents file) ∧ s.openDiff e file = s.parseAndOpenDiff e (e.contents file) :=
  ⟨openDiffR_eq call e s file hf, openDiff_eq e s file hf⟩

/-- Without a file name nothing happens, nothing is signalled and failure is returned, with receivers as without. -/
theorem C69_opening_nofile (s : MLState) (e : Env) (call : MLState → Res MLState) :
    s.openDiffR call e [] = Res.ok (s, false) ∧ s.openDiff e [] = Res.ok (s, false) := ⟨rfl, rfl⟩

/-- Defect: a receiver that does not wait.  Opening empties the list of files and signals that, but neither the selection nor the actions are
reset; a receiver that then asks for the next (or, at the first file, the previous) file takes an element out of the empty list. -/
theorem C69_opening_defect {s : MLState} {e : Env} {text : Str} {f : Receivers} {n : Nat} (h : InUse s)
    (hf : ∃ rest, f s.clear.log = .nextFile :: rest) : s.parseAndOpenDiffR (f.react (n + 1)) e text = Res.ub := by
  obtain ⟨ms, hm⟩ := h.midway
  obtain ⟨rest, hf⟩ := hf
  obtain ⟨k, j, m, d, a⟩ := hm.atIt
  have hl : s.clear.models = some [] := by
    show s.models.map _ = _
    rw [hm.opened.models]; rfl
  have hx : s.clear.list = Res.ok [] := by unfold MLState.list; rw [hl]
  have hi : s.clear.modelIndex = (k : Int) := a.index
  unfold MLState.parseAndOpenDiffR MLState.clearR
  unfold Receivers.react
  rw [hf]
  simp only [callsR, UserOp.runR]
  have e1 : s.clear.nextModelPre = Res.ub := by
    unfold MLState.nextModelPre MLState.nextModel_
    rw [hx, Res.bind_ok, if_neg (by rw [hi]; simp; omega), Res.bind_ok, if_neg (by simp)]
    unfold MLState.lastModel
    have : MLState.list { s.clear with modelIndex := 0, selectedModel := none } = Res.ok [] := hx
    rw [this]
    rfl
  rw [e1]
  rfl

/-! ### The hypotheses are met -/

/-- Receivers that answer every selection by moving on, until ten thousand signals were sent. -/
def eager : Receivers := fun log => if log.length < 10000 then (match log.getLast? with | some (.selection _ _) => [.nextDifference, .applySlot true] | _ => []) else []

example : ∃ s s', InUse s ∧ runUserR eager 10000 [.nextFile, .apply, .previousFile] s = Res.ok s' := by
  obtain ⟨s, h⟩ := example_inUse
  have hf : ∀ log, ∀ op ∈ eager log, op.Ok s := by
    intro log op ho
    unfold eager at ho
    split at ho
    · split at ho
      · simp at ho; rcases ho with rfl | rfl <;> trivial
      · cases ho
    · cases ho
  have hk : eager.StopsAfter 10000 := by
    intro log hl
    unfold eager
    rw [if_neg (by omega)]
  obtain ⟨s', e⟩ := C69_ends (ops := [.nextFile, .apply, .previousFile]) h hf hk (by intro op ho; simp at ho; rcases ho with rfl | rfl | rfl <;> trivial) (n := 10000) (by omega)
  exact ⟨s, s', h, e⟩

theorem eager_waits : eager.Waits := by
  intro log e he
  unfold eager
  split
  · rw [List.getLast?_append]
    cases e <;> first | rfl | cases he
  · rfl

/-- What was announced stays so. -/
example : ∃ s, InUse s ∧ Announced s ∧ ∀ log, ∀ op ∈ eager log, op.Whole s := by
  obtain ⟨s1, h⟩ := example_opens
  refine ⟨s1, h.inUse exampleStart_reachable, C51_announced (.opened exampleStart_reachable h), ?_⟩
  intro log op ho
  unfold eager at ho
  split at ho
  · split at ho
    · simp at ho; rcases ho with rfl | rfl <;> trivial
    · cases ho
  · cases ho

/-- Opening, with the eager receivers. -/
example : ∃ s1, exampleStart.parseAndOpenDiff emptyEnv exampleDiff.render.flatten = Res.ok (s1, true) ∧ eager.Waits ∧ ∀ log, ∀ op ∈ eager log, op.Ok s1 := by
  obtain ⟨s1, h⟩ := example_opens
  refine ⟨s1, h, eager_waits, ?_⟩
  intro log op ho
  unfold eager at ho
  split at ho
  · split at ho
    · simp at ho; rcases ho with rfl | rfl <;> trivial
    · cases ho
  · cases ho

/-- A receiver that does not wait, and a second diff. -/
example : ∃ s, InUse s ∧ ∀ e text, s.parseAndOpenDiffR (Receivers.react (fun _ => [.nextFile]) 1) e text = Res.ub := by
  obtain ⟨s, h⟩ := example_inUse
  exact ⟨s, h, fun e text => C69_opening_defect h ⟨[], rfl⟩⟩

end KompareDiff2
