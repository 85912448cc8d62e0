import Verif.Proofs.Events
/-
The running diff process and the file it is to be saved to are only touched by the calls that start or end a process.
-/
namespace KompareDiff2

/-- The process, and the temporary file and target for its output, are the same. -/
structure SameProcess (s s' : MLState) : Prop where
  process : s'.process = s.process
  temp : s'.diffTemp = s.diffTemp
  url : s'.diffURL = s.diffURL

theorem SameProcess.refl (s : MLState) : SameProcess s s := ⟨rfl, rfl, rfl⟩
theorem SameProcess.trans {a b c : MLState} (h : SameProcess a b) (h' : SameProcess b c) : SameProcess a c :=
  ⟨h'.process.trans h.process, h'.temp.trans h.temp, h'.url.trans h.url⟩

/-- A computation that leaves the process alone. -/
def Leaves {α : Type} (p : α → MLState) (s : MLState) (r : Res α) : Prop := ∀ a, r = Res.ok a → SameProcess s (p a)

theorem Leaves.ok {α : Type} {p : α → MLState} {s : MLState} {a : α} (h : SameProcess s (p a)) : Leaves p s (Res.ok a) := by
  intro b hb; rw [← Res.ok.inj hb]; exact h

theorem Leaves.ub {α : Type} {p : α → MLState} {s : MLState} : Leaves p s Res.ub := fun _ h => by cases h

theorem Leaves.bind {α β : Type} {p : α → MLState} {q : β → MLState} {s : MLState} {m : Res α} {k : α → Res β} (h : Leaves p s m)
    (hk : ∀ a, SameProcess s (p a) → Leaves q (p a) (k a)) : Leaves q s (m >>= k) := by
  intro b hb
  obtain ⟨a, h1, h2⟩ := Res.bind_eq_ok.1 hb
  exact (h a h1).trans (hk a (h a h1) b h2)

theorem Leaves.any {α β : Type} {q : β → MLState} {s : MLState} {m : Res α} {k : α → Res β} (hk : ∀ a, Leaves q s (k a)) : Leaves q s (m >>= k) := by
  intro b hb
  obtain ⟨a, _, h2⟩ := Res.bind_eq_ok.1 hb
  exact hk a b h2

theorem Leaves.from {α : Type} {p : α → MLState} {s t : MLState} {r : Res α} (h : SameProcess s t) (hr : Leaves p t r) : Leaves p s r :=
  fun a ha => h.trans (hr a ha)

theorem Leaves.via {α : Type} {p : α → MLState} {s t : MLState} {r : Res α} (hr : Leaves p t r) (h : SameProcess s t) : Leaves p s r :=
  fun a ha => h.trans (hr a ha)

/-- One computation of a state after another. -/
theorem Leaves.seq {β : Type} {q : β → MLState} {s : MLState} {m : Res MLState} {k : MLState → Res β} (h : Leaves id s m)
    (hk : ∀ t, Leaves q t (k t)) : Leaves q s (m >>= k) := Leaves.bind h (fun t _ => hk t)

theorem Leaves.ite {α : Type} {p : α → MLState} {s : MLState} {c : Prop} [Decidable c] {x y : Res α} (hx : Leaves p s x) (hy : Leaves p s y) :
    Leaves p s (if c then x else y) := by split <;> assumption

open MLState

theorem leaves_updateActions (s : MLState) : Leaves id s s.updateActions := by
  unfold updateActions
  refine .ite (.any fun _ => .any fun _ => .any fun _ => .any fun _ => .ok ⟨rfl, rfl, rfl⟩) (.ok ⟨rfl, rfl, rfl⟩)

theorem leaves_emitStatusBar (s : MLState) : Leaves id s s.emitStatusBar := .any fun _ => .any fun _ => .any fun _ => .ok ⟨rfl, rfl, rfl⟩

theorem leaves_firstModel (s : MLState) : Leaves id s s.firstModel := .any fun _ => .any fun _ => .ok ⟨rfl, rfl, rfl⟩
theorem leaves_lastModel (s : MLState) : Leaves id s s.lastModel := .any fun _ => .any fun _ => .ok ⟨rfl, rfl, rfl⟩

theorem leaves_prevModel (s : MLState) : Leaves id s s.prevModel := by
  unfold prevModel
  refine .ite (.any fun _ => .ite (.any fun _ => .ok ⟨rfl, rfl, rfl⟩) (.ok ⟨rfl, rfl, rfl⟩)) (.ok ⟨rfl, rfl, rfl⟩)

theorem leaves_nextModel (s : MLState) : Leaves id s s.nextModel_ := by
  unfold nextModel_
  refine .any fun _ => .ite (.any fun _ => .ok ⟨rfl, rfl, rfl⟩) (.ok ⟨rfl, rfl, rfl⟩)

theorem leaves_selectWith (s : MLState) (i : Nat) (f : DModel → Res (DModel × Option Nat)) : Leaves id s (s.selectWith i f) :=
  .any fun _ => .ok ⟨rfl, rfl, rfl⟩

theorem leaves_selectFirst (s : MLState) : Leaves id s s.selectFirst := .any fun _ => leaves_selectWith _ _ _
theorem leaves_selectLast (s : MLState) : Leaves id s s.selectLast := .any fun _ => leaves_selectWith _ _ _

theorem emit_same (s : MLState) (e : Event) : SameProcess s (s.emit e) := ⟨rfl, rfl, rfl⟩

theorem leaves_announce (s : MLState) : Leaves id s s.announce :=
  .seq (.from (emit_same s _) (leaves_emitStatusBar _)) leaves_updateActions

theorem leaves_first (s : MLState) : Leaves id s (do let s ← s.firstModel; s.selectFirst) := .seq (leaves_firstModel s) leaves_selectFirst
theorem leaves_last (s : MLState) : Leaves id s (do let s ← s.lastModel; s.selectFirst) := .seq (leaves_lastModel s) leaves_selectFirst

theorem leaves_setSelectedModel (s : MLState) (p : Option Nat) (r : Option MLState) (h : s.setSelectedModel p = Res.ok r) :
    ∀ t, r = some t → SameProcess s t := by
  intro t ht
  unfold setSelectedModel at h
  split at h
  · obtain ⟨l, _, h⟩ := Res.bind_eq_ok.1 h
    split at h
    · rw [← Res.ok.inj h] at ht; cases ht
    · obtain ⟨u, h1, h⟩ := Res.bind_eq_ok.1 h
      rw [← Res.ok.inj h] at ht
      cases ht
      exact SameProcess.trans (b := { s with modelIndex := indexOfPtr l p, selectedModel := p }) ⟨rfl, rfl, rfl⟩ (leaves_updateActions _ _ h1)
  · obtain ⟨u, h1, h⟩ := Res.bind_eq_ok.1 h
    rw [← Res.ok.inj h] at ht
    cases ht
    exact leaves_updateActions _ _ h1

theorem leaves_select (s : MLState) (m d : Option Nat) : Leaves id s (s.slotSelectionChanged m d) := by
  unfold slotSelectionChanged
  refine .any fun l => ?_
  dsimp only
  refine .any fun i => ?_
  generalize ht : MLState.setModel _ i _ = t
  have e0 : SameProcess s t := by rw [← ht]; exact ⟨rfl, rfl, rfl⟩
  refine .from e0 ?_
  intro a h
  obtain ⟨r, h1, h⟩ := Res.bind_eq_ok.1 h
  cases r with
  | none =>
    refine (?_ : Leaves id t _) a h
    exact .seq (leaves_firstModel t) fun t => .seq (leaves_selectFirst t) fun t =>
      .seq (.from (emit_same t _) (leaves_emitStatusBar _)) leaves_updateActions
  | some v =>
    refine Leaves.from (leaves_setSelectedModel _ _ _ h1 v rfl) (?_ : Leaves id v _) a h
    dsimp only
    refine .any fun i' => .ite ?_ ?_
    · exact .seq (.via (leaves_selectFirst _) ⟨rfl, rfl, rfl⟩) fun t => .seq (.from (emit_same t _) (leaves_emitStatusBar _)) leaves_updateActions
    · exact .seq (.ok ⟨rfl, rfl, rfl⟩) fun t => .seq (.from (emit_same t _) (leaves_emitStatusBar _)) leaves_updateActions

theorem leaves_selectDiff (s : MLState) (d : Option Nat) : Leaves id s (s.slotDiffSelectionChanged d) := by
  unfold slotDiffSelectionChanged
  refine .any fun i => ?_
  dsimp only
  refine .ite ?_ ?_
  · exact .seq (.via (leaves_selectFirst _) ⟨rfl, rfl, rfl⟩) fun t => .seq (.from (emit_same t _) (leaves_emitStatusBar _)) leaves_updateActions
  · exact .seq (.ok ⟨rfl, rfl, rfl⟩) fun t => .seq (.from (emit_same t _) (leaves_emitStatusBar _)) leaves_updateActions

theorem leaves_diffAnnounce (s : MLState) : Leaves id s (do
    let s ← (s.emit (.diffSelection s.selectedDifference)).emitStatusBar
    s.updateActions) := .seq (.from (emit_same s _) (leaves_emitStatusBar _)) leaves_updateActions

theorem leaves_nextDifference (s : MLState) : Leaves id s s.slotNextDifference := by
  unfold slotNextDifference
  refine .any fun i => .seq (leaves_selectWith _ _ _) fun t => .ite (leaves_diffAnnounce t) ?_
  refine .seq (leaves_nextModel t) fun t => .ite (.seq (leaves_selectFirst t) leaves_announce) ?_
  exact .seq (leaves_lastModel t) fun t => .seq (leaves_selectLast t) leaves_announce

theorem leaves_previousDifference (s : MLState) : Leaves id s s.slotPreviousDifference := by
  unfold slotPreviousDifference
  refine .any fun i => .seq (leaves_selectWith _ _ _) fun t => .ite (leaves_diffAnnounce t) ?_
  refine .seq (leaves_prevModel t) fun t => .ite (.seq (leaves_selectLast t) leaves_announce) ?_
  exact .seq (leaves_firstModel t) fun t => .seq (leaves_selectFirst t) leaves_announce

theorem leaves_applySlot (s : MLState) (b : Bool) : Leaves id s (s.slotApplyDifference b) := .any fun _ => .any fun _ => .any fun _ => .ok ⟨rfl, rfl, rfl⟩
theorem leaves_applyAllSlot (s : MLState) (b : Bool) : Leaves id s (s.slotApplyAllDifferences b) := .any fun _ => .ok ⟨rfl, rfl, rfl⟩

theorem leaves_saveDestination (v : SaveEnv) (s : MLState) (m : Nat) : Leaves Prod.fst s (s.saveDestination v m) := by
  unfold saveDestination
  refine .any fun _ => .ite (.ok ⟨rfl, rfl, rfl⟩) (.ite (.ok ⟨rfl, rfl, rfl⟩) (.ite (.ok ⟨rfl, rfl, rfl⟩) (.ite (.ok ⟨rfl, rfl, rfl⟩) ?_)))
  split
  · exact .ub
  · refine .ite (.ok ⟨rfl, rfl, rfl⟩) ?_
    dsimp only
    exact .ite (.ok ⟨rfl, rfl, rfl⟩) (.ok ⟨rfl, rfl, rfl⟩)

theorem leaves_saveLoop (v : Nat → SaveEnv) (l : List Nat) : ∀ s : MLState, Leaves Prod.fst s (saveLoop v l s) := by
  induction l with
  | nil => intro s; exact .ok ⟨rfl, rfl, rfl⟩
  | cons m l ih =>
    intro s
    refine .bind (leaves_saveDestination _ s m) fun a _ => ?_
    exact .ite (.ok ⟨rfl, rfl, rfl⟩) (ih _)

theorem leaves_nextFile (s : MLState) : Leaves id s s.slotNextModel := by
  unfold slotNextModel
  refine .seq (leaves_nextModel s) fun t => ?_
  dsimp only
  refine .ite (.seq (leaves_selectFirst t) leaves_announce) ?_
  exact .seq (leaves_lastModel t) fun t => .seq (leaves_selectFirst t) leaves_announce

theorem leaves_previousFile (s : MLState) : Leaves id s s.slotPreviousModel := by
  unfold slotPreviousModel
  refine .seq (leaves_prevModel s) fun t => ?_
  dsimp only
  refine .ite (.seq (leaves_selectFirst t) leaves_announce) ?_
  exact .seq (leaves_firstModel t) fun t => .seq (leaves_selectFirst t) leaves_announce

theorem leaves_actionApply (s : MLState) : Leaves id s s.actionApply := by
  unfold actionApply
  refine .any fun _ => ?_
  dsimp only
  refine .ite (.seq (leaves_applySlot s _) fun t => .seq (leaves_nextDifference t) leaves_updateActions) ?_
  exact .seq (.ok (.refl s)) fun t => .seq (leaves_nextDifference t) leaves_updateActions

theorem leaves_actionUnapply (s : MLState) : Leaves id s s.actionUnapply := by
  unfold actionUnapply
  refine .any fun _ => ?_
  dsimp only
  refine .ite (.seq (leaves_applySlot s _) fun t => .seq (leaves_previousDifference t) leaves_updateActions) ?_
  exact .seq (.ok (.refl s)) fun t => .seq (leaves_previousDifference t) leaves_updateActions

theorem leaves_user (op : UserOp) (s : MLState) : Leaves id s (op.run s) := by
  cases op with
  | nextDifference => exact leaves_nextDifference s
  | previousDifference => exact leaves_previousDifference s
  | nextFile => exact leaves_nextFile s
  | previousFile => exact leaves_previousFile s
  | select m d => exact leaves_select s _ _
  | selectDiff d => exact leaves_selectDiff s _
  | apply => exact leaves_actionApply s
  | unapply => exact leaves_actionUnapply s
  | applyAll => exact .seq (leaves_applyAllSlot s _) leaves_updateActions
  | unapplyAll => exact .seq (leaves_applyAllSlot s _) leaves_updateActions
  | applySlot b => exact leaves_applySlot s b
  | applyAllSlot b => exact leaves_applyAllSlot s b
  | setReadWrite b => exact .ite (.ok ⟨rfl, rfl, rfl⟩) (.via (leaves_updateActions _) ⟨rfl, rfl, rfl⟩)
  | save v =>
    show Leaves id s (s.slotSaveDestination v)
    unfold slotSaveDestination
    split
    · exact .ok ⟨rfl, rfl, rfl⟩
    · refine .bind (leaves_saveDestination v s _) fun a _ => ?_
      dsimp only
      split <;> exact .ok ⟨rfl, rfl, rfl⟩
  | saveModel v m => exact .bind (leaves_saveDestination v s m) fun a _ => .ok ⟨rfl, rfl, rfl⟩
  | saveAll v =>
    refine .bind (p := Prod.fst) ?_ fun a _ => .ok ⟨rfl, rfl, rfl⟩
    unfold saveAll
    split
    · exact .ok ⟨rfl, rfl, rfl⟩
    · exact .ok ⟨rfl, rfl, rfl⟩
    · exact leaves_saveLoop v _ s

theorem resetModels_same (s : MLState) (r : ParseResult) : SameProcess s (s.resetModels r) := by
  unfold resetModels
  dsimp only
  split <;> exact ⟨rfl, rfl, rfl⟩

theorem leaves_parseDiffOutput (e : Env) (s : MLState) (text : Str) : Leaves Prod.fst s (s.parseDiffOutput e text) := by
  unfold parseDiffOutput
  dsimp only
  refine .any fun r => .any fun _ => .from ((emit_same s (.diffString text)).trans (resetModels_same _ r)) ?_
  generalize (s.emit (.diffString text)).resetModels r = t
  split
  · exact .ub
  · split
    · exact .ok ⟨rfl, rfl, rfl⟩
    · refine .from (t := if r.malformed = true then _ else _) ?_ (.seq (leaves_firstModel _) fun t => .seq (leaves_selectFirst t) fun t => .any fun _ => .ok ⟨rfl, rfl, rfl⟩)
      split <;> exact ⟨rfl, rfl, rfl⟩

theorem clear_same (s : MLState) : SameProcess s s.clear := ⟨rfl, rfl, rfl⟩
theorem show_same (s : MLState) : SameProcess s s.show_ := ⟨rfl, rfl, rfl⟩

theorem leaves_parseAndOpen (e : Env) (s : MLState) (text : Str) : Leaves Prod.fst s (s.parseAndOpenDiff e text) := by
  unfold parseAndOpenDiff
  dsimp only
  refine .from ((clear_same s).trans (emit_same _ (.status .Parsing))) (.bind (leaves_parseDiffOutput e _ text) fun a _ => ?_)
  exact .ite (.ok ⟨rfl, rfl, rfl⟩) (.seq (leaves_updateActions _) fun t => .ok ⟨rfl, rfl, rfl⟩)

theorem leaves_openDiff (e : Env) (s : MLState) (f : Str) : Leaves Prod.fst s (s.openDiff e f) := by
  unfold openDiff
  dsimp only
  refine .ite (.ok ⟨rfl, rfl, rfl⟩) ?_
  refine .from ((clear_same s).trans (emit_same _ (.status .Parsing))) (.bind (leaves_parseDiffOutput e _ _) fun a _ => ?_)
  exact .ite (.ok ⟨rfl, rfl, rfl⟩) (.seq (leaves_updateActions _) fun t => .ok ⟨rfl, rfl, rfl⟩)

theorem leaves_blendFile (s : MLState) (m : Nat) (c : Str) : Leaves id s (s.blendFile m c) :=
  .any fun _ => .via (leaves_first _) ⟨rfl, rfl, rfl⟩

theorem leaves_blendDirLoop (e : Env) (dir : Str) (l : List Nat) : ∀ (s : MLState) (b : Bool), Leaves Prod.fst s (blendDirLoop e dir l s b) := by
  induction l with
  | nil => intro s b; exact .ok ⟨rfl, rfl, rfl⟩
  | cons m l ih => intro s b; exact .any fun _ => .seq (leaves_blendFile _ _ _) fun t => ih t true

theorem leaves_blendOriginal (e : Env) (s : MLState) (url : Str) : Leaves Prod.fst s (s.blendOriginal e url) := by
  unfold blendOriginal
  exact .ite (.any fun _ => leaves_blendDirLoop _ _ _ _ _) (.ite (.any fun _ => .any fun _ => .seq (leaves_blendFile _ _ _) fun t => .ok ⟨rfl, rfl, rfl⟩)
    (.ok ⟨rfl, rfl, rfl⟩))

theorem depths_same (i : Info) (l : List Nat) : ∀ s : MLState, SameProcess s (l.foldl (depthAndApplied i) s) := by
  induction l with
  | nil => intro s; exact .refl s
  | cons m l ih => intro s; exact SameProcess.trans (b := depthAndApplied i s m) ⟨rfl, rfl, rfl⟩ (ih _)

theorem leaves_setDepth (s : MLState) : Leaves id s s.setDepthAndApplied := by
  unfold setDepthAndApplied
  refine .any fun l => ?_
  split
  · exact .ite (.ok ⟨rfl, rfl, rfl⟩) .ub
  · exact .ok (depths_same _ l s)

theorem leaves_openAndDiff (e : Env) (s : MLState) : Leaves Prod.fst s (s.openAndDiff e) := by
  unfold openAndDiff
  split
  · exact .ub
  · dsimp only
    refine .from (clear_same s) (.bind (leaves_parseDiffOutput e _ _) fun a _ => .ite (.ok ⟨rfl, rfl, rfl⟩) ?_)
    refine .seq (leaves_setDepth _) fun t => .bind (leaves_blendOriginal e t _) fun a _ => .ite (.ok ⟨rfl, rfl, rfl⟩) ?_
    exact .seq (leaves_updateActions _) fun t => .ok ⟨rfl, rfl, rfl⟩

end KompareDiff2
