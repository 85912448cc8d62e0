import Verif.Spec.Edit
import Verif.Proofs.Session
import Verif.Props.LinesChanged
/-
After edits: the weaker invariant under which the operations of a user are still defined.
-/
namespace KompareDiff2
open Spec

structure LooseCore (models : Option (List Nat)) (dead : List Nat) (store : Nat → DModel) (next : Nat) (deadDiffs : List Nat)
    (info : Option Info) (ms : List Nat) : Prop where
  models : models = some ms
  ne : ms ≠ []
  nodup : ms.Nodup
  live : ∀ m ∈ ms, m ∉ dead
  diffs : ∀ m ∈ ms, (store m).differences ≠ []
  index : ∀ m ∈ ms, (store m).selected ≠ none → 0 ≤ (store m).diffIndex
  liveDiffs : ∀ m ∈ ms, ∀ d ∈ (store m).differences, d ∉ deadDiffs
  liveSel : ∀ m ∈ ms, ∀ d, (store m).selected = some d → d ∉ deadDiffs
  bound : ∀ m ∈ ms, ∀ d ∈ (store m).differences, d < next
  each : ∀ m ∈ ms, (store m).differences.Nodup
  deadBound : ∀ d ∈ deadDiffs, d < next
  hunks : ∀ m ∈ ms, ∀ i ∈ (store m).hunkIds, i < next
  info : info ≠ none

/-- The list holds the models `ms`, each with a difference; everything the models refer to exists. -/
def Loose (s : MLState) (ms : List Nat) : Prop := LooseCore s.models s.dead s.store s.heap.next s.deadDiffs s.info ms

structure LAtCore (store : Nat → DModel) (deadDiffs : List Nat) (selectedModel selectedDifference : Option Nat) (modelIndex : Int) (ms : List Nat)
    (k m d : Nat) : Prop where
  model : ms[k]? = some m
  selectedModel : selectedModel = some m
  selectedDifference : selectedDifference = some d
  index : modelIndex = k
  modelSelected : (store m).selected = some d
  live : d ∉ deadDiffs

/-- The selection: an existing difference that the model `m` regards as selected. -/
def LAt (s : MLState) (ms : List Nat) (k m d : Nat) : Prop :=
  LAtCore s.store s.deadDiffs s.selectedModel s.selectedDifference s.modelIndex ms k m d

theorem Loose.mem {s : MLState} {ms : List Nat} {k m : Nat} (_h : Loose s ms) (hm : ms[k]? = some m) : m ∈ ms := List.mem_of_getElem? hm
theorem Loose.list {s : MLState} {ms : List Nat} (h : Loose s ms) : s.list = Res.ok ms := by unfold MLState.list; rw [h.models]
theorem Loose.model {s : MLState} {ms : List Nat} (h : Loose s ms) {m : Nat} (hm : m ∈ ms) : s.model (some m) = Res.ok m := by
  unfold MLState.model; simp [h.live m hm]

theorem LAt.selection {s : MLState} {ms : List Nat} {k m d : Nat} (h : Loose s ms) (a : LAt s ms k m d) : HasSelection s :=
  ⟨ms, k, m, d, h.models, a.model, a.index, a.selectedModel, a.selectedDifference, a.modelSelected, a.live⟩

/-! ### What operations leave alone -/

/-- The texts uploaded between two states. -/
def Uploads (ms : List Nat) (s s' : MLState) : Prop :=
  ∀ target t, Event.upload target t ∈ s'.log → Event.upload target t ∈ s.log ∨ ∃ m ∈ ms, Mix (s.store m) s.heap t

/-- No object is destroyed, the hunks and the contents of existing differences stay, only mixtures of old and new lines are uploaded. -/
structure Stays (ms : List Nat) (s s' : MLState) : Prop where
  models : s'.models = s.models
  dead : s'.dead = s.dead
  deadDiffs : s'.deadDiffs = s.deadDiffs
  info : s'.info = s.info
  next : s.heap.next ≤ s'.heap.next
  hunks : ∀ m, (s'.store m).hunks = (s.store m).hunks
  cells : ∀ i < s.heap.next, Diff.Same (s.heap.cell i) (s'.heap.cell i)
  head : ∀ m, (s'.store m).head = (s.store m).head
  uploads : Uploads ms s s'

theorem mix_stays {s s' : MLState} {m : Nat} (hh : (s'.store m).hunks = (s.store m).hunks) (hb : ∀ i ∈ (s.store m).hunkIds, i < s.heap.next)
    (hc : ∀ i < s.heap.next, Diff.Same (s.heap.cell i) (s'.heap.cell i)) {t : Str} (h : Mix (s'.store m) s'.heap t) : Mix (s.store m) s.heap t := by
  obtain ⟨old, e⟩ := h
  refine ⟨old, ?_⟩
  rw [e, hh]
  congr 1
  have key : ∀ l : List Nat, (∀ i ∈ l, i < s.heap.next) →
      l.flatMap (fun i => ((if old i = true then (s'.heap.cell i).source else (s'.heap.cell i).dest).map DStr.string)) =
      l.flatMap (fun i => ((if old i = true then (s.heap.cell i).source else (s.heap.cell i).dest).map DStr.string)) := by
    intro l hl
    induction l with
    | nil => rfl
    | cons x l ih =>
      rw [List.flatMap_cons, List.flatMap_cons, ih (fun i hi => hl i (List.mem_cons_of_mem _ hi)), (hc x (hl x (by simp))).source,
        (hc x (hl x (by simp))).dest]
  exact key _ hb

theorem Stays.refl (ms : List Nat) (s : MLState) : Stays ms s s :=
  ⟨rfl, rfl, rfl, rfl, Nat.le_refl _, fun _ => rfl, fun _ _ => .refl _, fun _ => rfl, fun _ _ h => .inl h⟩

theorem Stays.trans {ms : List Nat} {a b c : MLState} (hb : ∀ m ∈ ms, ∀ i ∈ (a.store m).hunkIds, i < a.heap.next)
    (h : Stays ms a b) (h' : Stays ms b c) : Stays ms a c := by
  refine ⟨h'.models.trans h.models, h'.dead.trans h.dead, h'.deadDiffs.trans h.deadDiffs, h'.info.trans h.info, Nat.le_trans h.next h'.next,
    fun m => (h'.hunks m).trans (h.hunks m), fun i hi => (h.cells i hi).trans (h'.cells i (Nat.lt_of_lt_of_le hi h.next)),
    fun m => (h'.head m).trans (h.head m), ?_⟩
  intro target t ht
  rcases h'.uploads target t ht with ht | ⟨m, hm, hx⟩
  · exact h.uploads target t ht
  · exact .inr ⟨m, hm, mix_stays (h.hunks m) (hb m hm) h.cells hx⟩

theorem Frame.stays {ms : List Nat} {s s' : MLState} (f : Frame s s') (h : Uploads ms s s') : Stays ms s s' :=
  ⟨f.models, f.dead, f.deadDiffs, f.info, Nat.le_of_eq f.heapNext.symm, f.hunks, fun i _ => f.cells i, f.head, h⟩

/-- The outcome of an operation of a user. -/
structure Went (ms : List Nat) (s s' : MLState) : Prop where
  frame : Frame s s'
  loose : Loose s' ms
  uploads : Uploads ms s s'

theorem Went.refl {ms : List Nat} {s : MLState} (h : Loose s ms) : Went ms s s := ⟨.refl s, h, fun _ _ h => .inl h⟩

theorem Went.trans {ms : List Nat} {a b c : MLState} (ha : Loose a ms) (h : Went ms a b) (h' : Went ms b c) : Went ms a c :=
  ⟨h.frame.trans h'.frame, h'.loose, ((h.frame.stays h.uploads).trans ha.hunks (h'.frame.stays h'.uploads)).uploads⟩

/-- The list has a selection. -/
def Sel (s : MLState) (ms : List Nat) : Prop := ∃ k m d, LAt s ms k m d

/-! ### Setting the selection of a model -/

/-- `d->selectedDifference` and the selection of the model `m` are set. -/
def MLState.put (s : MLState) (m : Nat) (i : Int) (p q : Option Nat) : MLState :=
  { s.setModel m { s.store m with diffIndex := i, selected := p } with selectedDifference := q }

theorem put_frame (s : MLState) (m : Nat) (i : Int) (p q : Option Nat) : Frame s (s.put m i p q) := by
  refine ⟨rfl, rfl, rfl, rfl, rfl, rfl, rfl, rfl, ?_, ?_, fun _ => .refl _, ?_⟩ <;> intro m'
  rotate_left 2
  · show (if m' = m then _ else s.store m').head = _
    split
    · rename_i e; subst e; rfl
    · rfl
  · show (if m' = m then _ else s.store m').differences = _
    split
    · rename_i e; subst e; rfl
    · rfl
  · show (if m' = m then _ else s.store m').hunks = _
    split
    · rename_i e; subst e; rfl
    · rfl

theorem put_same {s : MLState} {m : Nat} {i : Int} {p q : Option Nat} :
    (s.put m i p q).store m = { s.store m with diffIndex := i, selected := p } := by
  show (if m = m then _ else s.store m) = _
  rw [if_pos rfl]

theorem put_loose {s : MLState} {ms : List Nat} (h : Loose s ms) {m : Nat} {i : Int} {p q : Option Nat} (hi : p ≠ none → 0 ≤ i)
    (hp : ∀ d, p = some d → d ∉ s.deadDiffs) : Loose (s.put m i p q) ms := by
  have f := put_frame s m i p q
  refine ⟨h.models, h.ne, h.nodup, h.live, fun m' hm' => by rw [f.differences]; exact h.diffs m' hm', ?_,
    fun m' hm' => by rw [f.differences]; exact h.liveDiffs m' hm', ?_, fun m' hm' => by rw [f.differences]; exact h.bound m' hm',
    fun m' hm' => by rw [f.differences]; exact h.each m' hm', h.deadBound,
    fun m' hm' => by unfold DModel.hunkIds; rw [f.hunks]; exact h.hunks m' hm', h.info⟩
  · intro m' hm'
    show (if m' = m then _ else s.store m').selected ≠ none → 0 ≤ (if m' = m then _ else s.store m').diffIndex
    split
    · exact hi
    · exact h.index m' hm'
  · intro m' hm' d hd
    change (if m' = m then _ else s.store m').selected = some d at hd
    split at hd
    · exact hp d hd
    · exact h.liveSel m' hm' d hd

theorem put_went {s : MLState} {ms : List Nat} (h : Loose s ms) {m : Nat} {i : Int} {p q : Option Nat} (hi : p ≠ none → 0 ≤ i)
    (hp : ∀ d, p = some d → d ∉ s.deadDiffs) : Went ms s (s.put m i p q) := ⟨put_frame _ _ _ _ _, put_loose h hi hp, fun _ _ h => .inl h⟩

/-- The four functions that move the selection inside a model. -/
def Picks (f : DModel → Res (DModel × Option Nat)) (x : DModel) : Prop :=
  ∃ i p, 0 ≤ i ∧ (∀ d, p = some d → d ∈ x.differences) ∧ f x = Res.ok ({ x with diffIndex := i, selected := p }, p)

theorem atR_mem {l : List Nat} {i : Int} (h0 : 0 ≤ i) (h1 : i < l.length) : ∃ d ∈ l, atR l i = Res.ok d := by
  obtain ⟨n, rfl⟩ := Int.eq_ofNat_of_zero_le h0
  have hn : n < l.length := by omega
  exact ⟨l[n], List.getElem_mem hn, atR_some (List.getElem?_eq_getElem hn)⟩

theorem picks_first {x : DModel} (h : x.differences ≠ []) : ∃ d ∈ x.differences, x.firstDifference =
    Res.ok ({ x with diffIndex := 0, selected := some d }, some d) := by
  obtain ⟨d, hd, e⟩ := atR_mem (l := x.differences) (i := 0) (by omega) (by have := List.length_pos_iff.2 h; omega)
  exact ⟨d, hd, by unfold DModel.firstDifference; rw [e]; rfl⟩

theorem picks_last {x : DModel} (h : x.differences ≠ []) : ∃ d ∈ x.differences, x.lastDifference =
    Res.ok ({ x with diffIndex := (x.differences.length : Int) - 1, selected := some d }, some d) := by
  have := List.length_pos_iff.2 h
  obtain ⟨d, hd, e⟩ := atR_mem (l := x.differences) (i := (x.differences.length : Int) - 1) (by omega) (by omega)
  exact ⟨d, hd, by unfold DModel.lastDifference; rw [e]; rfl⟩

theorem picks_next {x : DModel} (h : 0 ≤ x.diffIndex) : Picks DModel.nextDifference x := by
  unfold Picks DModel.nextDifference
  by_cases hc : x.diffIndex + 1 < x.differences.length
  · obtain ⟨d, hd, e⟩ := atR_mem (l := x.differences) (i := x.diffIndex + 1) (by omega) hc
    rw [if_pos hc, e]
    exact ⟨x.diffIndex + 1, some d, by omega, fun d' hd' => by cases hd'; exact hd, rfl⟩
  · rw [if_neg hc]
    exact ⟨0, none, by omega, fun d' hd' => (by cases hd'), rfl⟩

theorem picks_prev {x : DModel} : Picks DModel.prevDifference x := by
  unfold Picks DModel.prevDifference
  by_cases hc : x.diffIndex > 0 ∧ x.diffIndex - 1 < x.differences.length
  · obtain ⟨d, hd, e⟩ := atR_mem (l := x.differences) (i := x.diffIndex - 1) (by omega) hc.2
    rw [if_pos hc, e]
    exact ⟨x.diffIndex - 1, some d, by omega, fun d' hd' => by cases hd'; exact hd, rfl⟩
  · rw [if_neg hc]
    exact ⟨0, none, by omega, fun d' hd' => (by cases hd'), rfl⟩

theorem selectWith_picks {s : MLState} {m : Nat} {f : DModel → Res (DModel × Option Nat)} (h : Picks f (s.store m)) :
    ∃ i p, 0 ≤ i ∧ (∀ d, p = some d → d ∈ (s.store m).differences) ∧ s.selectWith m f = Res.ok (s.put m i p p) := by
  obtain ⟨i, p, h0, h1, h2⟩ := h
  exact ⟨i, p, h0, h1, by unfold MLState.selectWith; rw [h2]; rfl⟩

/-! ### The end of each slot -/

theorem updateActions_point {s : MLState} {ms : List Nat} {m d : Nat} (h : Loose s ms) (hm : m ∈ ms) (hsm : s.selectedModel = some m)
    (hsd : s.selectedDifference = some d) (hl : d ∉ s.deadDiffs) : ∃ ac, s.updateActions = Res.ok { s with actions := ac } := by
  have hmod : s.model s.selectedModel = Res.ok m := by rw [hsm]; exact h.model hm
  have hd : s.diff s.selectedDifference = Res.ok d := by rw [hsd]; unfold MLState.diff; simp [hl]
  have hw : ∃ ac, s.updateWriting = Res.ok ac := by
    unfold MLState.updateWriting
    split
    · rw [hmod, Res.bind_ok, hd, Res.bind_ok]; exact ⟨_, rfl⟩
    · split <;> exact ⟨_, rfl⟩
  obtain ⟨ac, hw⟩ := hw
  have hn : s.hasNextModel = Res.ok (decide (s.modelIndex < (ms.length : Int) - 1)) := by unfold MLState.hasNextModel; rw [h.list]; rfl
  have hp : ∃ b, s.hasPrevDiff = Res.ok b := by
    unfold MLState.hasPrevDiff
    rw [hmod, Res.bind_ok]
    split <;> exact ⟨_, rfl⟩
  have hnd : ∃ b, s.hasNextDiff = Res.ok b := by
    unfold MLState.hasNextDiff
    rw [hmod, Res.bind_ok]
    split
    · exact ⟨_, rfl⟩
    · exact ⟨_, hn⟩
  obtain ⟨b1, hp⟩ := hp
  obtain ⟨b2, hnd⟩ := hnd
  unfold MLState.updateActions
  rw [if_pos ⟨by rw [h.models]; simp, by rw [hsm]; simp, by rw [hsd]; simp⟩, hw, Res.bind_ok, hn, Res.bind_ok, hp,
    Res.bind_ok, hnd, Res.bind_ok]
  exact ⟨_, rfl⟩

theorem updateActions_loose {s : MLState} {ms : List Nat} {k m d : Nat} (h : Loose s ms) (a : LAt s ms k m d) :
    ∃ ac, s.updateActions = Res.ok { s with actions := ac } :=
  updateActions_point h (h.mem a.model) a.selectedModel a.selectedDifference a.live

theorem statusBar_loose {s : MLState} {ms : List Nat} {m : Nat} (h : Loose s ms) (hm : m ∈ ms) (hsm : s.selectedModel = some m) :
    ∃ a b c d e, s.emitStatusBar = Res.ok (s.emit (.statusBar a b c d e)) := by
  have hmod : s.model s.selectedModel = Res.ok m := by rw [hsm]; exact h.model hm
  have hdc : s.differenceCount = Res.ok ((s.store m).differences.length : Int) := by
    unfold MLState.differenceCount
    rw [hsm]
    dsimp only
    rw [h.model hm]; rfl
  unfold MLState.emitStatusBar
  rw [h.list, hmod, hdc]
  simp only [Res.bind_ok]
  exact ⟨_, _, _, _, _, rfl⟩

/-- Signals, status bar, actions. -/
theorem finish_loose {s : MLState} {ms : List Nat} {k m d : Nat} (h : Loose s ms) (a : LAt s ms k m d) (e : Event)
    (he : ∀ x y, e ≠ .upload x y) : ∃ s', ((s.emit e).emitStatusBar >>= fun s => s.updateActions) = Res.ok s' ∧ Went ms s s' ∧
      LAt s' ms k m d ∧ s'.store = s.store ∧ s'.heap = s.heap := by
  obtain ⟨x1, x2, x3, x4, x5, hl⟩ := statusBar_loose (s := s.emit e) h (h.mem a.model) a.selectedModel
  rw [hl, Res.bind_ok]
  obtain ⟨ac, h1⟩ := updateActions_loose (s := (s.emit e).emit (.statusBar x1 x2 x3 x4 x5)) (ms := ms) (k := k) (m := m) (d := d) h a
  refine ⟨_, h1, ⟨⟨rfl, rfl, rfl, rfl, rfl, rfl, rfl, rfl, fun _ => rfl, fun _ => rfl, fun _ => .refl _, fun _ => rfl⟩, h, ?_⟩, a, rfl, rfl⟩
  intro target t ht
  change _ ∈ (s.log ++ [e]) ++ [_] at ht
  simp only [List.mem_append, List.mem_singleton, reduceCtorEq, or_false] at ht
  rcases ht with ht | ht
  · exact .inl ht
  · exact absurd ht.symm (he _ _)

theorem announce_loose {s : MLState} {ms : List Nat} {k m d : Nat} (h : Loose s ms) (a : LAt s ms k m d) :
    ∃ s', s.announce = Res.ok s' ∧ Went ms s s' ∧ LAt s' ms k m d ∧ s'.store = s.store ∧ s'.heap = s.heap :=
  finish_loose h a (.selection s.selectedModel s.selectedDifference) (fun _ _ h => by cases h)

/-! ### Moving to a model -/

theorem put_at {s : MLState} {ms : List Nat} {k m d : Nat} {i : Int} (hk : ms[k]? = some m) (hsm : s.selectedModel = some m)
    (hi : s.modelIndex = k) (hd : d ∉ s.deadDiffs) : LAt (s.put m i (some d) (some d)) ms k m d :=
  ⟨hk, hsm, rfl, hi, by rw [put_same], hd⟩

/-- `selectFirst`, `announce`. -/
theorem first_loose {s : MLState} {ms : List Nat} {k m : Nat} (h : Loose s ms) (hk : ms[k]? = some m) (hsm : s.selectedModel = some m)
    (hi : s.modelIndex = k) : ∃ d, d ∈ (s.store m).differences ∧ s.selectFirst = Res.ok (s.put m 0 (some d) (some d)) ∧
      LAt (s.put m 0 (some d) (some d)) ms k m d ∧ Went ms s (s.put m 0 (some d) (some d)) := by
  have hm := h.mem hk
  obtain ⟨d, hd, e⟩ := picks_first (h.diffs m hm)
  have hl := h.liveDiffs m hm d hd
  refine ⟨d, hd, ?_, put_at hk hsm hi hl, put_went h (fun _ => by omega) (fun d' hd' => by cases hd'; exact hl)⟩
  unfold MLState.selectFirst
  rw [hsm, h.model hm, Res.bind_ok]
  unfold MLState.selectWith
  rw [e, Res.bind_ok]
  rfl

theorem last_loose {s : MLState} {ms : List Nat} {k m : Nat} (h : Loose s ms) (hk : ms[k]? = some m) (hsm : s.selectedModel = some m)
    (hi : s.modelIndex = k) : ∃ d i, d ∈ (s.store m).differences ∧ s.selectLast = Res.ok (s.put m i (some d) (some d)) ∧
      LAt (s.put m i (some d) (some d)) ms k m d ∧ Went ms s (s.put m i (some d) (some d)) := by
  have hm := h.mem hk
  obtain ⟨d, hd, e⟩ := picks_last (h.diffs m hm)
  have hl := h.liveDiffs m hm d hd
  have hlen := List.length_pos_iff.2 (h.diffs m hm)
  refine ⟨d, ((s.store m).differences.length : Int) - 1, hd, ?_, put_at hk hsm hi hl, put_went h (fun _ => by omega) (fun d' hd' => by cases hd'; exact hl)⟩
  unfold MLState.selectLast
  rw [hsm, h.model hm, Res.bind_ok]
  unfold MLState.selectWith
  rw [e, Res.bind_ok]
  rfl

/-- A change of the selected model. -/
theorem point_went {s : MLState} {ms : List Nat} (h : Loose s ms) (p q : Option Nat) (i : Int) :
    Went ms s { s with modelIndex := i, selectedModel := p, selectedDifference := q } :=
  ⟨⟨rfl, rfl, rfl, rfl, rfl, rfl, rfl, rfl, fun _ => rfl, fun _ => rfl, fun _ => .refl _, fun _ => rfl⟩, h, fun _ _ h => .inl h⟩

theorem firstModel_loose {s : MLState} {ms : List Nat} (h : Loose s ms) : ∃ m, ms[0]? = some m ∧
    s.firstModel = Res.ok { s with modelIndex := (0 : Nat), selectedModel := some m } := by
  have hl := List.length_pos_iff.2 h.ne
  refine ⟨ms[0], List.getElem?_eq_getElem hl, ?_⟩
  unfold MLState.firstModel
  rw [h.list, Res.bind_ok, show atR ms 0 = Res.ok ms[0] from atR_some (i := 0) (List.getElem?_eq_getElem hl)]
  rfl

theorem lastModel_loose {s : MLState} {ms : List Nat} (h : Loose s ms) : ∃ m, ms[ms.length - 1]? = some m ∧
    s.lastModel = Res.ok { s with modelIndex := ((ms.length - 1 : Nat) : Int), selectedModel := some m } := by
  have hl := List.length_pos_iff.2 h.ne
  have hl' : ms.length - 1 < ms.length := by omega
  refine ⟨ms[ms.length - 1], List.getElem?_eq_getElem hl', ?_⟩
  unfold MLState.lastModel
  have e : (ms.length : Int) - 1 = ((ms.length - 1 : Nat) : Int) := by omega
  rw [h.list, Res.bind_ok, e, show atR ms ((ms.length - 1 : Nat) : Int) = Res.ok ms[ms.length - 1] from atR_some (List.getElem?_eq_getElem hl')]
  rfl

theorem prevModel_loose {s : MLState} {ms : List Nat} (h : Loose s ms) {k : Nat} (hk : s.modelIndex = k) (hlt : k < ms.length) :
    (∃ m k', ms[k']? = some m ∧ s.prevModel = Res.ok { s with modelIndex := (k' : Nat), selectedModel := some m }) ∨
    s.prevModel = Res.ok { s with modelIndex := 0, selectedModel := none } := by
  unfold MLState.prevModel
  by_cases h0 : 0 < k
  · left
    have hlt' : k - 1 < ms.length := by omega
    refine ⟨ms[k - 1], k - 1, List.getElem?_eq_getElem hlt', ?_⟩
    have e : s.modelIndex - 1 = ((k - 1 : Nat) : Int) := by omega
    rw [if_pos (by omega), h.list, Res.bind_ok, if_pos (by omega), e,
      show atR ms ((k - 1 : Nat) : Int) = Res.ok ms[k - 1] from atR_some (List.getElem?_eq_getElem hlt')]
    rfl
  · right
    rw [if_neg (by omega)]

theorem nextModel_loose {s : MLState} {ms : List Nat} (h : Loose s ms) {k : Nat} (hk : s.modelIndex = k) :
    (∃ m k', ms[k']? = some m ∧ s.nextModel_ = Res.ok { s with modelIndex := (k' : Nat), selectedModel := some m }) ∨
    s.nextModel_ = Res.ok { s with modelIndex := 0, selectedModel := none } := by
  unfold MLState.nextModel_
  rw [h.list, Res.bind_ok]
  by_cases h0 : k + 1 < ms.length
  · left
    refine ⟨ms[k + 1], k + 1, List.getElem?_eq_getElem h0, ?_⟩
    have e : s.modelIndex + 1 = ((k + 1 : Nat) : Int) := by omega
    rw [if_pos (by omega), e, show atR ms ((k + 1 : Nat) : Int) = Res.ok ms[k + 1] from atR_some (List.getElem?_eq_getElem h0)]
    rfl
  · right
    rw [if_neg (by omega)]

/-- `x` is defined and leaves a selection. -/
def Goes (ms : List Nat) (s : MLState) (x : Res MLState) : Prop := ∃ s', x = Res.ok s' ∧ Went ms s s' ∧ Sel s' ms

theorem Goes.after {ms : List Nat} {s t : MLState} {x : Res MLState} (hs : Loose s ms) (w : Went ms s t) (h : Goes ms t x) : Goes ms s x := by
  obtain ⟨s', h1, h2, h3⟩ := h
  exact ⟨s', h1, w.trans hs h2, h3⟩

theorem goes_announce {s : MLState} {ms : List Nat} {k m d : Nat} (h : Loose s ms) (a : LAt s ms k m d) : Goes ms s s.announce := by
  obtain ⟨s', h1, h2, h3, _⟩ := announce_loose h a
  exact ⟨s', h1, h2, _, _, _, h3⟩

theorem goes_first {s : MLState} {ms : List Nat} {k m : Nat} (h : Loose s ms) (hk : ms[k]? = some m) (q : Option Nat) :
    Goes ms s (MLState.selectFirst { s with modelIndex := (k : Nat), selectedModel := some m, selectedDifference := q } >>= fun s => s.announce) := by
  have w := point_went h (some m) q (k : Nat)
  obtain ⟨d, _, e, a, w'⟩ := first_loose w.loose hk rfl rfl
  rw [e, Res.bind_ok]
  exact ((goes_announce w'.loose a).after w.loose w').after h w

theorem goes_last {s : MLState} {ms : List Nat} {k m : Nat} (h : Loose s ms) (hk : ms[k]? = some m) (q : Option Nat) :
    Goes ms s (MLState.selectLast { s with modelIndex := (k : Nat), selectedModel := some m, selectedDifference := q } >>= fun s => s.announce) := by
  have w := point_went h (some m) q (k : Nat)
  obtain ⟨d, _, _, e, a, w'⟩ := last_loose w.loose hk rfl rfl
  rw [e, Res.bind_ok]
  exact ((goes_announce w'.loose a).after w.loose w').after h w

theorem goes_previousModel {s : MLState} {ms : List Nat} (h : Loose s ms) (a : Sel s ms) : Goes ms s s.slotPreviousModel := by
  obtain ⟨k, m, d, a⟩ := a
  have hlt := (List.getElem?_eq_some_iff.1 a.model).1
  unfold MLState.slotPreviousModel
  rcases prevModel_loose h a.index hlt with ⟨m', k', hk', e⟩ | e
  · rw [e, Res.bind_ok]
    dsimp only
    rw [if_pos (by simp)]
    exact goes_first h hk' s.selectedDifference
  · rw [e, Res.bind_ok]
    dsimp only
    rw [if_neg (by simp)]
    obtain ⟨m', hk', e⟩ := firstModel_loose (point_went h none s.selectedDifference 0).loose
    rw [show MLState.firstModel { s with modelIndex := 0, selectedModel := none } = _ from e]
    exact goes_first h hk' s.selectedDifference

theorem goes_nextModel {s : MLState} {ms : List Nat} (h : Loose s ms) (a : Sel s ms) : Goes ms s s.slotNextModel := by
  obtain ⟨k, m, d, a⟩ := a
  unfold MLState.slotNextModel
  rcases nextModel_loose h a.index with ⟨m', k', hk', e⟩ | e
  · rw [e, Res.bind_ok]
    dsimp only
    rw [if_pos (by simp)]
    exact goes_first h hk' s.selectedDifference
  · rw [e, Res.bind_ok]
    dsimp only
    rw [if_neg (by simp)]
    obtain ⟨m', hk', e⟩ := lastModel_loose (point_went h none s.selectedDifference 0).loose
    rw [show MLState.lastModel { s with modelIndex := 0, selectedModel := none } = _ from e]
    exact goes_first h hk' s.selectedDifference

theorem goes_finish {s : MLState} {ms : List Nat} {k m d : Nat} (h : Loose s ms) (a : LAt s ms k m d) (e : Event) (he : ∀ x y, e ≠ .upload x y) :
    Goes ms s ((s.emit e).emitStatusBar >>= fun s => s.updateActions) := by
  obtain ⟨s', h1, h2, h3, _⟩ := finish_loose h a e he
  exact ⟨s', h1, h2, _, _, _, h3⟩

theorem goes_nextDifference {s : MLState} {ms : List Nat} (h : Loose s ms) (a : Sel s ms) : Goes ms s s.slotNextDifference := by
  obtain ⟨k, m, d, a⟩ := a
  have hm := h.mem a.model
  obtain ⟨i, p, h0, h1, h2⟩ := selectWith_picks (s := s) (m := m) (picks_next (h.index m hm (by rw [a.modelSelected]; simp)))
  have hl : ∀ d, p = some d → d ∉ s.deadDiffs := fun d hd => h.liveDiffs m hm d (h1 d hd)
  have w := put_went h (m := m) (i := i) (p := p) (q := p) (fun _ => h0) hl
  unfold MLState.slotNextDifference
  rw [a.selectedModel, h.model hm, Res.bind_ok, h2, Res.bind_ok]
  cases p with
  | some d' =>
    rw [if_pos (by simp [MLState.put])]
    exact (goes_finish w.loose (put_at a.model a.selectedModel a.index (hl d' rfl)) _ (fun _ _ h => by cases h)).after h w
  | none =>
    rw [if_neg (by simp [MLState.put])]
    refine Goes.after h w ?_
    have hi : (s.put m i none none).modelIndex = k := a.index
    generalize s.put m i none none = t at w hi
    have ht := w.loose
    rcases nextModel_loose ht hi with ⟨m', k', hk', e⟩ | e
    · rw [e, Res.bind_ok]
      dsimp only
      rw [if_pos (by simp)]
      exact goes_first ht hk' t.selectedDifference
    · rw [e, Res.bind_ok]
      dsimp only
      rw [if_neg (by simp)]
      obtain ⟨m', hk', e⟩ := lastModel_loose (point_went ht none t.selectedDifference 0).loose
      rw [show MLState.lastModel { t with modelIndex := 0, selectedModel := none } = _ from e]
      exact goes_last ht hk' t.selectedDifference

theorem goes_previousDifference {s : MLState} {ms : List Nat} (h : Loose s ms) (a : Sel s ms) : Goes ms s s.slotPreviousDifference := by
  obtain ⟨k, m, d, a⟩ := a
  have hm := h.mem a.model
  have hlt := (List.getElem?_eq_some_iff.1 a.model).1
  obtain ⟨i, p, h0, h1, h2⟩ := selectWith_picks (s := s) (m := m) picks_prev
  have hl : ∀ d, p = some d → d ∉ s.deadDiffs := fun d hd => h.liveDiffs m hm d (h1 d hd)
  have w := put_went h (m := m) (i := i) (p := p) (q := p) (fun _ => h0) hl
  unfold MLState.slotPreviousDifference
  rw [a.selectedModel, h.model hm, Res.bind_ok, h2, Res.bind_ok]
  cases p with
  | some d' =>
    rw [if_pos (by simp [MLState.put])]
    exact (goes_finish w.loose (put_at a.model a.selectedModel a.index (hl d' rfl)) _ (fun _ _ h => by cases h)).after h w
  | none =>
    rw [if_neg (by simp [MLState.put])]
    refine Goes.after h w ?_
    have hi : (s.put m i none none).modelIndex = k := a.index
    generalize s.put m i none none = t at w hi
    have ht := w.loose
    rcases prevModel_loose ht hi hlt with ⟨m', k', hk', e⟩ | e
    · rw [e, Res.bind_ok]
      dsimp only
      rw [if_pos (by simp)]
      exact goes_last ht hk' t.selectedDifference
    · rw [e, Res.bind_ok]
      dsimp only
      rw [if_neg (by simp)]
      obtain ⟨m', hk', e⟩ := firstModel_loose (point_went ht none t.selectedDifference 0).loose
      rw [show MLState.firstModel { t with modelIndex := 0, selectedModel := none } = _ from e]
      exact goes_first ht hk' t.selectedDifference

/-! ### Selecting -/

theorem select_put (x : DModel) (hx : x.selected ≠ none → 0 ≤ x.diffIndex) (d : Nat) : ∃ i p, (p ≠ none → 0 ≤ i) ∧ (p = some d ∨ p = x.selected) ∧
    (x.setSelectedDifference (some d)).1 = { x with diffIndex := i, selected := p } ∧
    ((x.setSelectedDifference (some d)).2 = true → p = some d) := by
  unfold DModel.setSelectedDifference
  by_cases h : some d ≠ x.selected
  · rw [if_pos h]
    dsimp only
    by_cases h1 : x.findDifference d = -1
    · rw [if_pos h1]
      exact ⟨x.diffIndex, x.selected, hx, .inr rfl, rfl, fun h => by cases h⟩
    · rw [if_neg h1]
      refine ⟨x.findDifference d, some d, ?_, .inl rfl, rfl, fun _ => rfl⟩
      unfold DModel.findDifference at h1 ⊢
      have key : ∀ l : List Nat, indexOfI l d = -1 ∨ 0 ≤ indexOfI l d := by
        intro l
        induction l with
        | nil => exact .inl rfl
        | cons y l ih =>
          unfold indexOfI
          split
          · exact .inr (by omega)
          · dsimp only
            split
            · exact .inl rfl
            · exact .inr (by omega)
      intro _
      rcases key x.differences with h2 | h2
      · exact absurd h2 h1
      · exact h2
  · rw [if_neg h]
    have h : some d = x.selected := Classical.not_not.1 h
    exact ⟨x.diffIndex, x.selected, hx, .inr rfl, rfl, fun _ => h.symm⟩

theorem goes_selectDiff {s : MLState} {ms : List Nat} (h : Loose s ms) (a : Sel s ms) {d : Nat} (hd : d ∉ s.deadDiffs) :
    Goes ms s (s.slotDiffSelectionChanged (some d)) := by
  obtain ⟨k, m, d0, a⟩ := a
  have hm := h.mem a.model
  obtain ⟨i, p, h0, h1, h2, h3⟩ := select_put (s.store m) (h.index m hm) d
  have hp : ∀ d', p = some d' → d' ∉ s.deadDiffs := by
    rintro d' rfl
    rcases h1 with h1 | h1
    · cases h1; exact hd
    · exact h.liveSel m hm d' h1.symm
  have w := put_went h (m := m) (i := i) (p := p) (q := some d) h0 hp
  unfold MLState.slotDiffSelectionChanged
  dsimp only
  rw [show MLState.model { s with selectedDifference := some d } s.selectedModel = Res.ok m from (by rw [a.selectedModel]; exact h.model hm), Res.bind_ok]
  have e : MLState.setModel { s with selectedDifference := some d } m ((s.store m).setSelectedDifference (some d)).1 = s.put m i p (some d) := by
    rw [h2]; rfl
  rw [e]
  refine Goes.after h w ?_
  by_cases hb : ((s.store m).setSelectedDifference (some d)).2 = false
  · rw [if_pos hb]
    obtain ⟨d1, _, e1, a1, w1⟩ := first_loose w.loose a.model (show (s.put m i p (some d)).selectedModel = _ from a.selectedModel) a.index
    rw [e1, Res.bind_ok]
    exact (goes_finish w1.loose a1 _ (fun _ _ h => by cases h)).after w.loose w1
  · rw [if_neg hb]
    have hb : ((s.store m).setSelectedDifference (some d)).2 = true := by simpa using hb
    have hps := h3 hb
    subst hps
    rw [Res.bind_ok]
    exact goes_finish w.loose (put_at a.model a.selectedModel a.index hd) _ (fun _ _ h => by cases h)

theorem goes_select {s : MLState} {ms : List Nat} (h : Loose s ms) {m d : Nat} (hm : m ∈ ms) (hd : d ∉ s.deadDiffs) :
    Goes ms s (s.slotSelectionChanged (some m) (some d)) := by
  obtain ⟨k, hk⟩ := List.mem_iff_getElem?.1 hm
  have hidx : MLState.indexOfPtr ms (some m) = (k : Int) := indexOfI_get h.nodup hk
  have w0 := point_went h (some m) (some d) (k : Nat)
  have hs : Loose { s with modelIndex := (k : Nat), selectedModel := some m, selectedDifference := some d } ms := w0.loose
  unfold MLState.slotSelectionChanged
  rw [h.list, Res.bind_ok, hidx]
  dsimp only
  refine Goes.after h w0 ?_
  generalize hs1 : ({ s with modelIndex := (k : Nat), selectedModel := some m, selectedDifference := some d } : MLState) = s1 at *
  have e1 : s1.selectedModel = some m := by rw [← hs1]
  have e2 : s1.selectedDifference = some d := by rw [← hs1]
  have e3 : s1.modelIndex = (k : Nat) := by rw [← hs1]
  have e4 : d ∉ s1.deadDiffs := by rw [← hs1]; exact hd
  have est : s.store = s1.store := by rw [← hs1]
  obtain ⟨i, p, h0, h1, h2, h3⟩ := select_put (s1.store m) (hs.index m hm) d
  have hp : ∀ d', p = some d' → d' ∉ s1.deadDiffs := by
    rintro d' rfl
    rcases h1 with h1 | h1
    · cases h1; exact e4
    · exact hs.liveSel m hm d' h1.symm
  have w := put_went hs (m := m) (i := i) (p := p) (q := some d) h0 hp
  rw [hs.model hm, Res.bind_ok, est]
  have e : s1.setModel m ((s1.store m).setSelectedDifference (some d)).1 = s1.put m i p (some d) := by
    rw [h2]; unfold MLState.put; rw [← e2]; rfl
  rw [e]
  refine Goes.after hs w ?_
  have f1 : (s1.put m i p (some d)).selectedModel = some m := e1
  have f2 : (s1.put m i p (some d)).selectedDifference = some d := rfl
  have f3 : (s1.put m i p (some d)).modelIndex = (k : Nat) := e3
  have f4 : d ∉ (s1.put m i p (some d)).deadDiffs := e4
  have hs2 := w.loose
  generalize s1.put m i p (some d) = s2 at *
  obtain ⟨ac, hac⟩ := updateActions_point hs2 hm f1 f2 f4
  have hsm : s2.setSelectedModel s2.selectedModel = Res.ok (some { s2 with actions := ac }) := by
    unfold MLState.setSelectedModel
    rw [if_neg (by simp), hac]; rfl
  rw [hsm, Res.bind_ok]
  dsimp only
  have w3 : Went ms s2 { s2 with actions := ac } :=
    ⟨⟨rfl, rfl, rfl, rfl, rfl, rfl, rfl, rfl, fun _ => rfl, fun _ => rfl, fun _ => .refl _, fun _ => rfl⟩, hs2, fun _ _ h => .inl h⟩
  refine Goes.after hs2 w3 ?_
  have g1 : ({ s2 with actions := ac } : MLState).selectedModel = some m := f1
  have g2 : ({ s2 with actions := ac } : MLState).selectedDifference = some d := f2
  have g3 : ({ s2 with actions := ac } : MLState).modelIndex = (k : Nat) := f3
  have g4 : d ∉ ({ s2 with actions := ac } : MLState).deadDiffs := f4
  have hs3 := w3.loose
  have gst : s2.store = ({ s2 with actions := ac } : MLState).store := rfl
  have gsd : s2.selectedDifference = ({ s2 with actions := ac } : MLState).selectedDifference := rfl
  have gsm : s2.selectedModel = ({ s2 with actions := ac } : MLState).selectedModel := rfl
  rw [gst, gsd, gsm]
  generalize ({ s2 with actions := ac } : MLState) = s3 at *
  rw [g1, hs3.model hm, Res.bind_ok, g2]
  obtain ⟨i', p', k0, k1, k2, k3⟩ := select_put (s3.store m) (hs3.index m hm) d
  have hp' : ∀ d', p' = some d' → d' ∉ s3.deadDiffs := by
    rintro d' rfl
    rcases k1 with k1 | k1
    · cases k1; exact g4
    · exact hs3.liveSel m hm d' k1.symm
  have w4 := put_went hs3 (m := m) (i := i') (p := p') (q := some d) k0 hp'
  have e' : s3.setModel m ((s3.store m).setSelectedDifference (some d)).1 = s3.put m i' p' (some d) := by
    rw [k2]; unfold MLState.put; rw [← g2]; rfl
  rw [e']
  refine Goes.after hs3 w4 ?_
  by_cases hb : ((s3.store m).setSelectedDifference (some d)).2 = false
  · rw [if_pos hb]
    obtain ⟨d1, _, q1, a1, w1⟩ := first_loose w4.loose hk (show (s3.put m i' p' (some d)).selectedModel = _ from g1) g3
    rw [q1, Res.bind_ok]
    exact (goes_finish w1.loose a1 _ (fun _ _ h => by cases h)).after w4.loose w1
  · rw [if_neg hb]
    have hb : ((s3.store m).setSelectedDifference (some d)).2 = true := by simpa using hb
    have hps := k3 hb
    subst hps
    rw [Res.bind_ok]
    exact goes_finish w4.loose (put_at hk g1 g3 g4) _ (fun _ _ h => by cases h)

/-! ### Applying -/

theorem call_loose {op : MOp} {s : MLState} {ms : List Nat} (h : Loose s ms) {m : Nat} {r : DModel × Heap}
    (hr : op.run (s.store m, s.heap) = Res.ok r) (hi : r.1.diffIndex = (s.store m).diffIndex) (hsel : r.1.selected = (s.store m).selected) :
    Went ms s (s.call m r) := by
  have f := frame_call (s := s) hr
  have hst : ∀ m', ((s.call m r).store m').diffIndex = (s.store m').diffIndex ∧ ((s.call m r).store m').selected = (s.store m').selected := by
    intro m'
    show (if m' = m then r.1 else s.store m').diffIndex = _ ∧ (if m' = m then r.1 else s.store m').selected = _
    split
    · rename_i e; subst e; exact ⟨hi, hsel⟩
    · exact ⟨rfl, rfl⟩
  refine ⟨f, ?_, fun _ _ h => .inl h⟩
  refine ⟨h.models, h.ne, h.nodup, h.live, fun m' hm' => by rw [f.differences]; exact h.diffs m' hm',
    fun m' hm' => by rw [(hst m').1, (hst m').2]; exact h.index m' hm', fun m' hm' => by rw [f.differences]; exact h.liveDiffs m' hm',
    fun m' hm' => by rw [(hst m').2]; exact h.liveSel m' hm', fun m' hm' => by rw [f.differences, f.heapNext]; exact h.bound m' hm',
    fun m' hm' => by rw [f.differences]; exact h.each m' hm', by rw [f.heapNext]; exact h.deadBound,
    fun m' hm' => by unfold DModel.hunkIds; rw [f.hunks, f.heapNext]; exact h.hunks m' hm', h.info⟩

theorem emit_went {s : MLState} {ms : List Nat} (h : Loose s ms) (e : Event) (he : ∀ x y, e ≠ .upload x y) : Went ms s (s.emit e) := by
  refine ⟨⟨rfl, rfl, rfl, rfl, rfl, rfl, rfl, rfl, fun _ => rfl, fun _ => rfl, fun _ => .refl _, fun _ => rfl⟩, h, fun x y hx => ?_⟩
  change _ ∈ s.log ++ [e] at hx
  simp only [List.mem_append, List.mem_singleton] at hx
  rcases hx with hx | hx
  · exact .inl hx
  · exact absurd hx.symm (he _ _)

theorem applySlot_loose {s : MLState} {ms : List Nat} {k m d : Nat} (h : Loose s ms) (a : LAt s ms k m d) (b : Bool) :
    ∃ s', s.slotApplyDifference b = Res.ok s' ∧ Went ms s s' ∧ LAt s' ms k m d := by
  have hm := h.mem a.model
  have hd : s.diff (s.store m).selected = Res.ok d := by rw [a.modelSelected]; unfold MLState.diff; simp [a.live]
  have hap : ∃ c : Int × Heap, ((s.store m).applyDifference s.heap b) = Res.ok ({ s.store m with appliedCount := c.1 }, c.2) := by
    unfold DModel.applyDifference
    rw [a.modelSelected]
    dsimp only
    split
    · exact ⟨((s.store m).appliedCount, s.heap), rfl⟩
    · rw [← a.modelSelected]; exact ⟨(_, _), rfl⟩
  obtain ⟨c, hc⟩ := hap
  have w := call_loose (op := .apply b) h (m := m) hc rfl rfl
  have w' := emit_went w.loose (.applyDifference b) (fun _ _ h => by cases h)
  refine ⟨_, ?_, w.trans h w', ⟨a.model, a.selectedModel, a.selectedDifference, a.index, ?_, a.live⟩⟩
  · unfold MLState.slotApplyDifference
    rw [a.selectedModel, h.model hm, Res.bind_ok, hd, Res.bind_ok, hc]
    rfl
  · show (if m = m then _ else s.store m).selected = _
    rw [if_pos rfl]; exact a.modelSelected

theorem applyAllSlot_loose {s : MLState} {ms : List Nat} {k m d : Nat} (h : Loose s ms) (a : LAt s ms k m d) (b : Bool) :
    ∃ s', s.slotApplyAllDifferences b = Res.ok s' ∧ Went ms s s' ∧ LAt s' ms k m d := by
  have hm := h.mem a.model
  have w := call_loose (op := .applyAll b) (r := (s.store m).applyAllDifferences s.heap b) h (m := m) rfl rfl rfl
  have w' := emit_went w.loose (.applyAll b) (fun _ _ h => by cases h)
  refine ⟨_, ?_, w.trans h w', ⟨a.model, a.selectedModel, a.selectedDifference, a.index, ?_, a.live⟩⟩
  · unfold MLState.slotApplyAllDifferences
    rw [a.selectedModel, h.model hm, Res.bind_ok]
    rfl
  · show (if m = m then _ else s.store m).selected = _
    rw [if_pos rfl]; exact a.modelSelected

theorem goes_updateActions {s : MLState} {ms : List Nat} (h : Loose s ms) (a : Sel s ms) : Goes ms s s.updateActions := by
  obtain ⟨k, m, d, a⟩ := a
  obtain ⟨ac, e⟩ := updateActions_loose h a
  exact ⟨_, e, ⟨⟨rfl, rfl, rfl, rfl, rfl, rfl, rfl, rfl, fun _ => rfl, fun _ => rfl, fun _ => .refl _, fun _ => rfl⟩, h, fun _ _ h => .inl h⟩, k, m, d, a⟩

theorem Goes.then {ms : List Nat} {s : MLState} {x : Res MLState} {f : MLState → Res MLState} (hs : Loose s ms) (h : Goes ms s x)
    (hf : ∀ t, Loose t ms → Sel t ms → Goes ms t (f t)) : Goes ms s (x >>= f) := by
  obtain ⟨t, h1, h2, h3⟩ := h
  rw [h1, Res.bind_ok]
  exact (hf t h2.loose h3).after hs h2

theorem goes_apply {s : MLState} {ms : List Nat} (h : Loose s ms) (a : Sel s ms) : Goes ms s s.actionApply := by
  obtain ⟨k, m, d, a⟩ := a
  have hd : s.diff s.selectedDifference = Res.ok d := by rw [a.selectedDifference]; unfold MLState.diff; simp [a.live]
  unfold MLState.actionApply
  rw [hd, Res.bind_ok]
  split
  · obtain ⟨t, e, w, a'⟩ := applySlot_loose h a true
    rw [e, Res.bind_ok]
    exact (Goes.then w.loose (goes_nextDifference w.loose ⟨_, _, _, a'⟩) (fun t ht hs => goes_updateActions ht hs)).after h w
  · rw [Res.bind_ok]
    exact Goes.then h (goes_nextDifference h ⟨_, _, _, a⟩) (fun t ht hs => goes_updateActions ht hs)

theorem goes_unapply {s : MLState} {ms : List Nat} (h : Loose s ms) (a : Sel s ms) : Goes ms s s.actionUnapply := by
  obtain ⟨k, m, d, a⟩ := a
  have hd : s.diff s.selectedDifference = Res.ok d := by rw [a.selectedDifference]; unfold MLState.diff; simp [a.live]
  unfold MLState.actionUnapply
  rw [hd, Res.bind_ok]
  split
  · obtain ⟨t, e, w, a'⟩ := applySlot_loose h a false
    rw [e, Res.bind_ok]
    exact (Goes.then w.loose (goes_previousDifference w.loose ⟨_, _, _, a'⟩) (fun t ht hs => goes_updateActions ht hs)).after h w
  · rw [Res.bind_ok]
    exact Goes.then h (goes_previousDifference h ⟨_, _, _, a⟩) (fun t ht hs => goes_updateActions ht hs)

theorem goes_applySlot {s : MLState} {ms : List Nat} (h : Loose s ms) (a : Sel s ms) (b : Bool) : Goes ms s (s.slotApplyDifference b) := by
  obtain ⟨k, m, d, a⟩ := a
  obtain ⟨t, e, w, a'⟩ := applySlot_loose h a b
  exact ⟨t, e, w, _, _, _, a'⟩

theorem goes_applyAllSlot {s : MLState} {ms : List Nat} (h : Loose s ms) (a : Sel s ms) (b : Bool) : Goes ms s (s.slotApplyAllDifferences b) := by
  obtain ⟨k, m, d, a⟩ := a
  obtain ⟨t, e, w, a'⟩ := applyAllSlot_loose h a b
  exact ⟨t, e, w, _, _, _, a'⟩

theorem goes_setReadWrite {s : MLState} {ms : List Nat} (h : Loose s ms) (a : Sel s ms) (b : Bool) : Goes ms s (s.setReadWrite b) := by
  unfold MLState.setReadWrite
  split
  · exact ⟨s, rfl, .refl h, a⟩
  · have w : Went ms s { s with isReadWrite := b } :=
      ⟨⟨rfl, rfl, rfl, rfl, rfl, rfl, rfl, rfl, fun _ => rfl, fun _ => rfl, fun _ => .refl _, fun _ => rfl⟩, h, fun _ _ h => .inl h⟩
    exact (goes_updateActions w.loose a).after h w

/-! ### Saving -/

theorem saved_mix (x : DModel) (h : Heap) : Mix x h (x.savedText h) := by
  refine ⟨fun i => (h.cell i).applied, ?_⟩
  unfold DModel.savedText
  congr 2
  funext i
  unfold Diff.savedLines Diff.dstText Diff.srcText
  dsimp only
  by_cases hb : (h.cell i).applied = true
  · rw [if_neg (by simp [hb]), if_pos hb]
  · rw [if_pos (by simpa using hb), if_neg hb]

theorem goes_saveDestination {s : MLState} {ms : List Nat} (h : Loose s ms) (a : Sel s ms) (v : MLState.SaveEnv) {m : Nat} (hm : m ∈ ms) :
    ∃ s' b, s.saveDestination v m = Res.ok (s', b) ∧ Went ms s s' ∧ Sel s' ms := by
  have er : ∀ e : ErrorKind, Went ms s (s.emit (.error e)) ∧ Sel (s.emit (.error e)) ms := fun e =>
    ⟨emit_went h _ (fun _ _ h => by cases h), a⟩
  unfold MLState.saveDestination
  rw [h.model hm, Res.bind_ok]
  split
  · exact ⟨_, _, rfl, .refl h, a⟩
  split
  · exact ⟨_, _, rfl, er _⟩
  split
  · exact ⟨_, _, rfl, er _⟩
  split
  · exact ⟨_, _, rfl, er _⟩
  cases hinf : s.info with
  | none => exact absurd hinf h.info
  | some i =>
    dsimp only
    split
    · exact ⟨_, _, rfl, er _⟩
    split
    · generalize (if i.mode = .ComparingDirs then MLState.saveDir i (s.store m) ++ (s.store m).destinationFile else i.destination) = target
      refine ⟨_, _, rfl, ?_, ?_⟩
      · have w := call_loose (op := .save) (r := (s.store m, s.heap.modifyAll (fun d => d.setUnsaved false) (s.store m).differences)) h (m := m) rfl rfl rfl
        have e : s.call m (s.store m, s.heap.modifyAll (fun d => d.setUnsaved false) (s.store m).differences) =
            { s with heap := s.heap.modifyAll (fun d => d.setUnsaved false) (s.store m).differences } := by
          unfold MLState.call; rw [setModel_self]
        rw [e] at w
        have f := w.frame
        refine ⟨⟨f.models, f.dead, f.deadDiffs, f.canSave, f.info, f.settings, f.nextModel, f.heapNext, f.differences, f.hunks, f.cells, f.head⟩, w.loose, ?_⟩
        intro x y hx
        change _ ∈ s.log ++ [_] at hx
        simp only [List.mem_append, List.mem_singleton, Event.upload.injEq] at hx
        rcases hx with hx | hx
        · exact .inl hx
        · exact .inr ⟨m, hm, by rw [hx.2]; exact saved_mix _ _⟩
      · exact a
    · exact ⟨_, _, rfl, er _⟩

theorem goes_saveLoop {ms : List Nat} (v : Nat → MLState.SaveEnv) (l : List Nat) : ∀ {s : MLState}, Loose s ms → Sel s ms → (∀ m ∈ l, m ∈ ms) →
    ∃ s' b, MLState.saveLoop v l s = Res.ok (s', b) ∧ Went ms s s' ∧ Sel s' ms := by
  induction l with
  | nil => intro s h a _; exact ⟨s, true, rfl, .refl h, a⟩
  | cons m l ih =>
    intro s h a hl
    obtain ⟨t, b, e, w, a'⟩ := goes_saveDestination h a (v m) (hl m (by simp))
    unfold MLState.saveLoop
    rw [e, Res.bind_ok]
    dsimp only
    split
    · exact ⟨_, _, rfl, w, a'⟩
    · obtain ⟨t', b', e', w', a''⟩ := ih w.loose a' (fun x hx => hl x (List.mem_cons_of_mem _ hx))
      exact ⟨t', b', e', w.trans h w', a''⟩

theorem goes_save {s : MLState} {ms : List Nat} (h : Loose s ms) (a : Sel s ms) (v : MLState.SaveEnv) : Goes ms s (s.slotSaveDestination v) := by
  obtain ⟨k, m, d, a⟩ := a
  obtain ⟨t, b, e, w, a'⟩ := goes_saveDestination h ⟨k, m, d, a⟩ v (h.mem a.model)
  unfold MLState.slotSaveDestination
  rw [a.selectedModel]
  dsimp only
  rw [e, Res.bind_ok]
  dsimp only
  refine Goes.after h w ?_
  have ht := w.loose
  split
  · have w' : Went ms t { t with actions := { t.actions with save := false } } :=
      ⟨⟨rfl, rfl, rfl, rfl, rfl, rfl, rfl, rfl, fun _ => rfl, fun _ => rfl, fun _ => .refl _, fun _ => rfl⟩, ht, fun _ _ h => .inl h⟩
    exact ⟨_, rfl, w'.trans ht (emit_went w'.loose _ (fun _ _ h => by cases h)), a'⟩
  · exact ⟨_, rfl, emit_went ht _ (fun _ _ h => by cases h), a'⟩

/-- Every operation of a user is defined. -/
theorem goes_user {s : MLState} {ms : List Nat} (h : Loose s ms) (a : Sel s ms) {op : UserOp} (hop : op.Ok s) : Goes ms s (op.run s) := by
  have hmem : ∀ {m}, m ∈ s.models.getD [] → m ∈ ms := fun hm => by rw [h.models] at hm; exact hm
  cases op with
  | nextDifference => exact goes_nextDifference h a
  | previousDifference => exact goes_previousDifference h a
  | nextFile => exact goes_nextModel h a
  | previousFile => exact goes_previousModel h a
  | select m d => exact goes_select h (hmem hop.1) hop.2
  | selectDiff d => exact goes_selectDiff h a hop
  | apply => exact goes_apply h a
  | unapply => exact goes_unapply h a
  | applyAll => exact Goes.then h (goes_applyAllSlot h a true) (fun t ht hs => goes_updateActions ht hs)
  | unapplyAll => exact Goes.then h (goes_applyAllSlot h a false) (fun t ht hs => goes_updateActions ht hs)
  | applySlot b => exact goes_applySlot h a b
  | applyAllSlot b => exact goes_applyAllSlot h a b
  | setReadWrite b => exact goes_setReadWrite h a b
  | save v => exact goes_save h a v
  | saveModel v m =>
    obtain ⟨t, b, e, w, a'⟩ := goes_saveDestination h a v (hmem hop)
    exact ⟨t, by show (s.saveDestination v m >>= _) = _; rw [e]; rfl, w, a'⟩
  | saveAll v =>
    have : ∃ s' b, s.saveAll v = Res.ok (s', b) ∧ Went ms s s' ∧ Sel s' ms := by
      unfold MLState.saveAll
      rw [h.models]
      cases hms : ms with
      | nil => exact absurd hms h.ne
      | cons x l => subst hms; exact goes_saveLoop v (x :: l) h a (fun _ h => h)
    obtain ⟨t, b, e, w, a'⟩ := this
    exact ⟨t, by show (s.saveAll v >>= _) = _; rw [e]; rfl, w, a'⟩

/-! ### Editing -/

theorem edit_spec {hash : Str → Nat} {s s' : MLState} {ms : List Nat} {m : Nat} {old new : List Str} {line : Int} {ins rem : List Nat}
    (h : Loose s ms) (hm : m ∈ ms) (he : s.edit hash m old new line = Res.ok (s', ins, rem)) :
    ∃ m' h', (s.store m).linesChanged hash s.heap old new line = Res.ok (m', h', ins, rem) ∧ s' = s.call m (m', h') := by
  unfold MLState.edit at he
  rw [h.model hm, Res.bind_ok] at he
  obtain ⟨⟨m', h', i, r⟩, h1, h2⟩ := Res.bind_eq_ok.1 he
  simp only [Res.ok.injEq, Prod.mk.injEq] at h2
  obtain ⟨h2, rfl, rfl⟩ := h2
  exact ⟨m', h', h1, h2.symm⟩

theorem edit_stays {hash : Str → Nat} {s s' : MLState} {ms : List Nat} {m : Nat} {old new : List Str} {line : Int} {ins rem : List Nat}
    (h : Loose s ms) (hm : m ∈ ms) (he : s.edit hash m old new line = Res.ok (s', ins, rem)) :
    Stays ms s s' ∧ s'.log = s.log ∧ (∀ m', m' ≠ m → s'.store m' = s.store m') ∧
    s'.selectedModel = s.selectedModel ∧ s'.selectedDifference = s.selectedDifference ∧ s'.modelIndex = s.modelIndex ∧
    ∃ pre post, (s.store m).differences = pre ++ (rem ++ post) ∧ s'.store m = { s.store m with differences := pre ++ (ins ++ post) } ∧
      ins = List.range' s.heap.next ins.length ∧ s'.heap.next = s.heap.next + ins.length ∧
      (∀ i ∈ post, s'.heap.cell i = { s.heap.cell i with tracking := (s.heap.cell i).tracking + ((new.length : Int) - old.length) }) ∧
      (∀ i < s.heap.next, i ∉ post → s'.heap.cell i = s.heap.cell i) ∧ (s'.store m).differences.Nodup ∧
      ∀ i ∈ (s'.store m).differences, i < s'.heap.next := by
  obtain ⟨m', h', h1, rfl⟩ := edit_spec h hm he
  obtain ⟨pre, post, c1, c2, c3, c4, c5, c6, c7, c8⟩ := C17_report_frame hash (s.store m) m' s.heap h' old new line ins rem
    ⟨h.each m hm, h.bound m hm⟩ h1
  have hst : (s.call m (m', h')).store m = m' := by show (if m = m then m' else s.store m) = _; rw [if_pos rfl]
  have hot : ∀ x, x ≠ m → (s.call m (m', h')).store x = s.store x := by
    intro x hx; show (if x = m then m' else s.store x) = _; rw [if_neg hx]
  have hcell : ∀ i < s.heap.next, Diff.Same (s.heap.cell i) (h'.cell i) := by
    intro i hi
    by_cases hp : i ∈ post
    · rw [c6 i hp]; exact ⟨rfl, rfl, rfl, rfl, rfl, rfl⟩
    · rw [c7 i hi hp]; exact .refl _
  refine ⟨⟨rfl, rfl, rfl, rfl, by show _ ≤ h'.next; omega, ?_, hcell, ?_, fun _ _ h => .inl h⟩, rfl, hot, rfl, rfl, rfl, pre, post, c1, by rw [hst, c3], c4,
    c5, c6, c7, by rw [hst]; exact c8.1, by rw [hst]; exact c8.2⟩
  all_goals
    intro x
    by_cases hx : x = m
    · subst hx; rw [hst, c3]; try rfl
    · rw [hot x hx]

theorem edit_loose {hash : Str → Nat} {s s' : MLState} {ms : List Nat} {m : Nat} {old new : List Str} {line : Int} {ins rem : List Nat}
    (h : Loose s ms) (a : Sel s ms) (hm : m ∈ ms) (he : s.edit hash m old new line = Res.ok (s', ins, rem)) (hne : (s'.store m).differences ≠ []) :
    Loose s' ms ∧ Sel s' ms ∧ Stays ms s s' := by
  obtain ⟨st, _, hot, p1, p2, p3, pre, post, c1, c2, c3, c4, _, _, c5, c6⟩ := edit_stays h hm he
  have fields : (s'.store m).diffIndex = (s.store m).diffIndex ∧ (s'.store m).selected = (s.store m).selected := by rw [c2]; exact ⟨rfl, rfl⟩
  refine ⟨⟨st.models.trans h.models, h.ne, h.nodup, by rw [st.dead]; exact h.live, ?_, ?_, ?_, ?_, ?_, ?_, ?_, ?_, by rw [st.info]; exact h.info⟩, ?_, st⟩
  · intro x hx
    by_cases e : x = m
    · subst e; exact hne
    · rw [hot x e]; exact h.diffs x hx
  · intro x hx
    by_cases e : x = m
    · subst e; rw [fields.1, fields.2]; exact h.index x hx
    · rw [hot x e]; exact h.index x hx
  · intro x hx d hd
    rw [st.deadDiffs]
    by_cases e : x = m
    · subst e
      rw [c2] at hd
      simp only [List.mem_append] at hd
      rcases hd with hd | hd | hd
      · exact h.liveDiffs x hx d (by rw [c1]; simp [hd])
      · intro hdd
        have := h.deadBound d hdd
        rw [c3, List.mem_range'_1] at hd
        omega
      · exact h.liveDiffs x hx d (by rw [c1]; simp [hd])
    · rw [hot x e] at hd; exact h.liveDiffs x hx d hd
  · intro x hx d hd
    rw [st.deadDiffs]
    by_cases e : x = m
    · subst e; rw [fields.2] at hd; exact h.liveSel x hx d hd
    · rw [hot x e] at hd; exact h.liveSel x hx d hd
  · intro x hx d hd
    by_cases e : x = m
    · subst e; exact c6 d hd
    · rw [hot x e] at hd; exact Nat.lt_of_lt_of_le (h.bound x hx d hd) st.next
  · intro x hx
    by_cases e : x = m
    · subst e; exact c5
    · rw [hot x e]; exact h.each x hx
  · intro d hd
    rw [st.deadDiffs] at hd
    exact Nat.lt_of_lt_of_le (h.deadBound d hd) st.next
  · intro x hx i hi
    unfold DModel.hunkIds at hi
    rw [st.hunks] at hi
    exact Nat.lt_of_lt_of_le (h.hunks x hx i hi) st.next
  · obtain ⟨k, m0, d, a⟩ := a
    refine ⟨k, m0, d, a.model, p1.trans a.selectedModel, p2.trans a.selectedDifference, p3.trans a.index, ?_, by rw [st.deadDiffs]; exact a.live⟩
    by_cases e : m0 = m
    · subst e; rw [fields.2]; exact a.modelSelected
    · rw [hot m0 e]; exact a.modelSelected

theorem Opened.loose {s : MLState} {ms : List Nat} (h : Opened s ms) (w : WF s) : Loose s ms := by
  have hb : ∀ m ∈ ms, m < s.nextModel := fun m hm => w.models m (by rw [h.models]; exact hm)
  refine ⟨h.models, h.ne, h.nodup, h.live, h.diffs, ?_, h.liveDiffs, ?_, fun m hm => w.diffs m (hb m hm), fun m hm => h.diffsNodup hm, w.deadDiffs,
    fun m hm => w.hunks m (hb m hm), h.info⟩
  · intro m hm hs
    cases hd : (s.store m).selected with
    | none => exact absurd hd hs
    | some d => exact (h.selOk m hm d hd).1
  · intro m hm d hd
    exact h.liveDiffs m hm d ((h.selOk m hm).mem hd)

end KompareDiff2
