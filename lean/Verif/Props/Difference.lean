import Verif.Proofs.DiffModel
import Verif.Proofs.Path
import Verif.Spec.Parsed
/-
Properties of `DifferenceString`, `Difference` and of the operations of a single `DiffModel`: C07–C14.
-/
namespace KompareDiff2
open Spec

/-! ## C07 -/

/-- All the ways to obtain a `DifferenceString` that was given a text at least once: construction from a string, `setString`
on anything, the other setters, copying (which is the identity on values). -/
inductive DStr.Built : DStr → Prop where
  | ofStr (s : Str) (ms : List Marker) : Built (DStr.ofStr s ms)
  | setDefault (s : Str) : Built (DStr.default.setString s)
  | setString {d : DStr} (s : Str) : Built d → Built (d.setString s)
  | setConflict {d : DStr} (s : Str) : Built d → Built (d.setConflictString s)
  | setMarkers {d : DStr} (ms : List Marker) : Built d → Built (d.setMarkerList ms)
  | prepend {d : DStr} (m : Marker) : Built d → Built (d.prepend m)

theorem DStr.Built.hash {d : DStr} (h : d.Built) : d.hash = calculateHash d.string := by
  induction h with
  | ofStr => rfl
  | setDefault => rfl
  | setString => rfl
  | setConflict _ _ ih => exact ih
  | setMarkers _ _ ih => exact ih
  | prepend _ _ ih => exact ih

/-- C07: comparing two difference strings compares their texts; markers, conflict text and hash collisions do not matter. -/
theorem C07_string_equality {d e : DStr} (hd : d.Built) (he : e.Built) : d.eq e = true ↔ d.string = e.string := by
  unfold DStr.eq
  rw [hd.hash, he.hash]
  split
  · rename_i h
    simp only [Bool.false_eq_true, false_iff]
    intro h'; exact h (by rw [h'])
  · simp

/-- C07, the exception: a default-constructed difference string differs from one made from the empty text. -/
theorem C07_default_defect : DStr.default.eq (DStr.ofStr []) = false ∧ DStr.default.string = (DStr.ofStr []).string :=
  ⟨rfl, rfl⟩

-- two strings built in different ways with the same text
example : ((DStr.ofStr (str "a")).setString (str "b\n")).eq (DStr.ofStr (str "b\n") [⟨.Start, 0⟩]) = true :=
  (C07_string_equality (.setString _ (.ofStr _ _)) (.ofStr _ _)).2 rfl
-- and two with different texts
example : (DStr.ofStr (str "a")).eq (DStr.ofStr (str "b")) ≠ true := fun h =>
  absurd ((C07_string_equality (.ofStr _ _) (.ofStr _ _)).1 h) (by decide)

/-! ## C08 -/

/-- The calls that change the state flags of a difference. -/
inductive DOp where
  | apply (b : Bool)
  | applyQuietly (b : Bool)
  | save
  deriving Repr, DecidableEq

/-- One call. -/
def DOp.run (d : Diff) : DOp → Diff
  | .apply b => (d.apply b).1
  | .applyQuietly b => d.applyQuietly b
  | .save => d.setUnsaved false

theorem DOp.toggled {ops : List DOp} (h : DOp.save ∉ ops) (d : Diff) : Diff.Toggled d (ops.foldl DOp.run d) := by
  induction ops generalizing d with
  | nil => exact .refl d
  | cons op ops ih =>
    simp only [List.mem_cons, not_or] at h
    refine Diff.Toggled.trans ?_ (ih h.2 _)
    cases op with
    | apply b => exact Diff.toggled_apply d b
    | applyQuietly b => exact Diff.toggled_applyQuietly d b
    | save => exact absurd rfl h.1

/-- C08: after any history, a difference is unsaved iff its applied state is not the one it had at the last save
(the state at creation if there was no save yet). -/
theorem C08_unsaved_iff (ln ln' : Int) (ty : DiffType) (before after : List DOp) (h : DOp.save ∉ after) :
    let d1 := before.foldl DOp.run (Diff.new ln ln' ty)
    (∀ d2, d2 = (before ++ .save :: after).foldl DOp.run (Diff.new ln ln' ty) → (d2.unsaved = true ↔ d2.applied ≠ d1.applied)) ∧
    (DOp.save ∉ before → (d1.unsaved = true ↔ d1.applied ≠ false)) := by
  refine ⟨?_, ?_⟩
  · intro d2 hd2
    rw [List.foldl_append, List.foldl_cons] at hd2
    generalize before.foldl DOp.run (Diff.new ln ln' ty) = d1 at *
    have := (DOp.toggled h (DOp.run d1 .save)).2
    rw [← hd2] at this
    simp only [DOp.run, Diff.setUnsaved] at this
    revert this
    cases d2.unsaved <;> cases d2.applied <;> cases d1.applied <;> simp
  · intro hb
    have := (DOp.toggled hb (Diff.new ln ln' ty)).2
    generalize before.foldl DOp.run (Diff.new ln ln' ty) = d1 at *
    simp only [Diff.new] at this
    revert this
    cases d1.unsaved <;> cases d1.applied <;> simp

/-- C08: both `apply` and `applyQuietly` establish the requested state, and the signal is emitted exactly on a change. -/
theorem C08_apply_effect (d : Diff) (b : Bool) :
    (d.apply b).1.applied = b ∧ (d.applyQuietly b).applied = b ∧ ((d.apply b).2 = true ↔ d.applied ≠ b) ∧
    (d.apply b).1 = d.applyQuietly b := by
  unfold Diff.apply Diff.applyQuietly
  by_cases h : d.applied = b
  · simp [h]
  · have h' : ¬ b = d.applied := fun e => h e.symm
    simp [h, h']

example : ([DOp.apply true, .save, .apply false, .applyQuietly true].foldl DOp.run (Diff.new 1 1)).unsaved = false := rfl
example : ([DOp.apply true, .save, .apply false].foldl DOp.run (Diff.new 1 1)).unsaved = true := rfl

/-! ## the operations of a model -/

/-- A model as it comes from parsing: nothing applied, nothing unsaved, nothing selected, tracking numbers equal to the source
line numbers, every difference connected, destination line numbers strictly increasing. -/
structure DModel.Fresh (s : DModel × Heap) : Prop where
  increasing : (s.1.differences.map s.2.cell).Pairwise (fun d d' => d.destLineNo < d'.destLineNo)
  connected : ∀ i ∈ s.1.differences, i ∈ s.1.connected
  state : ∀ i ∈ s.1.differences, (s.2.cell i).applied = false ∧ (s.2.cell i).unsaved = false ∧
    (s.2.cell i).tracking = (s.2.cell i).sourceLineNo
  count : s.1.appliedCount = 0
  selected : s.1.selected = none

/-- A model that nobody has touched: nothing applied, nothing unsaved, nothing selected, tracking numbers equal to the source line
numbers, every difference connected and listed once.  Nothing is said about the order of the line numbers. -/
structure DModel.Untouched (s : DModel × Heap) : Prop where
  nodup : s.1.differences.Nodup
  connected : ∀ i ∈ s.1.differences, i ∈ s.1.connected
  state : ∀ i ∈ s.1.differences, (s.2.cell i).applied = false ∧ (s.2.cell i).unsaved = false ∧
    (s.2.cell i).tracking = (s.2.cell i).sourceLineNo
  count : s.1.appliedCount = 0
  selected : s.1.selected = none

theorem DModel.Fresh.untouched {s : DModel × Heap} (h : DModel.Fresh s) : DModel.Untouched s :=
  ⟨nodup_of_increasing h.increasing, h.connected, h.state, h.count, h.selected⟩

theorem DModel.Untouched.fresh {s : DModel × Heap} (h : DModel.Untouched s)
    (inc : (s.1.differences.map s.2.cell).Pairwise (fun d d' => d.destLineNo < d'.destLineNo)) : DModel.Fresh s :=
  ⟨inc, h.connected, h.state, h.count, h.selected⟩

theorem tracks_fresh (ids : List Nat) (f : Nat → Diff)
    (h : ∀ i ∈ ids, (f i).applied = false ∧ (f i).tracking = (f i).sourceLineNo) : Tracks 0 (ids.map f) := by
  induction ids with
  | nil => trivial
  | cons i is ih =>
    simp only [List.map_cons, Tracks]
    obtain ⟨a, b⟩ := h i (by simp)
    refine ⟨by rw [b]; omega, ?_⟩
    simp only [growth, a]
    exact ih (fun j hj => h j (by simp [hj]))

theorem DModel.Fresh.inv {s : DModel × Heap} (h : DModel.Fresh s) : MInv s :=
  ⟨h.increasing, h.connected, tracks_fresh _ _ (fun i hi => ⟨(h.state i hi).1, (h.state i hi).2.2⟩),
    fun i hi => by rw [h.selected] at hi; cases hi⟩

/-- Calls on differences of this model only. -/
def MOp.Own (s : DModel × Heap) (ops : List MOp) : Prop := ∀ i b, MOp.direct i b ∈ ops → i ∈ s.1.differences

/-- C09: after any calls that go through the model, `appliedCount` is the number of applied differences. -/
theorem C09_applied_count {s s' : DModel × Heap} (hs : DModel.Untouched s) {ops : List MOp}
    (hops : ∀ i b, MOp.direct i b ∉ ops) (h : runOps ops s = Res.ok s') :
    s'.1.appliedCount = ((s'.1.differences.map s'.2.cell).countP (fun d => d.applied) : Nat) ∧
    0 ≤ s'.1.appliedCount ∧ s'.1.appliedCount ≤ s'.1.differences.length := by
  have key : s'.1.appliedCount = appliedNumber s' := by
    have hn := hs.nodup
    have hsel : s.1.SelOk := fun i hi => by rw [hs.selected] at hi; cases hi
    have hc : s.1.appliedCount = appliedNumber s := by
      rw [hs.count]; unfold appliedNumber
      rw [List.filter_eq_nil_iff.2 (fun i hi => by simp [(hs.state i hi).1])]; rfl
    clear hs
    induction ops generalizing s with
    | nil => simp only [runOps] at h; cases h; exact hc
    | cons op ops ih =>
      simp only [runOps, Res.bind_eq_ok] at h
      obtain ⟨s1, h1, h2⟩ := h
      exact ih (fun i b hi => hops i b (by simp [hi])) h2 (by rw [(diffs_op h1).1]; exact hn) (selOk_op h1 hsel)
        (count_op (fun i b e => hops i b (by simp [e])) hn hsel h1 hc)
  refine ⟨?_, ?_, ?_⟩
  · rw [key, appliedNumber, List.countP_map, List.countP_eq_length_filter]; rfl
  · rw [key]; omega
  · rw [key, appliedNumber]
    have := List.length_filter_le (fun i => (s'.2.cell i).applied) s'.1.differences
    omega

/-- C10: after any calls, the tracking line number of each difference is its source line number plus the growth
(destination minus source line count) of the applied differences before it; positions and contents never change. -/
theorem C10_tracking {s s' : DModel × Heap} (hs : DModel.Fresh s) {ops : List MOp} (hops : MOp.Own s ops)
    (h : runOps ops s = Res.ok s') :
    s'.1.differences = s.1.differences ∧ (∀ i, Diff.Same (s.2.cell i) (s'.2.cell i)) ∧
    ∀ (k : Nat) (d : Diff), (s'.1.differences.map s'.2.cell)[k]? = some d →
      d.tracking = d.sourceLineNo +
        ((((s'.1.differences.map s'.2.cell).take k).filter (fun d => d.applied)).map (fun d => (d.dlc : Int) - d.slc)).sum := by
  obtain ⟨h1, h2⟩ := mInv_run hops h hs.inv
  refine ⟨h2, same_run h, fun k d hd => ?_⟩
  have := tracks_get 0 _ k d h1.tracks hd
  rw [this]
  generalize (s'.1.differences.map s'.2.cell).take k = l
  have hl : (l.map growth).sum = ((l.filter (fun d => d.applied)).map (fun d => (d.dlc : Int) - d.slc)).sum := by
    induction l with
    | nil => rfl
    | cons x l ih =>
      by_cases hx : x.applied = true
      · rw [List.filter_cons_of_pos hx]; simp only [List.map_cons, List.sum_cons, ih, growth, hx, if_true]
      · rw [List.filter_cons_of_neg hx]; simp only [List.map_cons, List.sum_cons, ih, growth, hx]; simp
  rw [hl]; omega

/-- C11: two histories that end with the same differences applied end with the same tracking numbers. -/
theorem C11_order_independent {s s1 s2 : DModel × Heap} (hs : DModel.Fresh s) {ops1 ops2 : List MOp}
    (ho1 : MOp.Own s ops1) (ho2 : MOp.Own s ops2)
    (h1 : runOps ops1 s = Res.ok s1) (h2 : runOps ops2 s = Res.ok s2)
    (hsame : ∀ i ∈ s.1.differences, (s1.2.cell i).applied = (s2.2.cell i).applied) :
    ∀ i ∈ s.1.differences, (s1.2.cell i).tracking = (s2.2.cell i).tracking := by
  obtain ⟨i1, d1⟩ := mInv_run ho1 h1 hs.inv
  obtain ⟨i2, d2⟩ := mInv_run ho2 h2 hs.inv
  have t1 := i1.tracks
  have t2 := i2.tracks
  rw [d1] at t1
  rw [d2] at t2
  intro i hi
  refine (tracks_ext 0 _ _ _ t2 t1 ?_ i hi)
  intro j hj
  have a := same_run h1 j
  have b := same_run h2 j
  refine ⟨by rw [a.sourceLineNo, b.sourceLineNo], ?_⟩
  simp only [growth, Diff.slc, Diff.dlc, a.source, a.dest, b.source, b.dest, hsame j hj]

/-- C11: in particular a history that ends with nothing applied restores the initial tracking numbers. -/
theorem C11_reversible {s s1 : DModel × Heap} (hs : DModel.Fresh s) {ops : List MOp} (ho : MOp.Own s ops)
    (h : runOps ops s = Res.ok s1) (hnone : ∀ i ∈ s.1.differences, (s1.2.cell i).applied = false) :
    ∀ i ∈ s.1.differences, (s1.2.cell i).tracking = (s.2.cell i).tracking :=
  C11_order_independent hs (ops2 := []) ho (by intro i b hi; cases hi) h rfl
    (fun i hi => by rw [hnone i hi, (hs.state i hi).1])

/-- C12: a model has unsaved changes iff the applied state of some difference is not the one at the last save
(or at loading, if there was no save). -/
theorem C12_unsaved {s s1 s2 : DModel × Heap} (hs : DModel.Untouched s) {before after : List MOp}
    (hsave : MOp.save ∉ after) (h1 : runOps before s = Res.ok s1) (h2 : runOps (before ++ .save :: after) s = Res.ok s2) :
    (s2.1.hasUnsavedChanges s2.2 = true ↔ ∃ i ∈ s2.1.differences, (s2.2.cell i).applied ≠ (s1.2.cell i).applied) ∧
    (MOp.save ∉ before →
      (s1.1.hasUnsavedChanges s1.2 = true ↔ ∃ i ∈ s1.1.differences, (s1.2.cell i).applied ≠ (s.2.cell i).applied)) := by
  constructor
  · rw [runOps_append, h1] at h2
    simp only [Res.bind_ok, runOps] at h2
    rw [Res.bind_eq_ok] at h2
    obtain ⟨s3, h3, h4⟩ := h2
    have hn : s1.1.differences.Nodup := by rw [diffs_run h1]; exact hs.nodup
    simp only [MOp.run] at h3
    cases h3
    have hd := diffs_run h4
    rw [DModel.hasUnsavedChanges, List.any_eq_true]
    rw [hd]
    have key : ∀ i ∈ s1.1.differences, ((s2.2.cell i).unsaved = true ↔ (s2.2.cell i).applied ≠ (s1.2.cell i).applied) := by
      intro i hi
      have := (toggled_run hsave h4 i).2
      simp only at this
      rw [Heap.modifyAll_cell _ _ _ hn, if_pos hi] at this
      simp only [Diff.setUnsaved] at this
      revert this
      cases (s2.2.cell i).unsaved <;> cases (s2.2.cell i).applied <;> cases (s1.2.cell i).applied <;> simp
    constructor
    · rintro ⟨i, hi, hu⟩; exact ⟨i, hi, (key i hi).1 hu⟩
    · rintro ⟨i, hi, hu⟩; exact ⟨i, hi, (key i hi).2 hu⟩
  · intro hb
    rw [DModel.hasUnsavedChanges, List.any_eq_true, diffs_run h1]
    have key : ∀ i ∈ s.1.differences, ((s1.2.cell i).unsaved = true ↔ (s1.2.cell i).applied ≠ (s.2.cell i).applied) := by
      intro i hi
      have := (toggled_run hb h1 i).2
      rw [(hs.state i hi).2.1] at this
      revert this
      cases (s1.2.cell i).unsaved <;> cases (s1.2.cell i).applied <;> cases (s.2.cell i).applied <;> simp
    constructor
    · rintro ⟨i, hi, hu⟩; exact ⟨i, hi, (key i hi).1 hu⟩
    · rintro ⟨i, hi, hu⟩; exact ⟨i, hi, (key i hi).2 hu⟩

/-! ## C13 -/

/-- C13: whatever was called before, a selected difference is the one at `diffIndex()`. -/
theorem C13_selection_at_index {s s' : DModel × Heap} (hs : s.1.selected = none) {ops : List MOp}
    (h : runOps ops s = Res.ok s') (i : Nat) (hi : s'.1.selected = some i) :
    0 ≤ s'.1.diffIndex ∧ s'.1.differences[s'.1.diffIndex.toNat]? = some i :=
  selOk_run h (fun j hj => by rw [hs] at hj; cases hj) i hi

/-- C13: from the difference at position `k`, next goes to position `k+1` or, at the end, to null; prev goes to `k-1`
or, at the start, to null. -/
theorem C13_next_prev (m : DModel) (k : Nat) (hk : m.diffIndex = k) (hlt : k < m.differences.length) :
    (∀ i, m.differences[k + 1]? = some i →
      m.nextDifference = Res.ok ({ m with diffIndex := (k : Int) + 1, selected := some i }, some i)) ∧
    (m.differences.length = k + 1 → m.nextDifference = Res.ok ({ m with diffIndex := 0, selected := none }, none)) ∧
    (∀ j i, k = j + 1 → m.differences[j]? = some i →
      m.prevDifference = Res.ok ({ m with diffIndex := j, selected := some i }, some i)) ∧
    (k = 0 → m.prevDifference = Res.ok ({ m with diffIndex := 0, selected := none }, none)) := by
  refine ⟨?_, ?_, ?_, ?_⟩
  · intro i hi
    have hlen := (List.getElem?_eq_some_iff.1 hi).1
    unfold DModel.nextDifference
    rw [if_pos (by omega), hk]
    have : atR m.differences ((k : Int) + 1) = Res.ok i := by
      unfold atR; rw [if_neg (by omega), show ((k : Int) + 1).toNat = k + 1 by omega, hi]
    rw [this]; rfl
  · intro hl
    unfold DModel.nextDifference
    rw [if_neg (by omega)]
  · intro j i hj hi
    unfold DModel.prevDifference
    rw [if_pos (by omega), hk]
    have : atR m.differences ((k : Int) - 1) = Res.ok i := by
      unfold atR; rw [if_neg (by omega), show ((k : Int) - 1).toNat = j by omega, hi]
    rw [this, show (k : Int) - 1 = j by omega]; rfl
  · intro h0
    unfold DModel.prevDifference
    rw [if_neg (by omega)]

/-- C13: first and last select the ends of the list and are undefined exactly on an empty model. -/
theorem C13_first_last (m : DModel) :
    (m.differences = [] ↔ m.firstDifference = Res.ub) ∧ (m.differences = [] ↔ m.lastDifference = Res.ub) ∧
    (∀ i, m.differences.head? = some i →
      m.firstDifference = Res.ok ({ m with diffIndex := 0, selected := some i }, some i)) ∧
    (∀ i, m.differences.getLast? = some i →
      m.lastDifference = Res.ok ({ m with diffIndex := (m.differences.length : Int) - 1, selected := some i }, some i)) := by
  have hf : ∀ i, m.differences.head? = some i →
      m.firstDifference = Res.ok ({ m with diffIndex := 0, selected := some i }, some i) := by
    intro i hi
    unfold DModel.firstDifference
    have : atR m.differences 0 = Res.ok i := by
      unfold atR
      rw [if_neg (by omega)]
      rw [List.head?_eq_getElem?] at hi
      simp [hi]
    rw [this]; rfl
  have hl : ∀ i, m.differences.getLast? = some i →
      m.lastDifference = Res.ok ({ m with diffIndex := (m.differences.length : Int) - 1, selected := some i }, some i) := by
    intro i hi
    unfold DModel.lastDifference
    have hne : 0 < m.differences.length := List.length_pos_of_mem (List.mem_of_getLast? hi)
    have : atR m.differences ((m.differences.length : Int) - 1) = Res.ok i := by
      unfold atR
      rw [if_neg (by omega), show ((m.differences.length : Int) - 1).toNat = m.differences.length - 1 by omega]
      rw [List.getLast?_eq_getElem?] at hi
      simp [hi]
    rw [this]; rfl
  refine ⟨⟨?_, ?_⟩, ⟨?_, ?_⟩, hf, hl⟩
  · intro h; simp [DModel.firstDifference, h, atR]
  · intro h
    cases hd : m.differences with
    | nil => rfl
    | cons i is => rw [hf i (by rw [hd]; rfl)] at h; cases h
  · intro h; simp [DModel.lastDifference, h, atR]
  · intro h
    cases hd : m.differences.getLast? with
    | none => simpa using hd
    | some i => rw [hl i hd] at h; cases h

/-- C13: selecting a difference fails exactly when it is not the selected one already and not in the model, and then changes
nothing; otherwise it is selected afterwards. -/
theorem C13_select (m : DModel) (p : Option Nat) :
    ((m.setSelectedDifference p).2 = false ↔ p ≠ m.selected ∧ ∀ i, p = some i → i ∉ m.differences) ∧
    ((m.setSelectedDifference p).2 = false → (m.setSelectedDifference p).1 = m) ∧
    ((m.setSelectedDifference p).2 = true → (m.setSelectedDifference p).1.selected = p ∧
      (m.setSelectedDifference p).1.differences = m.differences) := by
  unfold DModel.setSelectedDifference
  by_cases hp : p = m.selected
  · simp [hp]
  · rw [if_pos hp]
    cases p with
    | none => simp [hp]
    | some i =>
      dsimp only
      rcases indexOfI_spec m.differences i with ⟨h1, h2⟩ | ⟨h1, h2⟩
      · have h1' : m.findDifference i = -1 := h1
        rw [if_pos h1']; simp [hp, h2]
      · have hne : m.findDifference i ≠ -1 := by unfold DModel.findDifference; omega
        rw [if_neg hne]
        have := List.mem_of_getElem? h2
        simp [hp, this]

/-! ## C14 -/

/-- C14: a new model splits both paths correctly. -/
theorem C14_split_new (src dst : Str) :
    (DModel.new src dst).source = src ∧ (DModel.new src dst).destination = dst ∧
    Spec.SplitOf src (DModel.new src dst).sourcePath (DModel.new src dst).sourceFile ∧
    Spec.SplitOf dst (DModel.new src dst).destinationPath (DModel.new src dst).destinationFile := by
  have key : ∀ p : Str, Spec.SplitOf p (splitPath [] p).1 (splitPath [] p).2 := by
    intro p
    by_cases h : '/' ∈ p
    · cases hl : lastIndexOf '/' p with
      | none => exact absurd h (lastIndexOf_none.1 hl)
      | some i =>
        obtain ⟨a, b, rfl, _, hb⟩ := lastIndexOf_some hl
        rw [splitPath_slash _ _ _ hb]
        exact ⟨by simp, hb, by simp⟩
    · rw [splitPath_noslash _ _ h]
      exact ⟨by simp, h, Or.inl rfl⟩
  exact ⟨rfl, rfl, key src, key dst⟩

/-- C14: setting a path that contains a slash splits it correctly, whatever the model held before. -/
theorem C14_set_with_slash (m : DModel) (p : Str) (h : '/' ∈ p) :
    Spec.SplitOf p (m.setSourceFile p).sourcePath (m.setSourceFile p).sourceFile ∧
    Spec.SplitOf p (m.setDestinationFile p).destinationPath (m.setDestinationFile p).destinationFile := by
  cases hl : lastIndexOf '/' p with
  | none => exact absurd h (lastIndexOf_none.1 hl)
  | some i =>
    obtain ⟨a, b, rfl, _, hb⟩ := lastIndexOf_some hl
    simp only [DModel.setSourceFile, DModel.setDestinationFile, splitPath_slash _ _ _ hb]
    exact ⟨⟨by simp, hb, by simp⟩, ⟨by simp, hb, by simp⟩⟩

/-- C14, defect: setting a path without a slash keeps the previous directory, so the split is correct only if there was none. -/
theorem C14_stale_directory_defect (m : DModel) (p : Str) (h : '/' ∉ p) :
    (m.setSourceFile p).sourcePath = m.sourcePath ∧ (m.setSourceFile p).sourceFile = p ∧
    (Spec.SplitOf p (m.setSourceFile p).sourcePath (m.setSourceFile p).sourceFile ↔ m.sourcePath = []) := by
  simp only [DModel.setSourceFile, splitPath_noslash _ _ h, Spec.SplitOf, true_and]
  constructor
  · rintro ⟨h1, _⟩
    have := congrArg List.length h1
    simp at this; exact this
  · intro h1; rw [h1]; exact ⟨by simp, h, Or.inl rfl⟩

example : ((DModel.new (str "a/b.c") (str "x")).setSourceFile (str "y")).sourcePath = str "a/" := by decide
example : (DModel.new (str "dir/sub/file.c") (str "file")).sourceFile = str "file.c" := by decide

/-! ## a concrete model that meets the hypotheses -/

/-- Three differences: a deletion, a change, an insertion. -/
def demoHeap : Heap :=
  { cell := fun i => match i with
      | 0 => ((Diff.new 1 1 .Delete).addSource (str "a\n")).addSource (str "b\n")
      | 1 => ((Diff.new 5 3 .Change).addSource (str "c\n")).addDest (str "d\n")
      | _ => (Diff.new 8 6 .Insert).addDest (str "e\n")
    next := 3 }

def demoModel : DModel := { DModel.new (str "a/f") (str "b/f") with differences := [0, 1, 2], connected := [0, 1, 2] }

theorem demo_fresh : DModel.Fresh (demoModel, demoHeap) := by
  refine ⟨by decide, ?_, by decide, rfl, rfl⟩
  intro i hi; exact hi

/-- Tracking numbers of the demo model after a sequence of calls. -/
def demoTrackings (ops : List MOp) : Option (List Int × Int) :=
  match runOps ops (demoModel, demoHeap) with
  | .ok s => some (s.1.differences.map (fun i => (s.2.cell i).tracking), s.1.appliedCount)
  | _ => none

example : demoTrackings [.first, .apply true, .last, .apply true] = some ([1, 3, 6], 2) := by decide
example : demoTrackings [.last, .apply true, .applyAll true, .first, .apply false] = some ([1, 5, 8], 2) := by decide
example : demoTrackings [.applyAll true, .applyAll false, .next, .apply true] = some ([1, 5, 8], 1) := by decide
example : demoTrackings [.apply true] = none := by decide

end KompareDiff2
