import Verif.Spec.Moved
import Verif.Proofs.HeapEdit
import Verif.Proofs.ParserHeap
/-
Moving objects: the heap, single models, the parser and blending.
-/
namespace KompareDiff2
open Spec

theorem Spec.Agree.bind {α β γ δ : Type} {R : α → β → Prop} {Q : γ → δ → Prop} {x : Res α} {y : Res β} {f : α → Res γ} {g : β → Res δ}
    (h : Agree R x y) (hf : ∀ u v, R u v → Agree Q (f u) (g v)) : Agree Q (x >>= f) (y >>= g) := by
  cases x <;> cases y <;> first | exact hf _ _ h | exact trivial | exact False.elim h

theorem Spec.Agree.mono {α β : Type} {R Q : α → β → Prop} {x : Res α} {y : Res β} (h : Agree R x y) (hq : ∀ u v, R u v → Q u v) : Agree Q x y := by
  cases x <;> cases y <;> first | exact hq _ _ h | exact trivial | exact False.elim h

theorem Spec.Agree.refl {α : Type} {R : α → α → Prop} (x : Res α) (h : ∀ u, R u u) : Agree R x x := by
  cases x <;> first | exact h _ | exact trivial

theorem Spec.Agree.eq {α : Type} {x : Res α} : Agree Eq x x := .refl x fun _ => rfl

theorem add_inj {a i j : Nat} : i + a = j + a ↔ i = j := by omega

theorem mem_map_add {a i : Nat} {l : List Nat} : i + a ∈ l.map (· + a) ↔ i ∈ l := by
  rw [List.mem_map]
  exact ⟨fun ⟨j, hj, e⟩ => by rw [add_inj] at e; exact e ▸ hj, fun h => ⟨i, h, rfl⟩⟩

/-! ### The heap -/

theorem Spec.HeapMoved.set {a : Nat} {h h' : Heap} (w : HeapMoved a h h') (i : Nat) (d : Diff) : HeapMoved a (h.set i d) (h'.set (i + a) d) := by
  refine ⟨w.next, fun j hj => ?_⟩
  show (if j + a = i + a then d else h'.cell (j + a)) = if j = i then d else h.cell j
  rw [w.cell j hj]
  by_cases e : j = i
  · rw [if_pos e, if_pos (by rw [e])]
  · rw [if_neg e, if_neg (by omega)]

theorem Spec.HeapMoved.modify {a : Nat} {h h' : Heap} (w : HeapMoved a h h') {i : Nat} (hi : i < h.next) (f : Diff → Diff) :
    HeapMoved a (h.modify i f) (h'.modify (i + a) f) := by
  unfold Heap.modify
  rw [w.cell i hi]
  exact w.set _ _

theorem Spec.HeapMoved.modifyAll {a : Nat} (f : Diff → Diff) (l : List Nat) {h h' : Heap} (w : HeapMoved a h h') (hl : ∀ i ∈ l, i < h.next) :
    HeapMoved a (h.modifyAll f l) (h'.modifyAll f (l.map (· + a))) := by
  induction l generalizing h h' with
  | nil => exact w
  | cons i l ih => exact ih (w.modify (hl i (by simp)) f) (fun j hj => hl j (List.mem_cons_of_mem _ hj))

theorem Spec.HeapMoved.allocAll {a : Nat} (ds : List Diff) {h h' : Heap} (w : HeapMoved a h h') :
    (h'.allocAll ds).1 = (h.allocAll ds).1.map (· + a) ∧ HeapMoved a (h.allocAll ds).2 (h'.allocAll ds).2 := by
  induction ds generalizing h h' with
  | nil => exact ⟨rfl, w⟩
  | cons d ds ih =>
    have w1 : HeapMoved a { cell := fun j => if j = h.next then d else h.cell j, next := h.next + 1 }
        { cell := fun j => if j = h'.next then d else h'.cell j, next := h'.next + 1 } := by
      refine ⟨by show h'.next + 1 = h.next + 1 + a; rw [w.next]; omega, fun j hj => ?_⟩
      show (if j + a = h'.next then d else h'.cell (j + a)) = if j = h.next then d else h.cell j
      rw [w.next]
      by_cases e : j = h.next
      · rw [if_pos e, if_pos (by rw [e])]
      · rw [if_neg e, if_neg (by omega)]
        exact w.cell j (by have : j < h.next + 1 := hj; omega)
    obtain ⟨q1, q2⟩ := ih w1
    refine ⟨?_, q2⟩
    show h'.next :: _ = (h.next :: _).map _
    rw [List.map_cons, q1, w.next]

theorem Spec.HeapMoved.cells {a : Nat} {h h' : Heap} (w : HeapMoved a h h') {l : List Nat} (hl : ∀ i ∈ l, i < h.next) :
    (l.map (· + a)).map h'.cell = l.map h.cell := by
  rw [List.map_map]
  exact List.map_congr_left fun i hi => w.cell i (hl i hi)

theorem Spec.Uses.mono {n n' : Nat} (hn : n ≤ n') {m : DModel} (u : Uses n m) : Uses n' m :=
  ⟨fun i hi => Nat.lt_of_lt_of_le (u.differences i hi) hn, fun k hk i hi => Nat.lt_of_lt_of_le (u.hunks k hk i hi) hn,
    fun i hi => Nat.lt_of_lt_of_le (u.selected i hi) hn⟩

/-! ### One model -/

theorem indexOfI_add (a : Nat) (l : List Nat) (i : Nat) : indexOfI (l.map (· + a)) (i + a) = indexOfI l i := by
  induction l with
  | nil => rfl
  | cons x l ih =>
    rw [List.map_cons, indexOfI, indexOfI, ih]
    by_cases e : x = i
    · rw [if_pos e, if_pos (by rw [e])]
    · rw [if_neg e, if_neg (by omega)]

theorem move_findDifference (a : Nat) (m : DModel) (i : Nat) : (moveModel a m).findDifference (i + a) = m.findDifference i := indexOfI_add a _ _

theorem atR_map {α β : Type} (f : α → β) (l : List α) (i : Int) :
    Agree (fun x y => y = f x ∧ x ∈ l) (atR l i) (atR (l.map f) i) := by
  unfold atR
  split
  · exact trivial
  · rw [List.getElem?_map]
    cases e : l[i.toNat]? with
    | none => exact trivial
    | some x => exact ⟨rfl, List.mem_of_getElem? e⟩

/-- The result of one of the selecting functions of a model, moved. -/
def MovedSel (a n : Nat) (x y : DModel × Option Nat) : Prop :=
  y.1 = moveModel a x.1 ∧ y.2 = x.2.map (· + a) ∧ Uses n x.1 ∧ ∀ i, x.2 = some i → i < n

theorem uses_select {n : Nat} {m : DModel} (u : Uses n m) {i : Nat} (hi : i ∈ m.differences) (k : Int) :
    Uses n { m with diffIndex := k, selected := some i } :=
  ⟨u.differences, u.hunks, fun _ e => by cases e; exact u.differences i hi⟩

theorem move_first {a n : Nat} {m : DModel} (u : Uses n m) : Agree (MovedSel a n) m.firstDifference (moveModel a m).firstDifference := by
  refine (atR_map (· + a) m.differences 0).bind fun x y ⟨e, hx⟩ => ?_
  subst e
  exact ⟨rfl, rfl, uses_select u hx _, fun i e => by cases e; exact u.differences x hx⟩

theorem move_last {a n : Nat} {m : DModel} (u : Uses n m) : Agree (MovedSel a n) m.lastDifference (moveModel a m).lastDifference := by
  unfold DModel.lastDifference
  have hl : (moveModel a m).differences.length = m.differences.length := List.length_map ..
  rw [hl]
  refine (atR_map (· + a) m.differences _).bind fun x y ⟨e, hx⟩ => ?_
  subst e
  exact ⟨rfl, rfl, uses_select u hx _, fun i e => by cases e; exact u.differences x hx⟩

theorem move_prev {a n : Nat} {m : DModel} (u : Uses n m) : Agree (MovedSel a n) m.prevDifference (moveModel a m).prevDifference := by
  unfold DModel.prevDifference
  have hl : (moveModel a m).differences.length = m.differences.length := List.length_map ..
  rw [hl]
  have hd : (moveModel a m).diffIndex = m.diffIndex := rfl
  rw [hd]
  split
  · refine (atR_map (· + a) m.differences _).bind fun x y ⟨e, hx⟩ => ?_
    subst e
    exact ⟨rfl, rfl, uses_select u hx _, fun i e => by cases e; exact u.differences x hx⟩
  · exact ⟨rfl, rfl, ⟨u.differences, u.hunks, fun _ e => by cases e⟩, fun _ e => by cases e⟩

theorem move_next {a n : Nat} {m : DModel} (u : Uses n m) : Agree (MovedSel a n) m.nextDifference (moveModel a m).nextDifference := by
  unfold DModel.nextDifference
  have hl : (moveModel a m).differences.length = m.differences.length := List.length_map ..
  rw [hl]
  have hd : (moveModel a m).diffIndex = m.diffIndex := rfl
  rw [hd]
  split
  · refine (atR_map (· + a) m.differences _).bind fun x y ⟨e, hx⟩ => ?_
    subst e
    exact ⟨rfl, rfl, uses_select u hx _, fun i e => by cases e; exact u.differences x hx⟩
  · exact ⟨rfl, rfl, ⟨u.differences, u.hunks, fun _ e => by cases e⟩, fun _ e => by cases e⟩

theorem map_add_eq {a : Nat} {p q : Option Nat} : p.map (· + a) = q.map (· + a) ↔ p = q := by
  cases p <;> cases q <;> simp

theorem move_setSelected {a n : Nat} {m : DModel} (u : Uses n m) (p : Option Nat) :
    ((moveModel a m).setSelectedDifference (p.map (· + a))).1 = moveModel a (m.setSelectedDifference p).1 ∧
    ((moveModel a m).setSelectedDifference (p.map (· + a))).2 = (m.setSelectedDifference p).2 ∧ Uses n (m.setSelectedDifference p).1 := by
  unfold DModel.setSelectedDifference
  have hs : (moveModel a m).selected = m.selected.map (· + a) := rfl
  rw [hs]
  by_cases e : p = m.selected
  · rw [if_neg (by rw [e]; simp), if_neg (by rw [e]; simp)]
    exact ⟨rfl, rfl, u⟩
  · rw [if_pos (fun q => e (map_add_eq.1 q)), if_pos e]
    cases p with
    | none => exact ⟨rfl, rfl, u⟩
    | some i =>
      dsimp only [Option.map_some]
      rw [move_findDifference]
      split
      · exact ⟨rfl, rfl, u⟩
      · rename_i hf
        refine ⟨rfl, rfl, u.differences, u.hunks, fun j ej => ?_⟩
        cases ej
        refine u.differences i ?_
        apply Classical.byContradiction
        intro hn
        apply hf
        unfold DModel.findDifference
        generalize m.differences = l at hn
        induction l with
        | nil => rfl
        | cons x l ih =>
          rw [List.mem_cons, not_or] at hn
          rw [indexOfI, if_neg (fun q => hn.1 q.symm), ih hn.2]
          rfl

theorem move_unsaved {a : Nat} {m : DModel} {h h' : Heap} (w : HeapMoved a h h') (u : Uses h.next m) :
    (moveModel a m).hasUnsavedChanges h' = m.hasUnsavedChanges h := by
  show (m.differences.map (· + a)).any _ = m.differences.any _
  rw [List.any_map]
  rw [Bool.eq_iff_iff, List.any_eq_true, List.any_eq_true]
  exact ⟨fun ⟨i, hi, e⟩ => ⟨i, hi, by rw [← w.cell i (u.differences i hi)]; exact e⟩,
    fun ⟨i, hi, e⟩ => ⟨i, hi, by show (h'.cell (i + a)).unsaved = true; rw [w.cell i (u.differences i hi)]; exact e⟩⟩

theorem modifyAll_next' (f : Diff → Diff) (l : List Nat) (h : Heap) : (h.modifyAll f l).next = h.next := by
  induction l generalizing h with
  | nil => rfl
  | cons i l ih => exact ih _

theorem move_applyDirect {a : Nat} {m : DModel} {h h' : Heap} (w : HeapMoved a h h') (u : Uses h.next m) {i : Nat} (hi : i < h.next) (b : Bool) :
    HeapMoved a (m.applyDirect h i b) ((moveModel a m).applyDirect h' (i + a) b) ∧ (m.applyDirect h i b).next = h.next := by
  unfold DModel.applyDirect
  rw [w.cell i hi]
  have w1 := w.set i ((h.cell i).apply b).1
  have hc : i + a ∈ (moveModel a m).connected ↔ i ∈ m.connected := mem_map_add
  dsimp only
  by_cases q : ((h.cell i).apply b).2 = true ∧ i ∈ m.connected
  · rw [if_pos q, if_pos ⟨q.1, hc.2 q.2⟩]
    unfold DModel.slotDifferenceApplied
    rw [w1.cell i hi]
    exact ⟨w1.modifyAll _ _ u.differences, modifyAll_next' _ _ _⟩
  · rw [if_neg q, if_neg (fun p => q ⟨p.1, hc.1 p.2⟩)]
    exact ⟨w1, rfl⟩

theorem move_apply {a : Nat} {m : DModel} {h h' : Heap} (w : HeapMoved a h h') (u : Uses h.next m) (b : Bool) :
    Agree (fun x y => y.1 = moveModel a x.1 ∧ HeapMoved a x.2 y.2 ∧ x.2.next = h.next ∧ Uses x.2.next x.1) (m.applyDifference h b)
      ((moveModel a m).applyDifference h' b) := by
  unfold DModel.applyDifference
  have hs : (moveModel a m).selected = m.selected.map (· + a) := rfl
  rw [hs]
  cases e : m.selected with
  | none => exact trivial
  | some i =>
    have hi := u.selected i e
    dsimp only [Option.map_some]
    rw [w.cell i hi]
    split
    · exact ⟨rfl, w, rfl, u⟩
    · obtain ⟨w1, hn⟩ := move_applyDirect w u hi b
      exact ⟨rfl, w1, hn, by rw [hn]; exact ⟨u.differences, u.hunks, fun j ej => u.selected j (e.trans ej)⟩⟩

theorem move_applyAllLoop {a : Nat} (b : Bool) (l : List Nat) {h h' : Heap} (w : HeapMoved a h h') (t : Int) (hl : ∀ i ∈ l, i < h.next) :
    HeapMoved a (applyAllLoop b h t l) (applyAllLoop b h' t (l.map (· + a))) ∧ (applyAllLoop b h t l).next = h.next := by
  induction l generalizing h h' t with
  | nil => exact ⟨w, rfl⟩
  | cons i l ih =>
    have hi := hl i (by simp)
    have w1 := w.modify hi (fun d => { d with tracking := d.tracking + t })
    have ht : ∀ j ∈ l, j < h.next := fun j hj => hl j (List.mem_cons_of_mem _ hj)
    rw [List.map_cons, applyAllLoop, applyAllLoop]
    dsimp only
    rw [w1.cell i hi]
    split
    · exact ih w1 t ht
    · have w2 := w1.modify hi (fun d => d.applyQuietly b)
      rw [w2.cell i hi]
      exact ih w2 _ ht

theorem move_applyAll {a : Nat} {m : DModel} {h h' : Heap} (w : HeapMoved a h h') (u : Uses h.next m) (b : Bool) :
    ((moveModel a m).applyAllDifferences h' b).1 = moveModel a (m.applyAllDifferences h b).1 ∧
    HeapMoved a (m.applyAllDifferences h b).2 ((moveModel a m).applyAllDifferences h' b).2 ∧ (m.applyAllDifferences h b).2.next = h.next ∧
    Uses h.next (m.applyAllDifferences h b).1 := by
  obtain ⟨q1, q2⟩ := move_applyAllLoop b m.differences w 0 u.differences
  refine ⟨?_, q1, q2, u.differences, u.hunks, u.selected⟩
  unfold DModel.applyAllDifferences moveModel
  simp only [List.length_map]

theorem move_savedText {a : Nat} {m : DModel} {h h' : Heap} (w : HeapMoved a h h') (u : Uses h.next m) :
    (moveModel a m).savedText h' = m.savedText h := by
  unfold DModel.savedText
  apply congrArg List.flatten
  show ((m.hunks.map (moveHunk a)).flatMap (fun k => k.diffs)).flatMap _ = _
  have e : (m.hunks.map (moveHunk a)).flatMap (fun k => k.diffs) = (m.hunks.flatMap (fun k => k.diffs)).map (· + a) := by
    rw [List.flatMap_map, List.map_flatMap]; rfl
  have hl : ∀ i ∈ m.hunks.flatMap (fun k => k.diffs), i < h.next := by
    intro i hi
    obtain ⟨k, hk, hi⟩ := List.mem_flatMap.1 hi
    exact u.hunks k hk i hi
  rw [e]
  generalize m.hunks.flatMap (fun k => k.diffs) = l at hl
  induction l with
  | nil => rfl
  | cons i l ih =>
    rw [List.map_cons, List.flatMap_cons, List.flatMap_cons, ih (fun j hj => hl j (List.mem_cons_of_mem _ hj)), w.cell i (hl i (by simp))]

theorem move_recreate {a : Nat} (win : Bool) {m : DModel} {h h' : Heap} (w : HeapMoved a h h') (u : Uses h.next m) :
    (moveModel a m).recreateDiff win h' = m.recreateDiff win h := by
  unfold DModel.recreateDiff
  refine congrArg (List.append _) (congrArg List.flatten ?_)
  show ((m.hunks.map (moveHunk a)).filter _).map _ = _
  rw [List.filter_map, List.map_map]
  refine List.map_congr_left fun k hk => ?_
  have hk := (List.mem_filter.1 hk).1
  have := w.cells (u.hunks k hk)
  exact congrArg (fun x => Hunk.recreate (Hunk.mk k.sourceLine k.destLine k.function k.type x)) this

/-! ### Blending -/

/-- The states of the blending loop, moved. -/
structure MovedBlend (a : Nat) (s s' : BlendState) : Prop where
  heap : HeapMoved a s.heap s'.heap
  hunks : s'.hunks = s.hunks.map (moveHunk a)
  uses : ∀ k ∈ s.hunks, ∀ i ∈ k.diffs, i < s.heap.next
  src : s'.src = s.src
  dst : s'.dst = s.dst
  lines : s'.lines = s.lines

theorem mem_allocAll (h : Heap) (ds : List Diff) : ∀ i ∈ (h.allocAll ds).1, i < (h.allocAll ds).2.next := by
  intro i hi
  rw [Heap.allocAll_ids] at hi
  rw [Heap.allocAll_next]
  have := List.mem_range'_1.1 hi
  omega

theorem move_slcOn {a : Nat} {h h' : Heap} (w : HeapMoved a h h') {k : Hunk Nat} (hk : ∀ i ∈ k.diffs, i < h.next) :
    (moveHunk a k).slcOn h' = k.slcOn h := by
  unfold Hunk.slcOn Hunk.slc
  show (((k.diffs.map (· + a)).map _).map _).sum = ((k.diffs.map _).map _).sum
  rw [List.map_map, List.map_map, List.map_map]
  exact congrArg List.sum (List.map_congr_left fun i hi => by show (h'.cell (i + a)).slc = (h.cell i).slc; rw [w.cell i (hk i hi)])

theorem move_dlcOn {a : Nat} {h h' : Heap} (w : HeapMoved a h h') {k : Hunk Nat} (hk : ∀ i ∈ k.diffs, i < h.next) :
    (moveHunk a k).dlcOn h' = k.dlcOn h := by
  unfold Hunk.dlcOn Hunk.dlc
  show (((k.diffs.map (· + a)).map _).map _).sum = ((k.diffs.map _).map _).sum
  rw [List.map_map, List.map_map, List.map_map]
  exact congrArg List.sum (List.map_congr_left fun i hi => by show (h'.cell (i + a)).dlc = (h.cell i).dlc; rw [w.cell i (hk i hi)])

theorem uses_append_new {h : Heap} {ks : List (Hunk Nat)} (hu : ∀ k ∈ ks, ∀ i ∈ k.diffs, i < h.next) (ds : List Diff) {k0 : Hunk Nat}
    (e : k0.diffs = (h.allocAll ds).1) : ∀ k ∈ ks ++ [k0], ∀ i ∈ k.diffs, i < (h.allocAll ds).2.next := by
  intro k hk i hi
  rcases List.mem_append.1 hk with q | q
  · rw [Heap.allocAll_next]; exact Nat.lt_of_lt_of_le (hu k q i hi) (Nat.le_add_right _ _)
  · cases List.mem_singleton.1 q
    rw [e] at hi
    exact mem_allocAll _ _ i hi

theorem move_blendBefore {a : Nat} {s s' : BlendState} (w : MovedBlend a s s') (k : Hunk Nat) :
    MovedBlend a (blendBefore k s) (blendBefore (moveHunk a k) s') ∧ s.heap.next ≤ (blendBefore k s).heap.next := by
  unfold blendBefore
  have hk : (moveHunk a k).sourceLine = k.sourceLine := rfl
  rw [hk, w.src, w.dst, w.lines]
  split
  · generalize blendFill k.sourceLine (Diff.new s.src s.dst .Unchanged) s.src s.dst s.lines = r
    obtain ⟨q1, q2⟩ := w.heap.allocAll [r.1]
    refine ⟨⟨q2, ?_, uses_append_new w.uses _ rfl, rfl, rfl, rfl⟩, ?_⟩
    · show s'.hunks ++ [_] = (s.hunks ++ [_]).map _
      rw [List.map_append, w.hunks, q1]; rfl
    · show _ ≤ (s.heap.allocAll _).2.next
      rw [Heap.allocAll_next]; exact Nat.le_add_right _ _
  · exact ⟨w, Nat.le_refl _⟩

theorem move_blendLoop {a : Nat} (ks : List (Hunk Nat)) {s s' : BlendState} (w : MovedBlend a s s') (hk : ∀ k ∈ ks, ∀ i ∈ k.diffs, i < s.heap.next) :
    MovedBlend a (blendLoop ks s) (blendLoop (ks.map (moveHunk a)) s') ∧ s.heap.next ≤ (blendLoop ks s).heap.next := by
  induction ks generalizing s s' with
  | nil => exact ⟨w, Nat.le_refl _⟩
  | cons k ks ih =>
    obtain ⟨w1, hn⟩ := move_blendBefore w k
    rw [List.map_cons, blendLoop, blendLoop]
    generalize blendBefore k s = t at w1 hn
    generalize blendBefore (moveHunk a k) s' = t' at w1
    have hk0 : ∀ i ∈ k.diffs, i < t.heap.next := fun i hi => Nat.lt_of_lt_of_le (hk k (by simp) i hi) hn
    rw [move_slcOn w1.heap hk0, move_dlcOn w1.heap hk0, w1.src, w1.dst, w1.lines]
    have := ih (s := BlendState.mk t.heap (t.hunks ++ [k]) (t.src + k.slcOn t.heap) (t.dst + k.dlcOn t.heap) (t.lines.drop (k.slcOn t.heap)))
      (s' := BlendState.mk t'.heap (t'.hunks ++ [moveHunk a k]) (t.src + k.slcOn t.heap) (t.dst + k.dlcOn t.heap)
        (t.lines.drop (k.slcOn t.heap)))
      ⟨w1.heap, by rw [List.map_append, w1.hunks]; rfl, ?_, rfl, rfl, rfl⟩
      (fun k' hk' i hi => Nat.lt_of_lt_of_le (hk k' (List.mem_cons_of_mem _ hk') i hi) hn)
    · exact ⟨this.1, Nat.le_trans hn this.2⟩
    · intro k' hk' i hi
      rcases List.mem_append.1 hk' with q | q
      · exact w1.uses k' q i hi
      · cases List.mem_singleton.1 q; exact hk0 i hi

theorem move_blendTail {a : Nat} {s s' : BlendState} (w : MovedBlend a s s') :
    MovedBlend a (blendTail s) (blendTail s') ∧ s.heap.next ≤ (blendTail s).heap.next := by
  unfold blendTail
  rw [w.lines]
  cases e : s.lines with
  | nil => exact ⟨w, Nat.le_refl _⟩
  | cons l ls =>
    dsimp only
    rw [w.src, w.dst]
    generalize (l :: ls).foldl (fun d l => (d.addSource l).addDest l) (Diff.new s.src s.dst .Unchanged) = d
    obtain ⟨q1, q2⟩ := w.heap.allocAll [d]
    refine ⟨⟨q2, ?_, uses_append_new w.uses _ rfl, rfl, rfl, rfl⟩, ?_⟩
    · show s'.hunks ++ [_] = (s.hunks ++ [_]).map _
      rw [List.map_append, w.hunks, q1]; rfl
    · show _ ≤ (s.heap.allocAll _).2.next
      rw [Heap.allocAll_next]; exact Nat.le_add_right _ _

theorem move_blend {a : Nat} {m : DModel} {h h' : Heap} (w : HeapMoved a h h') (u : Uses h.next m) (text : Str) :
    ((moveModel a m).blend h' text).1 = moveModel a (m.blend h text).1 ∧ HeapMoved a (m.blend h text).2 ((moveModel a m).blend h' text).2 ∧
    h.next ≤ (m.blend h text).2.next ∧ Uses (m.blend h text).2.next (m.blend h text).1 := by
  obtain ⟨w1, n1⟩ := move_blendLoop m.hunks (s := { heap := h, hunks := [], src := 1, dst := 1, lines := split text })
    (s' := { heap := h', hunks := [], src := 1, dst := 1, lines := split text }) ⟨w, rfl, fun _ q => (by cases q), rfl, rfl, rfl⟩ u.hunks
  obtain ⟨w2, n2⟩ := move_blendTail w1
  have hn := Nat.le_trans n1 n2
  refine ⟨?_, w2.heap, hn, fun i hi => Nat.lt_of_lt_of_le (u.differences i hi) hn, w2.uses, fun i hi => Nat.lt_of_lt_of_le (u.selected i hi) hn⟩
  have e := w2.hunks
  unfold DModel.blend
  have hh : (moveModel a m).hunks = m.hunks.map (moveHunk a) := rfl
  dsimp only
  rw [hh, e]
  rfl

/-! ### Edits -/

theorem move_linesChanged {a : Nat} (hash : Str → Nat) {m : DModel} {h h' : Heap} (w : HeapMoved a h h') (u : Uses h.next m) (old new : List Str)
    (line : Int) :
    Agree (fun x y => y.1 = moveModel a x.1 ∧ HeapMoved a x.2.1 y.2.1 ∧ h.next ≤ x.2.1.next ∧ Uses x.2.1.next x.1 ∧
        y.2.2.1 = x.2.2.1.map (· + a) ∧ y.2.2.2 = x.2.2.2.map (· + a))
      (m.linesChanged hash h old new line) ((moveModel a m).linesChanged hash h' old new line) := by
  unfold DModel.linesChanged
  have hc : (moveModel a m).differences.map h'.cell = m.differences.map h.cell := w.cells u.differences
  have hd : (moveModel a m).differences = m.differences.map (· + a) := rfl
  rw [hc]
  refine (Agree.eq (x := KompareDiff2.linesChanged hash (m.differences.map h.cell) old new line)).bind fun r _ e => ?_
  subst e
  obtain ⟨q1, q2⟩ := w.allocAll r.inserted
  have hp : ∀ i ∈ m.differences.drop (r.pre.length + r.removed.length), i < (h.allocAll r.inserted).2.next := by
    intro i hi
    rw [Heap.allocAll_next]
    exact Nat.lt_of_lt_of_le (u.differences i (List.mem_of_mem_drop hi)) (Nat.le_add_right _ _)
  have w2 := q2.modifyAll (fun d => { d with tracking := d.tracking + ((new.length : Int) - old.length) }) _ hp
  have hn : h.next ≤ ((h.allocAll r.inserted).2.modifyAll (fun d => { d with tracking := d.tracking + ((new.length : Int) - old.length) })
      (m.differences.drop (r.pre.length + r.removed.length))).next := by
    rw [modifyAll_next', Heap.allocAll_next]; exact Nat.le_add_right _ _
  refine ⟨?_, ?_, hn, ⟨?_, fun k hk i hi => Nat.lt_of_lt_of_le (u.hunks k hk i hi) hn, fun i hi => Nat.lt_of_lt_of_le (u.selected i hi) hn⟩, q1, ?_⟩
  · dsimp only
    rw [q1, hd, ← List.map_take, ← List.map_drop, ← List.map_append, ← List.map_append]
    rfl
  · dsimp only
    rw [hd, ← List.map_drop]
    exact w2
  · intro i hi
    dsimp only at hi
    rw [modifyAll_next']
    rcases List.mem_append.1 hi with q | q
    · rcases List.mem_append.1 q with q | q
      · rw [Heap.allocAll_next]
        exact Nat.lt_of_lt_of_le (u.differences i (List.mem_of_mem_take q)) (Nat.le_add_right _ _)
      · exact mem_allocAll _ _ i q
    · exact hp i q
  · dsimp only
    rw [hd, ← List.map_drop, ← List.map_take]

end KompareDiff2
