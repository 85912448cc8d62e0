import Verif.Model.DiffModel
import Verif.Spec.Tracking
/-
Lemmas about the heap and the operations of `DiffModel`.
-/
namespace KompareDiff2
open Spec

@[simp] theorem Heap.set_cell (h : Heap) (i j : Nat) (d : Diff) :
    (h.set i d).cell j = if j = i then d else h.cell j := rfl

@[simp] theorem Heap.modify_cell (h : Heap) (i j : Nat) (f : Diff → Diff) :
    (h.modify i f).cell j = if j = i then f (h.cell i) else h.cell j := rfl

theorem Heap.modifyAll_cell (f : Diff → Diff) (ids : List Nat) (h : Heap) (hn : ids.Nodup) (j : Nat) :
    (h.modifyAll f ids).cell j = if j ∈ ids then f (h.cell j) else h.cell j := by
  induction ids generalizing h with
  | nil => simp [modifyAll]
  | cons i is ih =>
    rw [List.nodup_cons] at hn
    simp only [modifyAll]
    rw [ih _ hn.2]
    by_cases hj : j = i
    · subst hj; simp [hn.1]
    · simp [hj]

@[simp] theorem Heap.modifyAll_next (f : Diff → Diff) (ids : List Nat) (h : Heap) : (h.modifyAll f ids).next = h.next := by
  induction ids generalizing h with
  | nil => rfl
  | cons i is ih => simp only [modifyAll]; rw [ih]; rfl

theorem Heap.modifyAll_map (f : Diff → Diff) (ids : List Nat) (h : Heap) (hn : ids.Nodup) :
    ids.map (h.modifyAll f ids).cell = (ids.map h.cell).map f := by
  rw [List.map_map]
  apply List.map_congr_left
  intro i hi
  rw [h.modifyAll_cell f ids hn]; simp [hi]

/-- Without `Nodup` the function may be applied several times. -/
theorem Heap.modifyAll_pres (P : Diff → Diff → Prop) (hrefl : ∀ d, P d d) (htrans : ∀ a b c, P a b → P b c → P a c)
    (f : Diff → Diff) (hf : ∀ d, P d (f d)) (ids : List Nat) (h : Heap) (j : Nat) :
    P (h.cell j) ((h.modifyAll f ids).cell j) := by
  induction ids generalizing h with
  | nil => exact hrefl _
  | cons i is ih =>
    simp only [modifyAll]
    refine htrans _ _ _ ?_ (ih _)
    simp only [modify_cell]
    split
    · rename_i hj; subst hj; exact hf _
    · exact hrefl _

/-- The fields of a difference that applying never changes. -/
structure Diff.Same (d e : Diff) : Prop where
  type : e.type = d.type
  sourceLineNo : e.sourceLineNo = d.sourceLineNo
  destLineNo : e.destLineNo = d.destLineNo
  source : e.source = d.source
  dest : e.dest = d.dest
  conflicts : e.conflicts = d.conflicts

theorem Diff.Same.refl (d : Diff) : Diff.Same d d := ⟨rfl, rfl, rfl, rfl, rfl, rfl⟩

theorem Diff.Same.trans {a b c : Diff} (h : Diff.Same a b) (h' : Diff.Same b c) : Diff.Same a c :=
  ⟨h'.type.trans h.type, h'.sourceLineNo.trans h.sourceLineNo, h'.destLineNo.trans h.destLineNo, h'.source.trans h.source,
    h'.dest.trans h.dest, h'.conflicts.trans h.conflicts⟩

/-- `Same`, and the unsaved flag was toggled exactly when the applied flag was. -/
def Diff.Toggled (d e : Diff) : Prop := Diff.Same d e ∧ (e.unsaved ^^ d.unsaved) = (e.applied ^^ d.applied)

theorem Diff.Toggled.refl (d : Diff) : Diff.Toggled d d := ⟨.refl d, by simp⟩

theorem Diff.Toggled.trans {a b c : Diff} (h : Diff.Toggled a b) (h' : Diff.Toggled b c) : Diff.Toggled a c := by
  refine ⟨h.1.trans h'.1, ?_⟩
  have h1 := h.2
  have h2 := h'.2
  revert h1 h2
  cases a.unsaved <;> cases b.unsaved <;> cases c.unsaved <;> cases a.applied <;> cases b.applied <;> cases c.applied <;> simp

theorem Diff.toggled_apply (d : Diff) (b : Bool) : Diff.Toggled d (d.apply b).1 := by
  unfold Diff.apply
  split
  · exact .refl d
  · rename_i h
    refine ⟨⟨rfl, rfl, rfl, rfl, rfl, rfl⟩, ?_⟩
    revert h
    cases d.unsaved <;> cases d.applied <;> cases b <;> simp

theorem Diff.toggled_applyQuietly (d : Diff) (b : Bool) : Diff.Toggled d (d.applyQuietly b) := by
  unfold Diff.applyQuietly
  split
  · exact .refl d
  · rename_i h
    refine ⟨⟨rfl, rfl, rfl, rfl, rfl, rfl⟩, ?_⟩
    revert h
    cases d.unsaved <;> cases d.applied <;> cases b <;> simp

theorem toggled_slot (m : DModel) (h : Heap) (i j : Nat) :
    Diff.Toggled (h.cell j) ((m.slotDifferenceApplied h i).cell j) := by
  unfold DModel.slotDifferenceApplied
  refine Heap.modifyAll_pres Diff.Toggled (fun _ => .refl _) (fun _ _ _ a b => .trans a b) _ ?_ _ _ _
  intro d
  split
  · exact ⟨⟨rfl, rfl, rfl, rfl, rfl, rfl⟩, by simp⟩
  · exact .refl _

theorem toggled_direct (m : DModel) (h : Heap) (i j : Nat) (b : Bool) :
    Diff.Toggled (h.cell j) ((m.applyDirect h i b).cell j) := by
  have h1 : Diff.Toggled (h.cell j) ((h.set i ((h.cell i).apply b).1).cell j) := by
    simp only [Heap.set_cell]
    split
    · rename_i hj; subst hj; exact Diff.toggled_apply _ _
    · exact .refl _
  unfold DModel.applyDirect
  dsimp only
  split
  · exact h1.trans (toggled_slot _ _ _ _)
  · exact h1

theorem toggled_applyAllLoop (b : Bool) (ids : List Nat) (h : Heap) (t : Int) (j : Nat) :
    Diff.Toggled (h.cell j) ((applyAllLoop b h t ids).cell j) := by
  induction ids generalizing h t with
  | nil => exact .refl _
  | cons i is ih =>
    simp only [applyAllLoop]
    have h1 : Diff.Toggled (h.cell j) ((h.modify i (fun d => { d with tracking := d.tracking + t })).cell j) := by
      simp only [Heap.modify_cell]
      split
      · rename_i hj; subst hj; exact ⟨⟨rfl, rfl, rfl, rfl, rfl, rfl⟩, by simp⟩
      · exact .refl _
    split
    · exact h1.trans (ih _ _)
    · refine (h1.trans ?_).trans (ih _ _)
      rw [Heap.modify_cell _ _ _ (fun d => d.applyQuietly b)]
      split
      · rename_i hj; subst hj; exact Diff.toggled_applyQuietly _ _
      · exact .refl _

/-- What any single call other than `save` does to the objects. -/
theorem toggled_op {op : MOp} (hop : op ≠ .save) {s s' : DModel × Heap} (h : op.run s = Res.ok s') (j : Nat) :
    Diff.Toggled (s.2.cell j) (s'.2.cell j) := by
  cases op with
  | first => simp only [MOp.run, Res.bind_eq_ok] at h; obtain ⟨r, _, h2⟩ := h; cases h2; exact .refl _
  | last => simp only [MOp.run, Res.bind_eq_ok] at h; obtain ⟨r, _, h2⟩ := h; cases h2; exact .refl _
  | next => simp only [MOp.run, Res.bind_eq_ok] at h; obtain ⟨r, _, h2⟩ := h; cases h2; exact .refl _
  | prev => simp only [MOp.run, Res.bind_eq_ok] at h; obtain ⟨r, _, h2⟩ := h; cases h2; exact .refl _
  | select p => simp only [MOp.run] at h; cases h; exact .refl _
  | apply b =>
    simp only [MOp.run, DModel.applyDifference] at h
    split at h
    · cases h
    · split at h
      · cases h; exact .refl _
      · cases h; exact toggled_direct _ _ _ _ _
  | applyAll b => simp only [MOp.run, DModel.applyAllDifferences] at h; cases h; exact toggled_applyAllLoop _ _ _ _ _
  | direct i b => simp only [MOp.run] at h; cases h; exact toggled_direct _ _ _ _ _
  | save => exact absurd rfl hop

theorem same_op {op : MOp} {s s' : DModel × Heap} (h : op.run s = Res.ok s') (j : Nat) :
    Diff.Same (s.2.cell j) (s'.2.cell j) := by
  by_cases hop : op = .save
  · subst hop
    simp only [MOp.run] at h; cases h
    exact Heap.modifyAll_pres Diff.Same (fun _ => .refl _) (fun _ _ _ a b => .trans a b)
      (fun d => d.setUnsaved false) (fun _ => ⟨rfl, rfl, rfl, rfl, rfl, rfl⟩) _ _ _
  · exact (toggled_op hop h j).1

/-! ### selection -/

/-- A call on the model leaves its list of differences and its connections alone. -/
theorem diffs_op {op : MOp} {s s' : DModel × Heap} (h : op.run s = Res.ok s') :
    s'.1.differences = s.1.differences ∧ s'.1.connected = s.1.connected := by
  cases op with
  | first =>
    simp only [MOp.run, DModel.firstDifference, Res.bind_eq_ok] at h
    obtain ⟨r, ⟨a, _, h1⟩, h2⟩ := h; cases h1; cases h2; exact ⟨rfl, rfl⟩
  | last =>
    simp only [MOp.run, DModel.lastDifference, Res.bind_eq_ok] at h
    obtain ⟨r, ⟨a, _, h1⟩, h2⟩ := h; cases h1; cases h2; exact ⟨rfl, rfl⟩
  | next =>
    simp only [MOp.run, DModel.nextDifference, Res.bind_eq_ok] at h
    obtain ⟨r, h1, h2⟩ := h; cases h2
    split at h1
    · simp only [Res.bind_eq_ok] at h1; obtain ⟨a, _, h1⟩ := h1; cases h1; exact ⟨rfl, rfl⟩
    · cases h1; exact ⟨rfl, rfl⟩
  | prev =>
    simp only [MOp.run, DModel.prevDifference, Res.bind_eq_ok] at h
    obtain ⟨r, h1, h2⟩ := h; cases h2
    split at h1
    · simp only [Res.bind_eq_ok] at h1; obtain ⟨a, _, h1⟩ := h1; cases h1; exact ⟨rfl, rfl⟩
    · cases h1; exact ⟨rfl, rfl⟩
  | select p =>
    simp only [MOp.run, DModel.setSelectedDifference] at h
    cases h
    dsimp only
    split
    · split
      · exact ⟨rfl, rfl⟩
      · split <;> exact ⟨rfl, rfl⟩
    · exact ⟨rfl, rfl⟩
  | apply b =>
    simp only [MOp.run, DModel.applyDifference] at h
    split at h
    · cases h
    · split at h
      · cases h; exact ⟨rfl, rfl⟩
      · cases h; exact ⟨rfl, rfl⟩
  | applyAll b => simp only [MOp.run, DModel.applyAllDifferences] at h; cases h; exact ⟨rfl, rfl⟩
  | direct i b => simp only [MOp.run] at h; cases h; exact ⟨rfl, rfl⟩
  | save => simp only [MOp.run] at h; cases h; exact ⟨rfl, rfl⟩

theorem atR_eq_ok {α} {l : List α} {i : Int} {a : α} (h : atR l i = Res.ok a) : 0 ≤ i ∧ l[i.toNat]? = some a := by
  unfold atR at h
  split at h
  · cases h
  · refine ⟨by omega, ?_⟩
    split at h
    · rename_i x hx; cases h; exact hx
    · cases h

theorem indexOfI_spec (l : List Nat) (i : Nat) :
    (indexOfI l i = -1 ∧ i ∉ l) ∨ (0 ≤ indexOfI l i ∧ l[(indexOfI l i).toNat]? = some i) := by
  induction l with
  | nil => left; simp [indexOfI]
  | cons x l ih =>
    simp only [indexOfI]
    by_cases hx : x = i
    · right; simp [hx]
    · rw [if_neg hx]
      rcases ih with ⟨h1, h2⟩ | ⟨h1, h2⟩
      · left; simp [h1, h2]; exact fun h => hx h.symm
      · right
        rw [if_neg (by omega)]
        refine ⟨by omega, ?_⟩
        rw [show (indexOfI l i + 1).toNat = (indexOfI l i).toNat + 1 by omega]
        simpa using h2

/-- The selected difference, if any, is the one at the current index. -/
def DModel.SelOk (m : DModel) : Prop := ∀ i, m.selected = some i → 0 ≤ m.diffIndex ∧ m.differences[m.diffIndex.toNat]? = some i

theorem selOk_op {op : MOp} {s s' : DModel × Heap} (h : op.run s = Res.ok s') (hs : s.1.SelOk) : s'.1.SelOk := by
  cases op with
  | first =>
    simp only [MOp.run, DModel.firstDifference, Res.bind_eq_ok] at h
    obtain ⟨r, ⟨a, ha, h1⟩, h2⟩ := h; cases h1; cases h2
    intro i hi; simp at hi; subst hi
    exact ⟨by simp, by simpa using (atR_eq_ok ha).2⟩
  | last =>
    simp only [MOp.run, DModel.lastDifference, Res.bind_eq_ok] at h
    obtain ⟨r, ⟨a, ha, h1⟩, h2⟩ := h; cases h1; cases h2
    intro i hi; simp at hi; subst hi
    exact atR_eq_ok ha
  | next =>
    simp only [MOp.run, DModel.nextDifference, Res.bind_eq_ok] at h
    obtain ⟨r, h1, h2⟩ := h; cases h2
    split at h1
    · simp only [Res.bind_eq_ok] at h1; obtain ⟨a, ha, h1⟩ := h1; cases h1
      intro i hi; simp at hi; subst hi
      exact atR_eq_ok ha
    · cases h1; intro i hi; cases hi
  | prev =>
    simp only [MOp.run, DModel.prevDifference, Res.bind_eq_ok] at h
    obtain ⟨r, h1, h2⟩ := h; cases h2
    split at h1
    · simp only [Res.bind_eq_ok] at h1; obtain ⟨a, ha, h1⟩ := h1; cases h1
      intro i hi; simp at hi; subst hi
      exact atR_eq_ok ha
    · cases h1; intro i hi; cases hi
  | select p =>
    simp only [MOp.run, DModel.setSelectedDifference] at h
    cases h
    dsimp only
    split
    · split
      · exact hs
      · rename_i k _
        split
        · exact hs
        · rename_i hne
          intro i hi; simp at hi; subst hi
          rcases indexOfI_spec s.1.differences k with h | h
          · exact absurd h.1 hne
          · exact h
    · exact hs
  | apply b =>
    simp only [MOp.run, DModel.applyDifference] at h
    split at h
    · cases h
    · split at h
      · cases h; exact hs
      · cases h; exact hs
  | applyAll b => simp only [MOp.run, DModel.applyAllDifferences] at h; cases h; exact hs
  | direct i b => simp only [MOp.run] at h; cases h; exact hs
  | save => simp only [MOp.run] at h; cases h; exact hs

theorem DModel.SelOk.mem {m : DModel} (h : m.SelOk) {i} (hi : m.selected = some i) : i ∈ m.differences :=
  List.mem_of_getElem? (h i hi).2

/-! ### tracking -/

theorem nodup_of_increasing {h : Heap} {ids : List Nat}
    (hp : (ids.map h.cell).Pairwise (fun d d' => d.destLineNo < d'.destLineNo)) : ids.Nodup := by
  rw [List.pairwise_map] at hp
  refine hp.imp ?_
  intro a b hab heq
  subst heq
  omega

theorem tracks_append (off : Int) (a b : List Diff) :
    Tracks off (a ++ b) ↔ Tracks off a ∧ Tracks (off + (a.map growth).sum) b := by
  induction a generalizing off with
  | nil => simp [Tracks]
  | cons d a ih =>
    simp only [List.cons_append, Tracks, ih, List.map_cons, List.sum_cons]
    rw [and_assoc, Int.add_assoc]

theorem tracks_shift (off k : Int) (ds : List Diff) (h : Tracks off ds) :
    Tracks (off + k) (ds.map (fun d => { d with tracking := d.tracking + k })) := by
  induction ds generalizing off with
  | nil => trivial
  | cons d ds ih =>
    simp only [List.map_cons, Tracks] at h ⊢
    refine ⟨by rw [h.1]; omega, ?_⟩
    have := ih _ h.2
    rw [show off + k + growth { d with tracking := d.tracking + k } = off + growth d + k by
      simp only [growth, Diff.slc, Diff.dlc]; omega]
    exact this

/-- Effect of toggling the difference at one position. -/
theorem tracks_toggle (off : Int) (a b : List Diff) (d : Diff) (f : Bool)
    (hp : (a ++ d :: b).Pairwise (fun d d' => d.destLineNo < d'.destLineNo)) (h : Tracks off (a ++ d :: b)) (hf : d.applied ≠ f) :
    Tracks off ((a ++ (d.apply f).1 :: b).map
      (fun c => if c.destLineNo > (d.apply f).1.destLineNo then { c with tracking := c.tracking + (d.apply f).1.delta } else c)) := by
  have hd : (d.apply f).1 = { d with applied := f, unsaved := !d.unsaved } := by
    unfold Diff.apply; rw [if_neg (fun h => hf h.symm)]
  rw [hd]
  rw [tracks_append] at h
  obtain ⟨h1, h2⟩ := h
  rw [List.pairwise_append] at hp
  obtain ⟨_, hp2, hp3⟩ := hp
  rw [List.pairwise_cons] at hp2
  rw [List.map_append, List.map_cons]
  have ha : a.map (fun c => if c.destLineNo > d.destLineNo then { c with tracking := c.tracking + Diff.delta { d with applied := f, unsaved := !d.unsaved } } else c) = a := by
    rw [List.map_congr_left (g := id)]
    · simp
    · intro c hc
      have := hp3 c hc d (by simp)
      rw [if_neg (by omega)]; rfl
  have hb : b.map (fun c => if c.destLineNo > d.destLineNo then { c with tracking := c.tracking + Diff.delta { d with applied := f, unsaved := !d.unsaved } } else c)
      = b.map (fun c => { c with tracking := c.tracking + Diff.delta { d with applied := f, unsaved := !d.unsaved } }) := by
    apply List.map_congr_left
    intro c hc
    have := hp2.1 c hc
    rw [if_pos (by omega)]
  simp only at ha hb ⊢
  rw [ha, hb, if_neg (by simp), tracks_append]
  refine ⟨h1, ?_⟩
  simp only [Tracks] at h2 ⊢
  refine ⟨h2.1, ?_⟩
  have := tracks_shift _ (Diff.delta { d with applied := f, unsaved := !d.unsaved }) _ h2.2
  have e : off + (a.map growth).sum + growth { d with applied := f, unsaved := !d.unsaved } =
      off + (a.map growth).sum + growth d + Diff.delta { d with applied := f, unsaved := !d.unsaved } := by
    simp only [growth, Diff.delta, Diff.slc, Diff.dlc]
    revert hf
    cases d.applied <;> cases f <;> simp <;> omega
  rw [e]; exact this

theorem tracks_direct (m : DModel) (h : Heap) (i : Nat) (b : Bool) (hi : i ∈ m.differences) (hc : i ∈ m.connected)
    (hp : (m.differences.map h.cell).Pairwise (fun d d' => d.destLineNo < d'.destLineNo))
    (ht : Tracks 0 (m.differences.map h.cell)) : Tracks 0 (m.differences.map (m.applyDirect h i b).cell) := by
  have hn := nodup_of_increasing hp
  by_cases hb : (h.cell i).applied = b
  · have h1 : (h.cell i).apply b = (h.cell i, false) := by simp [Diff.apply, hb]
    have h2 : (m.applyDirect h i b).cell = h.cell := by
      funext j
      simp only [DModel.applyDirect, h1]
      simp; intro hj; rw [hj]
    rw [h2]; exact ht
  · obtain ⟨A, B, hAB⟩ := List.append_of_mem hi
    have h1 : ((h.cell i).apply b).2 = true := by
      unfold Diff.apply; rw [if_neg (fun h => hb h.symm)]
    unfold DModel.applyDirect
    simp only [h1, hc, true_and, if_true, DModel.slotDifferenceApplied]
    rw [Heap.modifyAll_map _ _ _ hn]
    have hmap : m.differences.map (h.set i ((h.cell i).apply b).1).cell = A.map h.cell ++ ((h.cell i).apply b).1 :: B.map h.cell := by
      rw [hAB] at hn ⊢
      rw [List.map_append, List.map_cons]
      have := List.nodup_append.1 hn
      congr 1
      · apply List.map_congr_left
        intro j hj
        have : j ≠ i := fun e => by subst e; exact this.2.2 j hj j (by simp) rfl
        simp [this]
      · congr 1
        · simp
        · apply List.map_congr_left
          intro j hj
          have : j ≠ i := fun e => by subst e; exact (List.nodup_cons.1 this.2.1).1 hj
          simp [this]
    rw [hmap]
    have hds : m.differences.map h.cell = A.map h.cell ++ h.cell i :: B.map h.cell := by rw [hAB]; simp
    rw [hds] at hp ht
    have := tracks_toggle 0 _ _ _ b hp ht hb
    simp only [Heap.set_cell, if_true]
    exact this

theorem tracks_applyAllLoop (b : Bool) (ids : List Nat) (h : Heap) (off t : Int) (hn : ids.Nodup)
    (ht : Tracks off (ids.map h.cell)) : Tracks (off + t) (ids.map (applyAllLoop b h t ids).cell) := by
  induction ids generalizing h off t with
  | nil => trivial
  | cons i is ih =>
    rw [List.nodup_cons] at hn
    simp only [List.map_cons, Tracks] at ht
    -- frame: the recursive call does not touch i
    have frame : ∀ (ids : List Nat) (h : Heap) (t : Int), i ∉ ids → (applyAllLoop b h t ids).cell i = h.cell i := by
      intro ids
      induction ids with
      | nil => intros; rfl
      | cons k ks ihk =>
        intro h t hni
        simp only [List.mem_cons, not_or] at hni
        simp only [applyAllLoop]
        split
        · rw [ihk _ _ hni.2]; simp [hni.1]
        · rw [ihk _ _ hni.2]; simp [hni.1]
    have hrest : ∀ h' : Heap, (∀ j ∈ is, h'.cell j = h.cell j) → is.map h'.cell = is.map h.cell :=
      fun h' hj => List.map_congr_left hj
    simp only [applyAllLoop, List.map_cons, Tracks]
    split
    · rename_i hap
      rw [frame _ _ _ hn.1]
      simp only [Heap.modify_cell, if_true] at hap ⊢
      refine ⟨by rw [ht.1]; omega, ?_⟩
      have := ih (h.modify i (fun d => { d with tracking := d.tracking + t })) (off + growth (h.cell i)) t hn.2
        (by rw [hrest _ (fun j hj => by
              have : j ≠ i := fun e => by subst e; exact hn.1 hj
              simp [this])]; exact ht.2)
      have e : off + t + growth { h.cell i with tracking := (h.cell i).tracking + t } = off + growth (h.cell i) + t := by
        simp only [growth, Diff.slc, Diff.dlc]; omega
      rw [e]; exact this
    · rename_i hap
      rw [frame _ _ _ hn.1]
      simp only [Heap.modify_cell, if_true] at hap ⊢
      have haq : Diff.applyQuietly { h.cell i with tracking := (h.cell i).tracking + t } b =
          { h.cell i with tracking := (h.cell i).tracking + t, unsaved := !(h.cell i).unsaved, applied := b } := by
        unfold Diff.applyQuietly; rw [if_neg hap]
      rw [haq]
      refine ⟨by simp only; rw [ht.1]; omega, ?_⟩
      generalize hδ : Diff.delta { h.cell i with tracking := (h.cell i).tracking + t, unsaved := !(h.cell i).unsaved, applied := b } = δ
      have := ih ((h.modify i (fun d => { d with tracking := d.tracking + t })).modify i (fun d => d.applyQuietly b))
        (off + growth (h.cell i)) (t + δ) hn.2
        (by rw [hrest _ (fun j hj => by
              have : j ≠ i := fun e => by subst e; exact hn.1 hj
              simp [this])]; exact ht.2)
      have e : off + t + growth { h.cell i with tracking := (h.cell i).tracking + t, unsaved := !(h.cell i).unsaved, applied := b } =
          off + growth (h.cell i) + (t + δ) := by
        rw [← hδ]
        simp only [growth, Diff.delta, Diff.slc, Diff.dlc]
        revert hap
        cases (h.cell i).applied <;> cases b <;> simp <;> omega
      rw [e]; exact this

theorem tracks_congr (off : Int) (f g : Nat → Diff) (ids : List Nat)
    (h : ∀ i ∈ ids, (g i).tracking = (f i).tracking ∧ (g i).sourceLineNo = (f i).sourceLineNo ∧ growth (g i) = growth (f i))
    (ht : Tracks off (ids.map f)) : Tracks off (ids.map g) := by
  induction ids generalizing off with
  | nil => trivial
  | cons i is ih =>
    simp only [List.map_cons, Tracks] at ht ⊢
    obtain ⟨a, b, c⟩ := h i (by simp)
    rw [a, b, c]
    exact ⟨ht.1, ih _ (fun j hj => h j (by simp [hj])) ht.2⟩

/-- What a client may assume about a model between calls. -/
structure MInv (s : DModel × Heap) : Prop where
  increasing : (s.1.differences.map s.2.cell).Pairwise (fun d d' => d.destLineNo < d'.destLineNo)
  conn : ∀ i ∈ s.1.differences, i ∈ s.1.connected
  tracks : Tracks 0 (s.1.differences.map s.2.cell)
  sel : s.1.SelOk

theorem increasing_op {op : MOp} {s s' : DModel × Heap} (h : op.run s = Res.ok s')
    (hp : (s.1.differences.map s.2.cell).Pairwise (fun d d' => d.destLineNo < d'.destLineNo)) :
    (s'.1.differences.map s'.2.cell).Pairwise (fun d d' => d.destLineNo < d'.destLineNo) := by
  rw [(diffs_op h).1]
  rw [List.pairwise_map] at hp ⊢
  refine hp.imp ?_
  intro a b hab
  rw [(same_op h a).destLineNo, (same_op h b).destLineNo]; exact hab

theorem mInv_op {op : MOp} {s s' : DModel × Heap} (hop : ∀ i b, op = .direct i b → i ∈ s.1.differences)
    (h : op.run s = Res.ok s') (hs : MInv s) : MInv s' := by
  refine ⟨increasing_op h hs.increasing, ?_, ?_, selOk_op h hs.sel⟩
  · rw [(diffs_op h).1, (diffs_op h).2]; exact hs.conn
  · have hd := (diffs_op h).1
    have hn := nodup_of_increasing hs.increasing
    rw [hd]
    cases op with
    | first => simp only [MOp.run, Res.bind_eq_ok] at h; obtain ⟨r, _, h2⟩ := h; cases h2; exact hs.tracks
    | last => simp only [MOp.run, Res.bind_eq_ok] at h; obtain ⟨r, _, h2⟩ := h; cases h2; exact hs.tracks
    | next => simp only [MOp.run, Res.bind_eq_ok] at h; obtain ⟨r, _, h2⟩ := h; cases h2; exact hs.tracks
    | prev => simp only [MOp.run, Res.bind_eq_ok] at h; obtain ⟨r, _, h2⟩ := h; cases h2; exact hs.tracks
    | select p => simp only [MOp.run] at h; cases h; exact hs.tracks
    | apply b =>
      simp only [MOp.run, DModel.applyDifference] at h
      split at h
      · cases h
      · rename_i i hi
        split at h
        · cases h; exact hs.tracks
        · cases h
          have := hs.sel.mem hi
          exact tracks_direct _ _ _ _ this (hs.conn _ this) hs.increasing hs.tracks
    | applyAll b =>
      simp only [MOp.run, DModel.applyAllDifferences] at h; cases h
      have := tracks_applyAllLoop b _ s.2 0 0 hn hs.tracks
      simpa using this
    | direct i b =>
      simp only [MOp.run] at h; cases h
      have := hop i b rfl
      exact tracks_direct _ _ _ _ this (hs.conn _ this) hs.increasing hs.tracks
    | save =>
      simp only [MOp.run] at h; cases h
      refine tracks_congr 0 _ _ _ ?_ hs.tracks
      intro i hi
      rw [Heap.modifyAll_cell _ _ _ hn, if_pos hi]
      exact ⟨rfl, rfl, rfl⟩

theorem mInv_run {ops : List MOp} {s s' : DModel × Heap} (hop : ∀ i b, MOp.direct i b ∈ ops → i ∈ s.1.differences)
    (h : runOps ops s = Res.ok s') (hs : MInv s) : MInv s' ∧ s'.1.differences = s.1.differences := by
  induction ops generalizing s with
  | nil => simp only [runOps] at h; cases h; exact ⟨hs, rfl⟩
  | cons op ops ih =>
    simp only [runOps, Res.bind_eq_ok] at h
    obtain ⟨s1, h1, h2⟩ := h
    have hd := (diffs_op h1).1
    have := ih (fun i b hi => by rw [hd]; exact hop i b (by simp [hi])) h2
      (mInv_op (fun i b e => hop i b (by simp [e])) h1 hs)
    exact ⟨this.1, this.2.trans hd⟩

theorem same_run {ops : List MOp} {s s' : DModel × Heap} (h : runOps ops s = Res.ok s') (j : Nat) :
    Diff.Same (s.2.cell j) (s'.2.cell j) := by
  induction ops generalizing s with
  | nil => simp only [runOps] at h; cases h; exact .refl _
  | cons op ops ih =>
    simp only [runOps, Res.bind_eq_ok] at h
    obtain ⟨s1, h1, h2⟩ := h
    exact (same_op h1 j).trans (ih h2)

theorem toggled_run {ops : List MOp} {s s' : DModel × Heap} (hsave : MOp.save ∉ ops) (h : runOps ops s = Res.ok s') (j : Nat) :
    Diff.Toggled (s.2.cell j) (s'.2.cell j) := by
  induction ops generalizing s with
  | nil => simp only [runOps] at h; cases h; exact .refl _
  | cons op ops ih =>
    simp only [List.mem_cons, not_or] at hsave
    simp only [runOps, Res.bind_eq_ok] at h
    obtain ⟨s1, h1, h2⟩ := h
    exact (toggled_op (fun e => hsave.1 e.symm) h1 j).trans (ih hsave.2 h2)

theorem diffs_run {ops : List MOp} {s s' : DModel × Heap} (h : runOps ops s = Res.ok s') :
    s'.1.differences = s.1.differences := by
  induction ops generalizing s with
  | nil => simp only [runOps] at h; cases h; rfl
  | cons op ops ih =>
    simp only [runOps, Res.bind_eq_ok] at h
    obtain ⟨s1, h1, h2⟩ := h
    rw [ih h2, (diffs_op h1).1]

theorem selOk_run {ops : List MOp} {s s' : DModel × Heap} (h : runOps ops s = Res.ok s') (hs : s.1.SelOk) : s'.1.SelOk := by
  induction ops generalizing s with
  | nil => simp only [runOps] at h; cases h; exact hs
  | cons op ops ih =>
    simp only [runOps, Res.bind_eq_ok] at h
    obtain ⟨s1, h1, h2⟩ := h
    exact ih h2 (selOk_op h1 hs)

theorem runOps_append (a b : List MOp) (s : DModel × Heap) : runOps (a ++ b) s = (runOps a s >>= runOps b) := by
  induction a generalizing s with
  | nil => rfl
  | cons op a ih =>
    simp only [List.cons_append, runOps]
    cases op.run s with
    | ok s1 => simp only [Res.bind_ok]; exact ih s1
    | ub => rfl
    | hang => rfl

end KompareDiff2

namespace KompareDiff2
open Spec

/-! ### applied flags -/

theorem applied_slot (m : DModel) (h : Heap) (i j : Nat) :
    ((m.slotDifferenceApplied h i).cell j).applied = (h.cell j).applied := by
  unfold DModel.slotDifferenceApplied
  refine Heap.modifyAll_pres (fun d e => e.applied = d.applied) (fun _ => rfl) (fun _ _ _ a b => b.trans a) _ ?_ _ _ _
  intro d
  split <;> rfl

theorem applied_direct (m : DModel) (h : Heap) (i j : Nat) (b : Bool) :
    ((m.applyDirect h i b).cell j).applied = if j = i then b else (h.cell j).applied := by
  have h1 : ((h.set i ((h.cell i).apply b).1).cell j).applied = if j = i then b else (h.cell j).applied := by
    simp only [Heap.set_cell]
    split
    · unfold Diff.apply
      split
      · rename_i e; exact e.symm
      · rfl
    · rfl
  unfold DModel.applyDirect
  dsimp only
  split
  · rw [applied_slot]; exact h1
  · exact h1

theorem applied_applyAllLoop (b : Bool) (ids : List Nat) (h : Heap) (t : Int) (j : Nat) :
    ((applyAllLoop b h t ids).cell j).applied = if j ∈ ids then b else (h.cell j).applied := by
  induction ids generalizing h t with
  | nil => simp [applyAllLoop]
  | cons i is ih =>
    simp only [applyAllLoop]
    split
    · rename_i hap
      rw [ih]
      simp only [Heap.modify_cell, if_true] at hap ⊢
      by_cases hj : j = i
      · subst hj; simp [hap]
      · simp [hj]
    · rename_i hap
      rw [ih]
      simp only [Heap.modify_cell, if_true] at hap ⊢
      by_cases hj : j = i
      · subst hj
        simp only [if_true, List.mem_cons, true_or]
        split
        · rfl
        · unfold Diff.applyQuietly; rw [if_neg hap]
      · simp [hj]

/-- Number of applied differences of a model. -/
def appliedNumber (s : DModel × Heap) : Nat := (s.1.differences.filter (fun i => (s.2.cell i).applied)).length

theorem filter_toggle (ids : List Nat) (f g : Nat → Bool) (i : Nat) (hn : ids.Nodup) (hi : i ∈ ids)
    (hg : ∀ j, j ≠ i → g j = f j) (hf : f i = false) (hgi : g i = true) :
    (ids.filter g).length = (ids.filter f).length + 1 := by
  induction ids with
  | nil => cases hi
  | cons k ks ih =>
    rw [List.nodup_cons] at hn
    rcases List.mem_cons.1 hi with rfl | hi'
    · rw [List.filter_cons_of_pos hgi, List.filter_cons_of_neg (by simp [hf])]
      have : ks.filter g = ks.filter f := List.filter_congr (fun j hj => hg j (fun e => hn.1 (e ▸ hj)))
      rw [this]; simp
    · have hk : k ≠ i := fun e => hn.1 (e ▸ hi')
      have := ih hn.2 hi'
      by_cases hfk : f k = true
      · rw [List.filter_cons_of_pos (by rw [hg k hk]; exact hfk), List.filter_cons_of_pos hfk]
        simp [this]
      · rw [List.filter_cons_of_neg (by rw [hg k hk]; exact hfk), List.filter_cons_of_neg hfk]
        exact this

theorem count_op {op : MOp} (hop : ∀ i b, op ≠ .direct i b) {s s' : DModel × Heap} (hn : s.1.differences.Nodup)
    (hsel : s.1.SelOk) (h : op.run s = Res.ok s') (hc : s.1.appliedCount = appliedNumber s) :
    s'.1.appliedCount = appliedNumber s' := by
  unfold appliedNumber at *
  rw [(diffs_op h).1]
  cases op with
  | first =>
    simp only [MOp.run, DModel.firstDifference, Res.bind_eq_ok] at h
    obtain ⟨r, ⟨a, _, h1⟩, h2⟩ := h; cases h1; cases h2; exact hc
  | last =>
    simp only [MOp.run, DModel.lastDifference, Res.bind_eq_ok] at h
    obtain ⟨r, ⟨a, _, h1⟩, h2⟩ := h; cases h1; cases h2; exact hc
  | next =>
    simp only [MOp.run, DModel.nextDifference, Res.bind_eq_ok] at h
    obtain ⟨r, h1, h2⟩ := h; cases h2
    split at h1
    · simp only [Res.bind_eq_ok] at h1; obtain ⟨a, _, h1⟩ := h1; cases h1; exact hc
    · cases h1; exact hc
  | prev =>
    simp only [MOp.run, DModel.prevDifference, Res.bind_eq_ok] at h
    obtain ⟨r, h1, h2⟩ := h; cases h2
    split at h1
    · simp only [Res.bind_eq_ok] at h1; obtain ⟨a, _, h1⟩ := h1; cases h1; exact hc
    · cases h1; exact hc
  | select p =>
    simp only [MOp.run, DModel.setSelectedDifference] at h
    cases h
    dsimp only
    split
    · split
      · exact hc
      · split <;> exact hc
    · exact hc
  | apply b =>
    simp only [MOp.run, DModel.applyDifference] at h
    split at h
    · cases h
    · rename_i i hi
      have hmem := hsel.mem hi
      split at h
      · cases h; exact hc
      · rename_i hne
        cases h
        dsimp only
        rw [hc]
        cases b with
        | true =>
          have hf : (s.2.cell i).applied = false := by simpa using hne
          have := filter_toggle s.1.differences (fun j => (s.2.cell j).applied) (fun j => ((s.1.applyDirect s.2 i true).cell j).applied) i hn hmem
            (fun j hj => by simp only [applied_direct, hj, if_false]) hf (by simp only [applied_direct, if_true])
          rw [this]; simp [hf]
        | false =>
          have hf : (s.2.cell i).applied = true := by simpa using hne
          have := filter_toggle s.1.differences (fun j => ((s.1.applyDirect s.2 i false).cell j).applied) (fun j => (s.2.cell j).applied) i hn hmem
            (fun j hj => by simp only [applied_direct, hj, if_false]) (by simp only [applied_direct, if_true]) hf
          rw [this]; simp [hf]
  | applyAll b =>
    simp only [MOp.run, DModel.applyAllDifferences] at h; cases h
    dsimp only
    cases b with
    | true =>
      rw [List.filter_eq_self.2 (fun i hi => by simp [applied_applyAllLoop, hi])]; simp
    | false =>
      rw [List.filter_eq_nil_iff.2 (fun i hi => by simp [applied_applyAllLoop, hi])]; simp
  | direct i b => exact absurd rfl (hop i b)
  | save =>
    simp only [MOp.run] at h; cases h
    dsimp only
    rw [hc]
    have : ∀ i, ((s.2.modifyAll (fun d => d.setUnsaved false) s.1.differences).cell i).applied = (s.2.cell i).applied :=
      fun i => Heap.modifyAll_pres (fun d e => e.applied = d.applied) (fun _ => rfl) (fun _ _ _ a b => b.trans a)
        (fun d => d.setUnsaved false) (fun _ => rfl) _ _ _
    simp only [this]

theorem tracks_get (off : Int) (ds : List Diff) (k : Nat) (d : Diff) (h : Tracks off ds) (hk : ds[k]? = some d) :
    d.tracking = d.sourceLineNo + (off + ((ds.take k).map growth).sum) := by
  induction ds generalizing off k with
  | nil => simp at hk
  | cons x ds ih =>
    simp only [Tracks] at h
    cases k with
    | zero => simp at hk; subst hk; rw [h.1]; simp
    | succ k =>
      simp at hk
      have := ih _ _ h.2 hk
      rw [this]
      simp only [List.take_succ_cons, List.map_cons, List.sum_cons]; omega

theorem tracks_ext (off : Int) (ids : List Nat) (f g : Nat → Diff)
    (hf : Tracks off (ids.map f)) (hg : Tracks off (ids.map g))
    (h : ∀ i ∈ ids, (g i).sourceLineNo = (f i).sourceLineNo ∧ growth (g i) = growth (f i)) :
    ∀ i ∈ ids, (g i).tracking = (f i).tracking := by
  induction ids generalizing off with
  | nil => intro i hi; cases hi
  | cons k ks ih =>
    simp only [List.map_cons, Tracks] at hf hg
    obtain ⟨a, b⟩ := h k (by simp)
    intro i hi
    rcases List.mem_cons.1 hi with rfl | hi
    · rw [hf.1, hg.1, a]
    · rw [b] at hg
      exact ih _ hf.2 hg.2 (fun j hj => h j (by simp [hj])) i hi

end KompareDiff2
