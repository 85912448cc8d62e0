import Verif.Proofs.Saved
import Verif.Proofs.OpenTotal
import Verif.Proofs.Events
import Verif.Spec.EndToEnd
/-
From the diff text to the saved file: proofs.
-/
namespace KompareDiff2
open Spec

/-- The model can be blended with the text `c` and then shows `T` on the other side. -/
structure Blendable (h : Heap) (m : DModel) (c : Str) (T : List Str) : Prop where
  alloc : ∀ i ∈ m.hunkIds, i < h.next
  normal : ∀ k ∈ m.hunks, k.type ≠ .AddedByBlend
  coherent : ∀ k ∈ m.hunks, (k.view h).Coherent
  cover : ∀ i ∈ m.hunkIds, (h.cell i).type ≠ .Unchanged → i ∈ m.differences
  fits : Patches 0 ((m.hunks.map (Hunk.view h)).map HView.edit) (split c) T

theorem Blendable.ext {h h' : Heap} {m m' : DModel} {c : Str} {T : List Str} (r : Blendable h m c T) (h1 : m'.hunks = m.hunks)
    (h2 : m'.differences = m.differences) (h3 : h.Ext h') : Blendable h' m' c T := by
  have hid : m'.hunkIds = m.hunkIds := by unfold DModel.hunkIds; rw [h1]
  have hk : ∀ k ∈ m.hunks, ∀ i ∈ k.diffs, i < h.next := fun k hk i hi =>
    r.alloc i (by rw [DModel.hunkIds, List.mem_flatMap]; exact ⟨k, hk, hi⟩)
  refine ⟨?_, ?_, ?_, ?_, ?_⟩
  · rw [hid]; exact fun i hi => Nat.lt_of_lt_of_le (r.alloc i hi) h3.1
  · rw [h1]; exact r.normal
  · rw [h1]; intro k hk'; rw [Hunk.view_ext h3 k (hk k hk')]; exact r.coherent k hk'
  · rw [hid, h2]; intro i hi; rw [h3.2 i (r.alloc i hi)]; exact r.cover i hi
  · rw [h1, hunks_view_ext h3 hk]; exact r.fits

theorem contiguous_same {h h' : Heap} (hs : ∀ j, Diff.Same (h.cell j) (h'.cell j)) {ids : List Nat} {a b : Int}
    (hc : Contiguous a b (ids.map (fun i => (h.cell i).view))) : Contiguous a b (ids.map (fun i => (h'.cell i).view)) := by
  induction ids generalizing a b with
  | nil => trivial
  | cons i is ih =>
    refine ⟨(hs i).sourceLineNo.trans hc.1, (hs i).destLineNo.trans hc.2.1, ?_⟩
    have e : ((h'.cell i).view).src = ((h.cell i).view).src := by simp [Diff.view, Diff.srcText, (hs i).source]
    have e' : ((h'.cell i).view).dst = ((h.cell i).view).dst := by simp [Diff.view, Diff.dstText, (hs i).dest]
    show Contiguous (a + ((h'.cell i).view).src.length) (b + ((h'.cell i).view).dst.length) _
    rw [e, e']
    exact ih hc.2.2

theorem edit_same {h h' : Heap} (hs : ∀ j, Diff.Same (h.cell j) (h'.cell j)) (k : Hunk Nat) : (k.view h').edit = (k.view h).edit := by
  unfold HView.edit HView.old HView.new
  show Edit.mk _ _ _ = Edit.mk _ _ _
  congr 1
  · exact src_same hs k.diffs
  · exact dst_same hs k.diffs

theorem Blendable.frame {h h' : Heap} {m m' : DModel} {c : Str} {T : List Str} (r : Blendable h m c T) (h1 : m'.hunks = m.hunks)
    (h2 : m'.differences = m.differences) (h3 : ∀ j, Diff.Same (h.cell j) (h'.cell j)) (h4 : h.next ≤ h'.next) : Blendable h' m' c T := by
  have hid : m'.hunkIds = m.hunkIds := by unfold DModel.hunkIds; rw [h1]
  refine ⟨?_, ?_, ?_, ?_, ?_⟩
  · rw [hid]; exact fun i hi => Nat.lt_of_lt_of_le (r.alloc i hi) h4
  · rw [h1]; exact r.normal
  · rw [h1]; intro k hk
    have hc := r.coherent k hk
    refine ⟨contiguous_same h3 hc.1, ?_⟩
    intro v hv ht
    have hd : (k.view h').diffs = k.diffs.map (fun i => (h'.cell i).view) := rfl
    rw [hd, List.mem_map] at hv
    obtain ⟨i, hi, rfl⟩ := hv
    have := hc.2 (h.cell i).view (List.mem_map.2 ⟨i, hi, rfl⟩) ((h3 i).type.symm.trans ht)
    simp only [Diff.view, Diff.srcText, Diff.dstText] at this ⊢
    rw [(h3 i).source, (h3 i).dest]; exact this
  · rw [hid, h2]; intro i hi ht; exact r.cover i hi (fun q => ht ((h3 i).type.trans q))
  · rw [h1]
    have : (m.hunks.map (Hunk.view h')).map HView.edit = (m.hunks.map (Hunk.view h)).map HView.edit := by
      simp only [List.map_map]
      exact List.map_congr_left (fun k _ => edit_same h3 k)
    rw [this]; exact r.fits

/-- Two model objects that agree in what matters here. -/
theorem Ready.congr {h : Heap} {m m' : DModel} {S T : List Str} (r : Ready h m S T) (h1 : m'.hunks = m.hunks) (h2 : m'.differences = m.differences) :
    Ready h m' S T := r.ext h1 h2 (.refl h)

theorem blendFile_ready {s : MLState} {ms : List Nat} (h : Opened s ms) (w : WF s) {m : Nat} (hm : m ∈ ms) {c : Str} {T : List Str}
    (hB : Blendable s.heap (s.store m) c T) :
    ∃ s', s.blendFile m c = Res.ok s' ∧ Opened s' ms ∧ WF s' ∧ Keep s s' ∧ Selected s' ms ∧ s.heap.Ext s'.heap ∧
      (∀ x, x ≠ m → (s'.store x).hunks = (s.store x).hunks) ∧ (∀ x, (s'.store x).source = (s.store x).source) ∧
      Ready s'.heap (s'.store m) (split c) T := by
  obtain ⟨s', m0, d, h1, ho, hw, hk, ha, hot, hh, hhe, hsrc⟩ := blendFile_ok h w hm c
  refine ⟨s', h1, ho, hw, hk, ⟨0, 0, m0, d, ha⟩, ?_, ?_, hsrc, ?_⟩
  · rw [hhe]; exact blend_ext _ _ _
  · intro x hx; exact hot.hunks x (by simpa using hx)
  · rw [hhe]
    exact (blend_ready hB.alloc hB.normal hB.coherent hB.cover hB.fits).congr hh (hk.differences m)

/-- The text blended into a model when a directory is given. -/
def dirOriginal (e : Env) (dir src : Str) : Str :=
  if e.exists_ (if dir.isPrefixOf src then src else e.filePath dir src) then
    e.contents (if dir.isPrefixOf src then src else e.filePath dir src) else []

theorem original_eq (e : Env) (url src : Str) : original e url src = if e.isDir url then dirOriginal e url src else e.contents url := rfl

theorem blendDirLoop_ready (e : Env) (dir : Str) (l : List Nat) {s : MLState} {ms : List Nat} (hl : ∀ m ∈ l, m ∈ ms) (hnd : l.Nodup)
    (h : Opened s ms) (w : WF s) (hs : Selected s ms) (b : Bool) (T : Nat → List Str)
    (hB : ∀ m ∈ l, Blendable s.heap (s.store m) (dirOriginal e dir (s.store m).source) (T m)) :
    ∃ s', MLState.blendDirLoop e dir l s b = Res.ok (s', if l = [] then b else true) ∧ Opened s' ms ∧ WF s' ∧ Keep s s' ∧ Selected s' ms ∧ s.heap.Ext s'.heap ∧
      (∀ x, x ∉ l → (s'.store x).hunks = (s.store x).hunks) ∧ (∀ x, (s'.store x).source = (s.store x).source) ∧
      (∀ m ∈ l, Ready s'.heap (s'.store m) (split (dirOriginal e dir (s.store m).source)) (T m)) := by
  induction l generalizing s b with
  | nil => exact ⟨s, rfl, h, w, .refl s, hs, .refl _, fun _ _ => rfl, fun _ => rfl, fun _ hx => by simp at hx⟩
  | cons m l ih =>
    obtain ⟨s1, h1, o1, w1, k1, sel1, e1, hu1, so1, r1⟩ := blendFile_ready h w (hl m (by simp)) (hB m (by simp))
    have hml : m ∉ l := (List.nodup_cons.1 hnd).1
    obtain ⟨s2, h2, o2, w2, k2, sel2, e2, hu2, so2, r2⟩ := ih (fun x hx => hl x (List.mem_cons_of_mem _ hx)) (List.nodup_cons.1 hnd).2 o1 w1 sel1 true
      (by
        intro x hx
        rw [so1 x]
        exact (hB x (List.mem_cons_of_mem _ hx)).ext (hu1 x (fun q => hml (q ▸ hx))) (k1.differences x) e1)
    refine ⟨s2, ?_, o2, w2, k1.trans k2, sel2, e1.trans e2, ?_, fun x => (so2 x).trans (so1 x), ?_⟩
    · simp only [MLState.blendDirLoop]
      unfold dirOriginal at h1
      rw [h.model (hl m (by simp)), Res.bind_ok, h1, Res.bind_ok, h2]
      simp
    · intro x hx
      rw [hu2 x (fun q => hx (List.mem_cons_of_mem _ q)), hu1 x (fun q => hx (by simp [q]))]
    · intro x hx
      simp only [List.mem_cons] at hx
      rcases hx with rfl | hx
      · exact r1.ext (hu2 x hml) (k2.differences x) e2
      · rw [← so1 x]; exact r2 x hx

/-- Blending: all models of a directory, the only model of a file. -/
theorem blendOriginal_ready (e : Env) {s : MLState} {ms : List Nat} (h : Opened s ms) (w : WF s) (hs : Selected s ms) (url : Str)
    (hu : e.isDir url = true ∨ (e.isDir url = false ∧ e.isFile url = true ∧ ms.length = 1)) (T : Nat → List Str)
    (hB : ∀ m ∈ ms, Blendable s.heap (s.store m) (original e url (s.store m).source) (T m)) :
    ∃ s', s.blendOriginal e url = Res.ok (s', true) ∧ Opened s' ms ∧ WF s' ∧ Keep s s' ∧ Selected s' ms ∧ s.heap.Ext s'.heap ∧
      (∀ x, (s'.store x).source = (s.store x).source) ∧
      (∀ m ∈ ms, Ready s'.heap (s'.store m) (split (original e url (s.store m).source)) (T m)) := by
  unfold MLState.blendOriginal
  rcases hu with hu | ⟨hu, hf, hl⟩
  · rw [if_pos hu, h.list, Res.bind_ok]
    simp only [original_eq, hu, if_true] at hB ⊢
    obtain ⟨s', h1, h2, h3, h4, h5, h6, h7, h8, h9⟩ := blendDirLoop_ready e url ms (fun _ h => h) h.nodup h w hs false T hB
    rw [if_neg h.ne] at h1
    exact ⟨s', h1, h2, h3, h4, h5, h6, h8, h9⟩
  · rw [if_neg (by rw [hu]; simp), if_pos hf, h.list, Res.bind_ok]
    simp only [original_eq, hu, Bool.false_eq_true, if_false] at hB ⊢
    obtain ⟨m, hm⟩ : ∃ m, ms = [m] := by
      cases ms with
      | nil => simp at hl
      | cons m ms =>
        cases ms with
        | nil => exact ⟨m, rfl⟩
        | cons _ _ => simp at hl
    subst hm
    rw [show atR [m] 0 = Res.ok m from rfl, Res.bind_ok]
    obtain ⟨s1, h1, o1, w1, k1, sel1, e1, _, so1, r1⟩ := blendFile_ready h w (m := m) (by simp) (hB m (by simp))
    rw [h1, Res.bind_ok]
    refine ⟨s1, rfl, o1, w1, k1, sel1, e1, so1, ?_⟩
    intro x hx
    simp only [List.mem_singleton] at hx
    subst hx
    exact r1

/-! ### Depth and applied flag -/

/-- The time stamps and revisions of a model. -/
def DModel.marks (m : DModel) : Str × Str × Str × Str := (m.sourceTimestamp, m.sourceRevision, m.destinationTimestamp, m.destinationRevision)

/-- What `setDepthAndApplied` does to the models `l`. -/
structure Depth (i : Info) (l : List Nat) (s s' : MLState) : Prop where
  hunks : ∀ x, (s'.store x).hunks = (s.store x).hunks
  differences : ∀ x, (s'.store x).differences = (s.store x).differences
  cells : ∀ j, Diff.Same (s.heap.cell j) (s'.heap.cell j)
  next : s'.heap.next = s.heap.next
  source : ∀ x, (s'.store x).source = if x ∈ l then lstripSeparators (s.store x).source i.depth else (s.store x).source
  destination : ∀ x, (s'.store x).destination = if x ∈ l then lstripSeparators (s.store x).destination i.depth else (s.store x).destination
  applied : ∀ x ∈ l, ∀ d ∈ (s.store x).differences, (s'.heap.cell d).applied = i.applied
  keeps : ∀ d, (s.heap.cell d).applied = i.applied → (s'.heap.cell d).applied = i.applied
  marks : ∀ x, (s'.store x).marks = (s.store x).marks
  toggled : ∀ j, Diff.Toggled (s.heap.cell j) (s'.heap.cell j)

theorem depth_step (i : Info) (s : MLState) (m : Nat) : Depth i [m] s (MLState.depthAndApplied i s m) := by
  unfold MLState.depthAndApplied
  dsimp only
  generalize hdm : ((s.store m).setSourceFile (lstripSeparators (s.store m).source i.depth)).setDestinationFile _ = dm
  have e1 : dm.hunks = (s.store m).hunks := by rw [← hdm]; rfl
  have e2 : dm.differences = (s.store m).differences := by rw [← hdm]; rfl
  have e3 : dm.source = lstripSeparators (s.store m).source i.depth := by rw [← hdm]; rfl
  have e4 : dm.destination = lstripSeparators (s.store m).destination i.depth := by rw [← hdm]; rfl
  have hop : (MOp.applyAll i.applied).run (dm, s.heap) = Res.ok (dm.applyAllDifferences s.heap i.applied) := rfl
  have hst : ∀ x, ((s.setModel m (dm.applyAllDifferences s.heap i.applied).1).store x) = if x = m then (dm.applyAllDifferences s.heap i.applied).1 else s.store x :=
    fun _ => rfl
  have e5 : dm.marks = (s.store m).marks := by rw [← hdm]; rfl
  refine ⟨?_, ?_, fun j => same_op hop j, next_op hop, ?_, ?_, ?_, ?_, ?_,
    fun j => toggled_applyAllLoop i.applied dm.differences s.heap 0 j⟩
  rotate_left 6
  · intro x
    show ((s.setModel m _).store x).marks = _
    rw [hst]; split
    · rename_i q; subst q; exact e5
    · rfl
  · intro x
    show ((s.setModel m _).store x).hunks = _
    rw [hst]; split
    · rename_i q; subst q; exact e1
    · rfl
  · intro x
    show ((s.setModel m _).store x).differences = _
    rw [hst]; split
    · rename_i q; subst q; exact e2
    · rfl
  · intro x
    show ((s.setModel m _).store x).source = _
    rw [hst]
    by_cases q : x = m
    · subst q; rw [if_pos rfl, if_pos (by simp)]; exact e3
    · rw [if_neg q, if_neg (by simpa using q)]
  · intro x
    show ((s.setModel m _).store x).destination = _
    rw [hst]
    by_cases q : x = m
    · subst q; rw [if_pos rfl, if_pos (by simp)]; exact e4
    · rw [if_neg q, if_neg (by simpa using q)]
  · intro x hx d hd
    simp only [List.mem_singleton] at hx
    subst hx
    exact (applied_applyAllLoop i.applied dm.differences s.heap 0 d).trans (if_pos (e2 ▸ hd))
  · intro d hd
    refine (applied_applyAllLoop i.applied dm.differences s.heap 0 d).trans ?_
    split
    · rfl
    · exact hd

theorem depth_fold (i : Info) (l : List Nat) (s : MLState) (hn : l.Nodup) : Depth i l s (l.foldl (MLState.depthAndApplied i) s) := by
  induction l generalizing s with
  | nil => exact ⟨fun _ => rfl, fun _ => rfl, fun _ => .refl _, rfl, fun _ => by simp, fun _ => by simp, fun _ h => by simp at h, fun _ h => h, fun _ => rfl,
      fun _ => .refl _⟩
  | cons m l ih =>
    rw [List.foldl_cons]
    have d1 := depth_step i s m
    have d2 := ih (MLState.depthAndApplied i s m) (List.nodup_cons.1 hn).2
    have hml := (List.nodup_cons.1 hn).1
    refine ⟨fun x => (d2.hunks x).trans (d1.hunks x), fun x => (d2.differences x).trans (d1.differences x),
      fun j => (d1.cells j).trans (d2.cells j), d2.next.trans d1.next, ?_, ?_, ?_, fun d hd => d2.keeps d (d1.keeps d hd),
      fun x => (d2.marks x).trans (d1.marks x), fun j => (d1.toggled j).trans (d2.toggled j)⟩
    · intro x
      rw [d2.source x, d1.source x]
      by_cases q : x = m
      · subst q; simp [hml]
      · simp [q]
    · intro x
      rw [d2.destination x, d1.destination x]
      by_cases q : x = m
      · subst q; simp [hml]
      · simp [q]
    · intro x hx d hd
      simp only [List.mem_cons] at hx
      rcases hx with rfl | hx
      · exact d2.keeps d (d1.applied x (by simp) d hd)
      · exact d2.applied x hx d (by rw [d1.differences]; exact hd)

theorem setDepth_ready {s : MLState} {ms : List Nat} {i : Info} (h : Opened s ms) (w : WF s) (hs : Selected s ms) (hi : s.info = some i) :
    ∃ s', s.setDepthAndApplied = Res.ok s' ∧ Opened s' ms ∧ WF s' ∧ Keep s s' ∧ Selected s' ms ∧ s'.info = s.info ∧ Depth i ms s s' := by
  obtain ⟨s', h1, h2, h3, h4, h5, h6, _⟩ := setDepth_ok h w hs
  refine ⟨s', h1, h2, h3, h4, h5, h6, ?_⟩
  unfold MLState.setDepthAndApplied at h1
  rw [h.list, Res.bind_ok, hi] at h1
  simp only [Res.ok.injEq] at h1
  rw [← h1]
  exact depth_fold i ms s h.nodup

end KompareDiff2
