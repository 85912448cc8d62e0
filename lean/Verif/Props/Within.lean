import Verif.Proofs.Blend32
import Verif.Props.Overflow
import Verif.Props.Blend
/-
C62: blending a diff into a file reads the lines of the file only.
-/
namespace KompareDiff2
open Spec

/-- **C62.** For every model and every text: blending with strict pointer arithmetic and 32-bit line numbers does what the blending
of `C34` does, or its behaviour is undefined. -/
theorem C62_same_or_undefined (m : DModel) (h : Heap) (contents : Str) :
    m.blend32 h contents = Res.ub ∨ m.blend32 h contents = Res.ok (m.blend h contents) :=
  blend32_below m h contents

/-- **C62.** Hunks in the order of the file and within it are blended without reading beyond the end of the file – whatever the lines
of the file are. -/
theorem C62_within {m : DModel} {h : Heap} {contents : Str} (ha : ∀ i ∈ m.hunkIds, i < h.next) (asc : Ascending (m.hunks.map (Hunk.view h)))
    (hc : Countable (split contents).length (m.hunks.map (Hunk.view h)))
    (hw : ∀ k ∈ m.hunks, (k.view h).Within (split contents).length) : m.blend32 h contents = Res.ok (m.blend h contents) :=
  (blend32_exact ha asc hc).1 (fun v hv => by
    obtain ⟨k, hk, rfl⟩ := List.mem_map.1 hv
    exact hw k hk)

/-- **C62, defect.** One hunk reaching beyond the end of the file – the file is shorter than the diff says – makes the behaviour undefined: the
position in the list of lines is moved beyond the end before it is compared with it. -/
theorem C62_beyond_ub {m : DModel} {h : Heap} {contents : Str} (ha : ∀ i ∈ m.hunkIds, i < h.next) (asc : Ascending (m.hunks.map (Hunk.view h)))
    (hc : Countable (split contents).length (m.hunks.map (Hunk.view h))) {k : Hunk Nat} (hk : k ∈ m.hunks)
    (hb : ¬ (k.view h).Within (split contents).length) : m.blend32 h contents = Res.ub :=
  (blend32_exact ha asc hc).2 (fun all => hb (all _ (List.mem_map.2 ⟨k, hk, rfl⟩)))

/-- **C62.** A diff that applies to the file is blended without undefined behaviour (the hypothesis of `C34_blend`; the new file can be counted
in an `int`). -/
theorem C62_patched {m : DModel} {h : Heap} {contents : Str} {new : List Str} (ha : ∀ i ∈ m.hunkIds, i < h.next)
    (hp : Patches 0 ((m.hunks.map (Hunk.view h)).map HView.edit) (split contents) new)
    (hc : Countable (split contents).length (m.hunks.map (Hunk.view h))) : m.blend32 h contents = Res.ok (m.blend h contents) := by
  obtain ⟨h1, h2, h3⟩ := patches_within hp
  refine C62_within ha ⟨by simpa using h1, h2⟩ hc (fun k hk => ?_)
  have := h3 (k.view h) (List.mem_map.2 ⟨k, hk, rfl⟩)
  rwa [Nat.zero_add] at this

theorem uhunk_lengths (h : UHunk) : h.view.old.length = h.srcCount ∧ h.view.new.length = h.dstCount := by
  obtain ⟨h1, h2⟩ := blockViews_sums h.blocks h.srcLine h.dstLine
  unfold HView.old HView.new UHunk.srcCount UHunk.dstCount
  rw [List.length_flatMap, List.length_flatMap]
  exact ⟨h1, h2⟩

theorem uhunk_within (n : Nat) (h : UHunk) : h.view.Within n ↔ h.Within n := by
  obtain ⟨h1, _⟩ := uhunk_lengths h
  have e : h.view.srcLine = (h.srcLine : Int) := rfl
  unfold HView.Within UHunk.Within
  rw [← List.length_eq_zero_iff, h1, e]
  omega

theorem inOrder_views {n : Nat} {f : UFile} (o : f.InOrder n) : Ascending (f.hunks.map UHunk.view) ∧ Countable n (f.hunks.map UHunk.view) := by
  refine ⟨⟨?_, ?_⟩, ?_⟩
  · intro k hk
    obtain ⟨u, hu, rfl⟩ := List.mem_map.1 hk
    have := o.first u hu
    have e : u.view.srcLine = (u.srcLine : Int) := rfl
    omega
  · rw [List.pairwise_map]
    refine o.apart.imp ?_
    intro a b hab
    have e : a.view.srcLine = (a.srcLine : Int) := rfl
    have e' : b.view.srcLine = (b.srcLine : Int) := rfl
    rw [(uhunk_lengths a).1, e, e']
    omega
  · have e : ((f.hunks.map UHunk.view).map (fun k => k.new.length)) = f.hunks.map UHunk.dstCount := by
      rw [List.map_map]
      exact List.map_congr_left (fun u _ => (uhunk_lengths u).2)
    unfold Countable maxInt
    rw [e]
    have := o.countable
    omega

theorem unified_blend {d : UDiff} (ok : d.Ok) (hne : d.files ≠ []) {win : Bool} {cmp : Str → Str → Int} {heap : Heap} {r : ParseResult} {ms : List DModel}
    (hr : parse win cmp heap (split d.render.flatten) = Res.ok r) (hms : r.models = some ms) {f : UFile} (hf : f ∈ d.files) (hc : f.changes = true) :
    ∃ m ∈ ms, m.view r.heap = f.view (unescapePath win) ∧ ∀ i ∈ m.hunkIds, i < r.heap.next := by
  obtain ⟨r', hr', _, hv⟩ := C26_unified d ok hne win cmp heap
  rw [hr] at hr'
  cases hr'
  rw [hms] at hv
  have : f.view (unescapePath win) ∈ ms.map (DModel.view r.heap) := hv.2.mem_iff.2 (List.mem_map.2 ⟨f, List.mem_filter.2 ⟨hf, hc⟩, rfl⟩)
  obtain ⟨m, hm, e⟩ := List.mem_map.1 this
  exact ⟨m, hm, e, ((((parse_models hr).2 ms hms).2.each m hm).1).alloc⟩

/-- **C62.** For every well-formed unified diff with hunks in order: opening it gives for every file with changes a model which is blended into a file
without undefined behaviour if and only if no hunk reaches beyond the end of that file. -/
theorem C62_unified (d : UDiff) (ok : d.Ok) (hne : d.files ≠ []) (win : Bool) (cmp : Str → Str → Int) (heap : Heap) {r : ParseResult} {ms : List DModel}
    (hr : parse win cmp heap (split d.render.flatten) = Res.ok r) (hms : r.models = some ms) {f : UFile} (hf : f ∈ d.files) (hc : f.changes = true) :
    ∃ m ∈ ms, m.view r.heap = f.view (unescapePath win) ∧ ∀ contents : Str, f.InOrder (split contents).length →
      (m.blend32 r.heap contents ≠ Res.ub ↔ ∀ h ∈ f.hunks, h.Within (split contents).length) := by
  obtain ⟨m, hm, e, ha⟩ := unified_blend ok hne hr hms hf hc
  refine ⟨m, hm, e, fun contents o => ?_⟩
  have eh : m.hunks.map (Hunk.view r.heap) = f.hunks.map UHunk.view := congrArg MView.hunks e
  obtain ⟨o1, o2⟩ := inOrder_views o
  rw [← eh] at o1 o2
  obtain ⟨b1, b2⟩ := blend32_exact ha o1 o2
  have key : (∀ v ∈ m.hunks.map (Hunk.view r.heap), v.Within (split contents).length) ↔ ∀ h ∈ f.hunks, h.Within (split contents).length := by
    rw [eh]
    constructor
    · exact fun all h hh => (uhunk_within _ h).1 (all _ (List.mem_map.2 ⟨h, hh, rfl⟩))
    · intro all v hv
      obtain ⟨h, hh, rfl⟩ := List.mem_map.1 hv
      exact (uhunk_within _ h).2 (all h hh)
  rw [← key]
  constructor
  · intro hb
    exact Classical.not_not.1 (fun hn => hb (b2 hn))
  · intro all hb
    rw [b1 all] at hb
    cases hb

/-! ### Examples -/

theorem patches_lengths {a : Nat} {es : List Edit} {file out : List Str} (h : Patches a es file out) :
    (es.map (fun e => e.old.length)).sum ≤ file.length ∧ (es.map (fun e => e.new.length)).sum ≤ out.length := by
  induction h with
  | done => simp
  | edit pos e es keep file out _ _ ih =>
    simp only [List.map_cons, List.sum_cons, List.length_append]
    omega

/-- The first file of the example has a hunk for the lines 3 and 4. -/
theorem example_inOrder {n : Nat} (hn : n < 1000) : ∀ f ∈ exampleDiff.files, f.InOrder n := by
  intro f hf
  simp only [exampleDiff, List.mem_cons, List.not_mem_nil, or_false] at hf
  rcases hf with rfl | rfl
  · refine ⟨by simp, by simp, ?_⟩
    simp only [List.map_cons, List.map_nil, List.sum_cons, List.sum_nil, UHunk.dstCount, Block.new, List.length_cons, List.length_nil]
    omega
  · refine ⟨by simp, by simp, ?_⟩
    simp only [List.map_cons, List.map_nil, List.sum_cons, List.sum_nil, UHunk.dstCount, Block.new, List.length_cons, List.length_nil]
    omega

/-- Blending it into a file with four lines is defined, blending it into one with two lines is not. -/
example (win : Bool) (cmp : Str → Str → Int) (heap : Heap) : ∃ r ms, parse win cmp heap (split exampleDiff.render.flatten) = Res.ok r ∧ r.models = some ms ∧
    ∃ m ∈ ms, m.blend32 r.heap (str "a\nb\nc\nd\n") ≠ Res.ub ∧ m.blend32 r.heap (str "a\nb\n") = Res.ub := by
  obtain ⟨r, hr, _, hv⟩ := C26_unified exampleDiff exampleDiff_ok (by decide) win cmp heap
  cases hms : r.models with
  | none =>
    rw [hms] at hv
    exact absurd (hv _ (List.mem_cons_self ..)) (by decide)
  | some ms =>
    obtain ⟨m, hm, _, hb⟩ := C62_unified exampleDiff exampleDiff_ok (by decide) win cmp heap hr hms (List.mem_cons_self ..) (by decide)
    refine ⟨r, ms, hr, hms, m, hm, ?_, ?_⟩
    · exact (hb _ (example_inOrder (by decide) _ (List.mem_cons_self ..))).2 (by unfold UHunk.Within; decide)
    · exact Classical.not_not.1 (fun hn => absurd ((hb _ (example_inOrder (by decide) _ (List.mem_cons_self ..))).1 hn) (by unfold UHunk.Within; decide))

/-- The model that applies to the file of the example. -/
example : ∃ (h : Heap) (m : DModel), m.differences.length = 1 ∧ m.blend32 h exampleOld = Res.ok (m.blend h exampleOld) := by
  obtain ⟨P, h, m, _, _, h1, h2, _, h4⟩ := example_blend
  refine ⟨h, m, h1, C62_patched h2 h4 ?_⟩
  have hl := (patches_lengths h4).2
  unfold Countable maxInt
  rw [List.map_map] at hl
  have e1 : (split exampleOld).length = 4 := by decide
  have e2 : exampleNew.length = 4 := by decide
  have e3 : (m.hunks.map (Hunk.view h)).map (fun k => k.new.length) = (m.hunks.map (Hunk.view h)).map ((fun e : Edit => e.new.length) ∘ HView.edit) := rfl
  rw [e3, e1]
  omega

end KompareDiff2
