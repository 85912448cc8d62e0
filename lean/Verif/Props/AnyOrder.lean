import Verif.Proofs.AnyOrder
import Verif.Props.Parser
/-
C09 to C12 for the models of every text the parser accepts, well-formed or not.
-/
namespace KompareDiff2
open Spec

section
variable {win : Bool} {cmp : Str → Str → Int} {heap : Heap} {lines : List Str} {r : ParseResult} {ms : List DModel} {m : DModel}

/-- **C09.** Any text: after any calls through the model, `appliedCount` is the number of applied differences. -/
theorem C09_parsed (hr : parse win cmp heap lines = Res.ok r) (hms : r.models = some ms) (hm : m ∈ ms) {ops : List MOp}
    (hops : ∀ i b, MOp.direct i b ∉ ops) {s' : DModel × Heap} (h : runOps ops (m, r.heap) = Res.ok s') :
    s'.1.appliedCount = ((s'.1.differences.map s'.2.cell).countP (fun d => d.applied) : Nat) ∧
    0 ≤ s'.1.appliedCount ∧ s'.1.appliedCount ≤ s'.1.differences.length :=
  C09_applied_count (parsed_untouched hr hms hm) hops h

/-- **C12.** Any text: a model has unsaved changes iff the applied state of some difference is not the one at the last save
(or at loading, if there was no save). -/
theorem C12_parsed (hr : parse win cmp heap lines = Res.ok r) (hms : r.models = some ms) (hm : m ∈ ms) {before after : List MOp}
    {s1 s2 : DModel × Heap} (hsave : MOp.save ∉ after) (h1 : runOps before (m, r.heap) = Res.ok s1)
    (h2 : runOps (before ++ .save :: after) (m, r.heap) = Res.ok s2) :
    (s2.1.hasUnsavedChanges s2.2 = true ↔ ∃ i ∈ s2.1.differences, (s2.2.cell i).applied ≠ (s1.2.cell i).applied) ∧
    (MOp.save ∉ before → (s1.1.hasUnsavedChanges s1.2 = true ↔ ∃ i ∈ s1.1.differences, (s1.2.cell i).applied = true)) := by
  have hu := parsed_untouched hr hms hm
  have := C12_unsaved hu hsave h1 h2
  refine ⟨this.1, fun hb => ?_⟩
  rw [this.2 hb, diffs_run h1]
  constructor
  · rintro ⟨i, hi, h⟩
    rw [(hu.state i hi).1] at h
    exact ⟨i, hi, by simpa using h⟩
  · rintro ⟨i, hi, h⟩
    exact ⟨i, hi, by rw [(hu.state i hi).1, h]; decide⟩

/-- **C10.** Any text, differences listed by ascending destination line: after any calls, the tracking line number of a difference is
its source line number plus the growth of the applied differences before it. -/
theorem C10_parsed (hr : parse win cmp heap lines = Res.ok r) (hms : r.models = some ms) (hm : m ∈ ms)
    (asc : (m.differences.map r.heap.cell).Pairwise (fun d d' => d.destLineNo < d'.destLineNo))
    {ops : List MOp} (hops : MOp.Own (m, r.heap) ops) {s' : DModel × Heap} (h : runOps ops (m, r.heap) = Res.ok s') :
    ∀ (k : Nat) (d : Diff), (s'.1.differences.map s'.2.cell)[k]? = some d →
      d.tracking = d.sourceLineNo +
        ((((s'.1.differences.map s'.2.cell).take k).filter (fun d => d.applied)).map (fun d => (d.dlc : Int) - d.slc)).sum :=
  (C10_tracking ((parsed_untouched hr hms hm).fresh asc) hops h).2.2

/-- **C10.** Any text, any order of the lines, differences applied one at a time (through the selection or directly): the tracking line
number of a difference is its source line number plus the growth of the applied differences that start at a lower destination line. -/
theorem C10_any_order (hr : parse win cmp heap lines = Res.ok r) (hms : r.models = some ms) (hm : m ∈ ms)
    {ops : List MOp} (hops : MOp.Own (m, r.heap) ops) (hall : ∀ b, MOp.applyAll b ∉ ops) {s' : DModel × Heap}
    (h : runOps ops (m, r.heap) = Res.ok s') :
    ∀ d ∈ s'.1.differences.map s'.2.cell, d.tracking = d.sourceLineNo +
      (((s'.1.differences.map s'.2.cell).filter (fun e => e.applied && decide (e.destLineNo < d.destLineNo))).map
        (fun e => (e.dlc : Int) - e.slc)).sum := by
  have hu := parsed_untouched hr hms hm
  have ht := tracksAbove_run hu.nodup hu.connected (fun i hi => by rw [hu.selected] at hi; cases hi) hops hall h (tracksAbove_untouched hu)
  intro d hd
  obtain ⟨i, hi, rfl⟩ := List.mem_map.1 hd
  rw [ht i hi, ← growthAbove_sum, List.map_map]
  rfl

/-- **C10.** Any text, any order of the lines, one call that applies everything: the differences before in the list count instead. -/
theorem C10_apply_all (hr : parse win cmp heap lines = Res.ok r) (hms : r.models = some ms) (hm : m ∈ ms) (k : Nat) (d : Diff)
    (hd : (m.differences.map (m.applyAllDifferences r.heap true).2.cell)[k]? = some d) :
    d.applied = true ∧ d.tracking = d.sourceLineNo +
      (((m.differences.map (m.applyAllDifferences r.heap true).2.cell).take k).map (fun e => (e.dlc : Int) - e.slc)).sum := by
  have hu := parsed_untouched hr hms hm
  have t0 : Tracks 0 (m.differences.map r.heap.cell) := tracks_fresh _ _ (fun i hi => ⟨(hu.state i hi).1, (hu.state i hi).2.2⟩)
  have t := tracks_applyAllLoop true m.differences r.heap 0 0 hu.nodup t0
  have ap : ∀ e ∈ m.differences.map (applyAllLoop true r.heap 0 m.differences).cell, e.applied = true := by
    intro e he
    obtain ⟨i, hi, rfl⟩ := List.mem_map.1 he
    rw [applied_applyAllLoop, if_pos hi]
  simp only [DModel.applyAllDifferences] at hd ⊢
  refine ⟨ap d (List.mem_of_getElem? hd), ?_⟩
  rw [tracks_get _ _ k d t hd]
  have e : ((m.differences.map (applyAllLoop true r.heap 0 m.differences).cell).take k).map growth =
      ((m.differences.map (applyAllLoop true r.heap 0 m.differences).cell).take k).map (fun e => (e.dlc : Int) - e.slc) :=
    List.map_congr_left (fun x hx => by simp [growth, ap x (List.mem_of_mem_take hx)])
  rw [e]; omega

/-- **C11.** Any text, any order of the lines: two histories that apply differences one at a time and end with the same ones applied end
with the same tracking numbers. -/
theorem C11_any_order (hr : parse win cmp heap lines = Res.ok r) (hms : r.models = some ms) (hm : m ∈ ms)
    {ops1 ops2 : List MOp} (ho1 : MOp.Own (m, r.heap) ops1) (ho2 : MOp.Own (m, r.heap) ops2)
    (ha1 : ∀ b, MOp.applyAll b ∉ ops1) (ha2 : ∀ b, MOp.applyAll b ∉ ops2) {s1 s2 : DModel × Heap}
    (h1 : runOps ops1 (m, r.heap) = Res.ok s1) (h2 : runOps ops2 (m, r.heap) = Res.ok s2)
    (hsame : ∀ i ∈ m.differences, (s1.2.cell i).applied = (s2.2.cell i).applied) :
    ∀ i ∈ m.differences, (s1.2.cell i).tracking = (s2.2.cell i).tracking := by
  have hu := parsed_untouched hr hms hm
  have sel : (m, r.heap).1.SelOk := fun i hi => by rw [hu.selected] at hi; cases hi
  have t1 := tracksAbove_run hu.nodup hu.connected sel ho1 ha1 h1 (tracksAbove_untouched hu)
  have t2 := tracksAbove_run hu.nodup hu.connected sel ho2 ha2 h2 (tracksAbove_untouched hu)
  have d1 : s1.1.differences = m.differences := diffs_run h1
  have d2 : s2.1.differences = m.differences := diffs_run h2
  intro i hi
  rw [t1 i (by rw [d1]; exact hi), t2 i (by rw [d2]; exact hi), d1, d2]
  have a := same_run h1
  have b := same_run h2
  rw [(a i).sourceLineNo, (b i).sourceLineNo, (a i).destLineNo, (b i).destLineNo]
  congr 2
  apply List.map_congr_left
  intro j hj
  simp only [growthAbove, Diff.dlc, Diff.slc, (a j).dest, (a j).source, (a j).destLineNo, (b j).dest, (b j).source, (b j).destLineNo, hsame j hj]

end

/-- A unified diff whose hunks are in descending order: a line inserted at line 9, then a line inserted at line 1. -/
def descendingDiff : UDiff where
  files := [
    { src := { name := str "a" }, dst := { name := str "a" },
      hunks := [{ srcLine := 9, dstLine := 9, blocks := [.change [] [{ text := str "p" }]] },
        { srcLine := 1, dstLine := 1, blocks := [.change [] [{ text := str "q" }]] }] }]
  trailer := []

theorem descendingDiff_ok : descendingDiff.Ok := by
  have hu : ∀ h ∈ descendingDiff.files.flatMap UFile.hunks, h.Ok := by
    intro h hh
    simp only [descendingDiff, List.flatMap_cons, List.flatMap_nil, List.append_nil, List.mem_cons,
      List.not_mem_nil, or_false] at hh
    rcases hh with rfl | rfl
    all_goals
      exact ⟨⟨by decide, by decide, by decide, by decide⟩, ⟨by decide, by decide, by decide, by decide⟩,
        by intro f hf; simp at hf,
        by intro b hb; simp only [List.mem_cons, List.not_mem_nil, or_false] at hb; subst hb; simp [Block.NonEmpty],
        by simp [SeparatedBlocks], by decide⟩
  have hh' : ∀ n : Str, (n ≠ [] ∧ '\t' ∉ n ∧ '\n' ∉ n) → Header.Ok { name := n } := by
    intro n h1
    exact ⟨h1, by intro ts hts; simp at hts, by intro e he; simp at he⟩
  refine ⟨?_, ?_, ?_, ?_⟩
  · intro f hf
    have hf' := hf
    simp only [descendingDiff, List.mem_cons, List.not_mem_nil, or_false] at hf'
    subst hf'
    refine ⟨hh' _ (by decide), hh' _ (by decide), fun h hm => hu h (List.mem_flatMap.2 ⟨_, hf, hm⟩), by intro t ht; cases ht⟩
  · intro f fs e
    simp only [descendingDiff, List.cons.injEq] at e
    obtain ⟨rfl, rfl⟩ := e
    refine ⟨(by intro t ht; cases ht), ?_⟩
    rintro (⟨g, hg, t, ht, _⟩ | ⟨t, ht, _⟩)
    · simp only [descendingDiff, List.mem_cons, List.not_mem_nil, or_false] at hg
      subst hg; cases ht
    · cases ht
  · intro f fs e g hg
    simp only [descendingDiff, List.cons.injEq] at e
    obtain ⟨rfl, rfl⟩ := e
    cases hg
  · exact ⟨(by intro t ht; cases ht), (by intro t ts e; cases e)⟩

/-- What the two differences of that diff show to a client, before anything is called. -/
theorem descendingDiff_parsed (win : Bool) (cmp : Str → Str → Int) (heap : Heap) : ∃ m h' i j,
    parse win cmp heap (split descendingDiff.render.flatten) = Res.ok { models := some [m], malformed := false, heap := h' } ∧
    m.differences = [i, j] ∧ i ≠ j ∧
    (h'.cell i).sourceLineNo = 9 ∧ (h'.cell i).destLineNo = 9 ∧ (h'.cell i).slc = 0 ∧ (h'.cell i).dlc = 1 ∧
    (h'.cell j).sourceLineNo = 1 ∧ (h'.cell j).destLineNo = 1 ∧ (h'.cell j).slc = 0 ∧ (h'.cell j).dlc = 1 := by
  obtain ⟨m, h', hr, hv⟩ := C26_unified_single descendingDiff descendingDiff_ok _ rfl (by decide) win cmp heap
  have hu := parsed_untouched hr rfl (List.mem_singleton.2 rfl)
  have hd := congrArg MView.differences hv
  have e : ∀ f, descendingDiff.files = [f] → (UFile.view (unescapePath win) f).differences =
      [(Block.change [] [{ text := str "p" }]).view 9 9, (Block.change [] [{ text := str "q" }]).view 1 1] := by
    intro f hf
    simp only [descendingDiff, List.cons.injEq, and_true] at hf
    subst hf
    simp only [UFile.view]
    decide
  rw [e _ rfl] at hd
  simp only [DModel.view] at hd
  obtain ⟨i, l, hil, hi, hl⟩ := List.map_eq_cons_iff.1 hd
  obtain ⟨j, l', hjl, hj, hl'⟩ := List.map_eq_cons_iff.1 hl
  have hnil := List.map_eq_nil_iff.1 hl'
  subst hnil hjl
  have hn := hu.nodup
  simp only [hil, List.nodup_cons, List.mem_singleton] at hn
  refine ⟨m, h', i, j, hr, hil, hn.1, congrArg DView.srcLine hi, congrArg DView.dstLine hi, ?_, ?_, congrArg DView.srcLine hj,
    congrArg DView.dstLine hj, ?_, ?_⟩
  · have := congrArg (fun v : DView => v.src.length) hi; simpa [Diff.view, Block.view, Diff.slc, Diff.srcText] using this
  · have := congrArg (fun v : DView => v.dst.length) hi; simpa [Diff.view, Block.view, Diff.dlc, Diff.dstText] using this
  · have := congrArg (fun v : DView => v.src.length) hj; simpa [Diff.view, Block.view, Diff.slc, Diff.srcText] using this
  · have := congrArg (fun v : DView => v.dst.length) hj; simpa [Diff.view, Block.view, Diff.dlc, Diff.dstText] using this

/-- **C11** fails when the destination lines do not ascend and all differences are applied in one call: applying the two differences
of this diff one after the other, or with one `applyAllDifferences(true)`, leaves the same ones applied and other tracking numbers. -/
theorem C11_unordered_counterexample (win : Bool) (cmp : Str → Str → Int) (heap : Heap) : ∃ r m i j s1 s2,
    parse win cmp heap (split descendingDiff.render.flatten) = Res.ok r ∧ r.models = some [m] ∧ m.differences = [i, j] ∧
    runOps [.direct i true, .direct j true] (m, r.heap) = Res.ok s1 ∧ runOps [.applyAll true] (m, r.heap) = Res.ok s2 ∧
    (∀ k ∈ m.differences, (s1.2.cell k).applied = true ∧ (s2.2.cell k).applied = true) ∧
    (s1.2.cell i).tracking = 10 ∧ (s1.2.cell j).tracking = 1 ∧ (s2.2.cell i).tracking = 9 ∧ (s2.2.cell j).tracking = 2 := by
  obtain ⟨m, h', i, j, hr, hd, hij, hi1, hi2, hi3, hi4, hj1, hj2, hj3, hj4⟩ := descendingDiff_parsed win cmp heap
  refine ⟨_, m, i, j, _, _, hr, rfl, hd, rfl, rfl, ?_, ?_⟩
  · intro k hk
    constructor
    · rw [hd] at hk
      simp only [applied_direct]
      split
      · rfl
      · rw [if_pos]; simp only [List.mem_cons, List.not_mem_nil, or_false] at hk; rcases hk with h | h
        · exact h
        · contradiction
    · simp only [DModel.applyAllDifferences]
      rw [applied_applyAllLoop, if_pos hk]
  · have hm1 : m ∈ [m] := List.mem_singleton.2 rfl
    have l1 := C10_any_order hr rfl hm1 (ops := [.direct i true, .direct j true])
      (by intro k b hk; rw [hd]; simp only [List.mem_cons, MOp.direct.injEq, List.not_mem_nil, or_false] at hk ⊢
          rcases hk with ⟨h, _⟩ | ⟨h, _⟩ <;> simp [h])
      (by simp) rfl
    have a1 := C10_apply_all hr rfl hm1
    have st : ∀ k, Diff.Same (h'.cell k) ((m.applyDirect (m.applyDirect h' i true) j true).cell k) :=
      fun k => (toggled_direct m h' i k true).1.trans (toggled_direct m _ j k true).1
    have sa : ∀ k, Diff.Same (h'.cell k) ((m.applyAllDifferences h' true).2.cell k) :=
      fun k => (toggled_applyAllLoop true m.differences h' 0 k).1
    have ga : ∀ k, ((m.applyDirect (m.applyDirect h' i true) j true).cell k).dlc = (h'.cell k).dlc ∧
        ((m.applyDirect (m.applyDirect h' i true) j true).cell k).slc = (h'.cell k).slc :=
      fun k => ⟨by unfold Diff.dlc; rw [(st k).dest], by unfold Diff.slc; rw [(st k).source]⟩
    have gb : ∀ k, ((m.applyAllDifferences h' true).2.cell k).dlc = (h'.cell k).dlc ∧
        ((m.applyAllDifferences h' true).2.cell k).slc = (h'.cell k).slc :=
      fun k => ⟨by unfold Diff.dlc; rw [(sa k).dest], by unfold Diff.slc; rw [(sa k).source]⟩
    have ap : ∀ k, k = i ∨ k = j → ((m.applyDirect (m.applyDirect h' i true) j true).cell k).applied = true := by
      intro k hk
      simp only [applied_direct]
      split
      · rfl
      · rw [if_pos]; rcases hk with h | h
        · exact h
        · contradiction
    simp only [hd, List.map_cons, List.map_nil, List.forall_mem_cons] at l1
    obtain ⟨x, y, -⟩ := l1
    have z := a1 0 ((m.applyAllDifferences h' true).2.cell i) (by rw [hd]; rfl)
    have w := a1 1 ((m.applyAllDifferences h' true).2.cell j) (by rw [hd]; rfl)
    rw [hd] at z w
    simp only [List.filter_cons, ap i (Or.inl rfl), ap j (Or.inr rfl), (st i).destLineNo, (st j).destLineNo, hi2, hj2,
      (st i).sourceLineNo, (st j).sourceLineNo, hi1, hj1] at x y
    simp [(ga i).1, (ga i).2, (ga j).1, (ga j).2, hi3, hi4, hj3, hj4] at x y
    simp [(sa i).sourceLineNo, (sa j).sourceLineNo, hi1, hj1, (gb i).1, (gb i).2, hi3, hi4] at z w
    exact ⟨x, y, z.2, w.2⟩

/-- The hypotheses of C09 and C12 are met by this diff, which is not in ascending order: apply the first difference, save, apply all. -/
example (win : Bool) (cmp : Str → Str → Int) (heap : Heap) : ∃ r m s1 s2, parse win cmp heap (split descendingDiff.render.flatten) = Res.ok r ∧
    r.models = some [m] ∧ runOps [.first, .apply true] (m, r.heap) = Res.ok s1 ∧
    runOps ([.first, .apply true] ++ .save :: [.applyAll true]) (m, r.heap) = Res.ok s2 ∧ s2.1.appliedCount = 2 := by
  obtain ⟨m, h', i, j, hr, hd, _⟩ := descendingDiff_parsed win cmp heap
  have hu := parsed_untouched hr rfl (List.mem_singleton.2 rfl)
  have hf : m.firstDifference = Res.ok ({ m with diffIndex := 0, selected := some i }, some i) :=
    (C13_first_last m).2.2.1 i (by rw [hd]; rfl)
  have ha := (hu.state i (by rw [hd]; exact List.mem_cons_self ..)).1
  simp only at ha
  have h1 : runOps [.first, .apply true] (m, h') = Res.ok ({ m with diffIndex := 0, selected := some i, appliedCount := m.appliedCount + 1 }, m.applyDirect h' i true) := by
    simp only [runOps, MOp.run, hf, Res.bind_ok, DModel.applyDifference, ha]
    simp [DModel.applyDirect, DModel.slotDifferenceApplied]
  have h2 : ∃ s2, runOps ([.first, .apply true] ++ .save :: [.applyAll true]) (m, h') = Res.ok s2 ∧ s2.1.appliedCount = 2 := by
    rw [runOps_append, h1]
    exact ⟨_, rfl, by simp [DModel.applyAllDifferences, hd]⟩
  obtain ⟨s2, h2, h3⟩ := h2
  exact ⟨_, m, _, s2, hr, rfl, h1, h2, h3⟩

end KompareDiff2
