import Verif.Props.Difference
import Verif.Props.Parser
import Verif.Props.ParserSound
import Verif.Props.EndToEnd
/-
C09 to C12 speak of a model "as it comes from parsing"; here it is shown that the models of a unified diff are of this kind.
-/
namespace KompareDiff2
open Spec

theorem blockViews_range (bs : List Block) : ∀ (a b : Nat) (v : DView), v ∈ blockViews a b bs →
    (b : Int) ≤ v.dstLine ∧ v.dstLine ≤ ((b + (bs.map (fun k => k.new.length)).sum : Nat) : Int) := by
  induction bs with
  | nil => intro a b v hv; simp [blockViews] at hv
  | cons k ks ih =>
    intro a b v hv
    simp only [blockViews, List.mem_cons] at hv
    rcases hv with rfl | hv
    · have e : (k.view a b).dstLine = (b : Int) := by cases k <;> rfl
      rw [e]
      exact ⟨Int.le_refl _, by simp only [Int.ofNat_le]; omega⟩
    · obtain ⟨h1, h2⟩ := ih _ _ v hv
      simp only [List.map_cons, List.sum_cons]
      constructor
      · push_cast at h1 ⊢; omega
      · push_cast at h2 ⊢; omega

theorem blockViews_ascending (bs : List Block) : ∀ (a b : Nat), (∀ k ∈ bs, k.NonEmpty) → SeparatedBlocks bs →
    ((blockViews a b bs).filter (fun d => d.type ≠ .Unchanged)).Pairwise (fun d d' => d.dstLine < d'.dstLine) := by
  induction bs with
  | nil => intro a b _ _; exact .nil
  | cons k ks ih =>
    intro a b hne hs
    have hs' : SeparatedBlocks ks := by
      cases ks with
      | nil => trivial
      | cons _ _ => exact hs.2
    have rest := ih (a + k.old.length) (b + k.new.length) (fun x hx => hne x (List.mem_cons_of_mem _ hx)) hs'
    simp only [blockViews, List.filter_cons]
    split
    · refine List.pairwise_cons.2 ⟨?_, rest⟩
      intro v hv
      obtain ⟨hv, hty⟩ := List.mem_filter.1 hv
      have e : (k.view a b).dstLine = (b : Int) := by cases k <;> rfl
      rw [e]
      by_cases hn : k.new = []
      · -- removed lines only: unchanged lines follow
        cases ks with
        | nil => simp [blockViews] at hv
        | cons k' ks' =>
          have hsep := hs.1
          cases k with
          | context ls => exact absurd hn (hne _ (List.mem_cons_self ..))
          | change r ad =>
            cases k' with
            | change r' ad' => exact absurd hn hsep.1
            | context ls =>
              have hl : ls ≠ [] := hne (.context ls) (by simp)
              have hl : 0 < ls.length := List.length_pos_iff.2 hl
              simp only [blockViews, List.mem_cons] at hv
              rcases hv with rfl | hv
              · simp [Block.view] at hty
              · have := (blockViews_range ks' _ _ v hv).1
                simp only [Block.new] at this
                push_cast at this
                omega
      · have := (blockViews_range ks _ _ v hv).1
        have hl : 0 < k.new.length := List.length_pos_iff.2 hn
        push_cast at this
        omega
    · exact rest

theorem hunks_ascending (hs : List UHunk) (ok : ∀ h ∈ hs, h.Ok) (asc : hs.Pairwise (fun h h' => h.dstLine + h.dstCount < h'.dstLine)) :
    ((hs.flatMap (fun h => h.view.diffs)).filter (fun d => d.type ≠ .Unchanged)).Pairwise (fun d d' => d.dstLine < d'.dstLine) := by
  induction hs with
  | nil => exact .nil
  | cons h hs ih =>
    obtain ⟨h1, h2⟩ := List.pairwise_cons.1 asc
    rw [List.flatMap_cons, List.filter_append]
    refine List.pairwise_append.2 ⟨?_, ih (fun x hx => ok x (List.mem_cons_of_mem _ hx)) h2, ?_⟩
    · have k := ok h (List.mem_cons_self ..)
      exact blockViews_ascending h.blocks _ _ k.nonEmpty k.separated
    · intro v hv w hw
      have hv := (List.mem_filter.1 hv).1
      have hw := (List.mem_filter.1 hw).1
      obtain ⟨h', hm, hw⟩ := List.mem_flatMap.1 hw
      have a := (blockViews_range h.blocks _ _ v hv).2
      have b := (blockViews_range h'.blocks _ _ w hw).1
      have c := h1 h' hm
      have : ((h.dstLine + (h.blocks.map (fun k => k.new.length)).sum : Nat) : Int) < (h'.dstLine : Int) := by
        simp only [Int.ofNat_lt]; exact c
      omega

/-- **C10** (and C09, C11, C12). The models of a well-formed unified diff, whose hunks are in ascending order with a line between them as
`diff` writes them, are models to which C09 to C12 apply: nothing is applied, and the differences are connected and in ascending order. -/
theorem C10_unified_fresh (d : UDiff) (ok : d.Ok) (hne : d.files ≠ [])
    (asc : ∀ f ∈ d.files, f.hunks.Pairwise (fun h h' => h.dstLine + h.dstCount < h'.dstLine)) (win : Bool) (cmp : Str → Str → Int) (heap : Heap) :
    ∃ r, parse win cmp heap (split d.render.flatten) = Res.ok r ∧ ∀ ms, r.models = some ms → ∀ m ∈ ms, DModel.Fresh (m, r.heap) := by
  obtain ⟨r, h1, _, h2⟩ := C26_unified d ok hne win cmp heap
  refine ⟨r, h1, fun ms hms m hm => ?_⟩
  rw [hms] at h2
  have hv : m.view r.heap ∈ (d.files.filter UFile.changes).map (UFile.view (unescapePath win)) :=
    h2.2.mem_iff.1 (List.mem_map.2 ⟨m, hm, rfl⟩)
  obtain ⟨f, hf, hv⟩ := List.mem_map.1 hv
  have hf := (List.mem_filter.1 hf).1
  have hp : ∃ P, Parsed P r.heap m := by
    rcases C27_parse_sound win cmp heap _ r ms h1 hms with h | h | h
    · exact ⟨_, (h.each m hm).1⟩
    · exact ⟨_, (h.each m hm).1⟩
    · exact ⟨_, (h.each m hm).1⟩
  obtain ⟨P, hp⟩ := hp
  have hd : m.differences.map (fun i => (r.heap.cell i).view) =
      (f.hunks.flatMap (fun h => h.view.diffs)).filter (fun d => d.type ≠ .Unchanged) := (congrArg MView.differences hv).symm
  have hfr : ∀ v ∈ m.differences.map (fun i => (r.heap.cell i).view), v.applied = false ∧ v.unsaved = false ∧ v.tracking = v.srcLine := by
    intro v hv
    rw [hd] at hv
    obtain ⟨h, _, hv⟩ := List.mem_flatMap.1 (List.mem_filter.1 hv).1
    have key : ∀ (bs : List Block) (a b : Nat), v ∈ blockViews a b bs → v.applied = false ∧ v.unsaved = false ∧ v.tracking = v.srcLine := by
      intro bs
      induction bs with
      | nil => intro a b h; simp [blockViews] at h
      | cons k ks ih =>
        intro a b h
        simp only [blockViews, List.mem_cons] at h
        rcases h with rfl | h
        · cases k <;> exact ⟨rfl, rfl, rfl⟩
        · exact ih _ _ h
    exact key _ _ _ hv
  refine ⟨?_, ?_, ?_, hp.initial.1, hp.initial.2.2.1⟩
  · have := hunks_ascending f.hunks (ok.files f hf).hunks (asc f hf)
    rw [← hd, List.pairwise_map] at this
    exact List.pairwise_map.2 this
  · intro i hi
    rw [hp.connected]; exact hi
  · intro i hi
    exact hfr _ (List.mem_map.2 ⟨i, hi, rfl⟩)

/-- **C10.** Hence: parse such a diff and call whatever you like on the differences of a model; the tracking line number of each
difference is its source line number plus the growth of the applied differences before it. -/
theorem C10_unified (d : UDiff) (ok : d.Ok) (hne : d.files ≠ [])
    (asc : ∀ f ∈ d.files, f.hunks.Pairwise (fun h h' => h.dstLine + h.dstCount < h'.dstLine)) (win : Bool) (cmp : Str → Str → Int) (heap : Heap)
    {r : ParseResult} (hr : parse win cmp heap (split d.render.flatten) = Res.ok r) {ms : List DModel} (hms : r.models = some ms)
    {m : DModel} (hm : m ∈ ms) {ops : List MOp} (hops : MOp.Own (m, r.heap) ops) {s' : DModel × Heap} (h : runOps ops (m, r.heap) = Res.ok s') :
    ∀ (k : Nat) (d : Diff), (s'.1.differences.map s'.2.cell)[k]? = some d →
      d.tracking = d.sourceLineNo +
        ((((s'.1.differences.map s'.2.cell).take k).filter (fun d => d.applied)).map (fun d => (d.dlc : Int) - d.slc)).sum := by
  obtain ⟨r', h1, h2⟩ := C10_unified_fresh d ok hne asc win cmp heap
  have : r' = r := Res.ok.inj (h1.symm.trans hr)
  subst this
  exact (C10_tracking (h2 ms hms m hm) hops h).2.2

/-- The example with two files is of this kind. -/
example (win : Bool) (cmp : Str → Str → Int) (heap : Heap) : ∃ r ms m, parse win cmp heap (split exampleDiff.render.flatten) = Res.ok r ∧
    r.models = some ms ∧ m ∈ ms ∧ DModel.Fresh (m, r.heap) := by
  obtain ⟨r, h1, h2⟩ := C10_unified_fresh exampleDiff exampleDiff_ok (by decide) (by decide) win cmp heap
  obtain ⟨r', h1', _, h3⟩ := C26_unified exampleDiff exampleDiff_ok (by decide) win cmp heap
  have : r' = r := Res.ok.inj (h1'.symm.trans h1)
  subst this
  cases hms : r'.models with
  | none =>
    rw [hms] at h3
    have hc : ∃ f ∈ exampleDiff.files, f.changes = true := ⟨_, List.mem_cons_self .., by decide⟩
    obtain ⟨f, hf, hc⟩ := hc
    exact absurd (h3 f hf) (by rw [hc]; decide)
  | some ms =>
    rw [hms] at h3
    obtain ⟨m, hm⟩ := List.exists_mem_of_ne_nil _ h3.1
    exact ⟨r', ms, m, h1, hms, hm, h2 ms hms m hm⟩

end KompareDiff2
