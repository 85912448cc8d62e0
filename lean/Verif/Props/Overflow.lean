import Verif.Proofs.Int32Exact
import Verif.Model.LinesChanged32
import Verif.Props.Tracked
import Verif.Props.Context
import Verif.Props.Normal
/-
C61: line numbers and the range of `int`.
-/
namespace KompareDiff2
open Spec

/-- **C61.** For every text: with line numbers and counts computed as 32-bit `int`s the parser does what it does with unbounded numbers,
or its behaviour is undefined; it never continues with a wrapped number. -/
theorem C61_same_or_undefined (win : Bool) (cmp : Str → Str → Int) (heap : Heap) (lines : List Str) :
    parse32 win cmp heap lines = Res.ub ∨ parse32 win cmp heap lines = parse win cmp heap lines :=
  parse32_below win cmp heap lines

/-- **C61.** If no number on a line that may give line numbers (`@@ -`, `*** `, `--- `) exceeds the largest `int` less the number of lines
of the diff, nothing overflows while parsing: the parser behaves as with unbounded numbers.  This holds for every text, well-formed or not. -/
theorem C61_no_overflow (win : Bool) (cmp : Str → Str → Int) (heap : Heap) (lines : List Str) (h : FitsInt lines) :
    parse32 win cmp heap lines = parse win cmp heap lines :=
  parse32_ok h

/-- **C61.** The normal format computes no line numbers: nothing overflows, whatever the numbers are. -/
theorem C61_normal (win : Bool) (cmp : Str → Str → Int) (heap : Heap) (lines out : List Str) (hc : cleanUpCrap lines = Res.ok out)
    (hf : determineFormat (determineGenerator lines) out = .Normal) : parse32 win cmp heap lines = parse win cmp heap lines := by
  unfold parse32 parse
  rw [hc]
  simp only [Res.bind_ok, parseLines32, parseLines, hf]

/-- **C61.** Conversely, when parsing a unified or context diff does not overflow, the line after the last line of every hunk of every
model has a number within `int`, in both files. -/
theorem C61_in_range (win : Bool) (cmp : Str → Str → Int) (heap : Heap) (lines : List Str) {r : ParseResult}
    (h : parse32 win cmp heap lines = Res.ok r)
    (hf : ∀ out, cleanUpCrap lines = Res.ok out → determineFormat (determineGenerator lines) out ≠ .Normal)
    {ms : List DModel} (hms : r.models = some ms) : ∀ m ∈ ms, ∀ k ∈ m.hunks, (k.view r.heap).EndsFit := by
  unfold parse32 at h
  obtain ⟨out, ho, h⟩ := Res.bind_eq_ok.1 h
  have := parseLines32_fits h (hf out ho) ms hms
  intro m hm k hk
  exact ((this.each m hm).1).hunks k hk

theorem blockViews_srcLine (bs : List Block) : ∀ (a b : Nat) (v : DView), v ∈ blockViews a b bs →
    (a : Int) ≤ v.srcLine ∧ v.srcLine ≤ ((a + (bs.map (fun k => k.old.length)).sum : Nat) : Int) := by
  induction bs with
  | nil => intro a b v hv; simp [blockViews] at hv
  | cons k ks ih =>
    intro a b v hv
    simp only [blockViews, List.mem_cons] at hv
    rcases hv with rfl | hv
    · have e : (k.view a b).srcLine = (a : Int) := by cases k <;> rfl
      rw [e]
      exact ⟨Int.le_refl _, by simp only [Int.ofNat_le]; omega⟩
    · obtain ⟨h1, h2⟩ := ih _ _ v hv
      simp only [List.map_cons, List.sum_cons]
      constructor
      · push_cast at h1 ⊢; omega
      · push_cast at h2 ⊢; omega

theorem blockViews_sums (bs : List Block) : ∀ (a b : Nat),
    ((blockViews a b bs).map (fun v => v.src.length)).sum = (bs.map (fun k => k.old.length)).sum ∧
    ((blockViews a b bs).map (fun v => v.dst.length)).sum = (bs.map (fun k => k.new.length)).sum := by
  induction bs with
  | nil => intro a b; exact ⟨rfl, rfl⟩
  | cons k ks ih =>
    intro a b
    obtain ⟨h1, h2⟩ := ih (a + k.old.length) (b + k.new.length)
    simp only [blockViews, List.map_cons, List.sum_cons, h1, h2]
    cases k <;> simp [Block.view, Block.old, Block.new]

/-- The end of a hunk of a unified diff is an `int` in both files. -/
def Spec.UHunk.EndsFit (h : UHunk) : Prop := (h.srcLine : Int) + h.srcCount ≤ maxInt ∧ (h.dstLine : Int) + h.dstCount ≤ maxInt

theorem uhunk_endsFit (h : UHunk) : h.view.EndsFit ↔ h.EndsFit := by
  obtain ⟨h1, h2⟩ := blockViews_sums h.blocks h.srcLine h.dstLine
  unfold HView.EndsFit UHunk.EndsFit UHunk.view UHunk.srcCount UHunk.dstCount
  simp only [h1, h2]

theorem parse32_ok_parse {win : Bool} {cmp : Str → Str → Int} {heap : Heap} {lines : List Str} {r : ParseResult}
    (h : parse32 win cmp heap lines = Res.ok r) : parse win cmp heap lines = Res.ok r := by
  rcases C61_same_or_undefined win cmp heap lines with e | e
  · rw [e] at h; cases h
  · rw [← e]; exact h

/-- **C61.** For every well-formed unified diff of at most 2147483648 lines: if every hunk ends within `int` in both files, the parser computes with
`int`s what it computes with unbounded numbers – the models `C26` describes. -/
theorem C61_unified_fits (d : UDiff) (ok : d.Ok) (hne : d.files ≠ []) (hl : d.render.length ≤ 2147483648)
    (fit : ∀ f ∈ d.files, ∀ h ∈ f.hunks, h.EndsFit) (win : Bool) (cmp : Str → Str → Int) (heap : Heap) :
    parse32 win cmp heap (split d.render.flatten) = parse win cmp heap (split d.render.flatten) := by
  rw [UDiff.split_text d ok]
  exact (parse32_unified ok hne (Nat.le_trans (UDiff.clean_length ok) hl) win cmp heap).1 (fun f hf h hh => (uhunk_endsFit h).2 (fit f hf h hh))

/-- **C61.** … and if a hunk – of any file, changed or not – ends beyond the largest `int` in either file, the behaviour is undefined. -/
theorem C61_unified_ub (d : UDiff) (ok : d.Ok) (hne : d.files ≠ []) (hl : d.render.length ≤ 2147483648) {f : UFile} (hf : f ∈ d.files) {h : UHunk}
    (hh : h ∈ f.hunks) (big : ¬ h.EndsFit) (win : Bool) (cmp : Str → Str → Int) (heap : Heap) :
    parse32 win cmp heap (split d.render.flatten) = Res.ub := by
  rw [UDiff.split_text d ok]
  exact (parse32_unified ok hne (Nat.le_trans (UDiff.clean_length ok) hl) win cmp heap).2
    (fun all => big ((uhunk_endsFit h).1 (all f hf h hh)))

theorem cblockViews_sums (bs : List CBlock) : ∀ (a b : Nat),
    ((cblockViews a b bs).map (fun v => v.src.length)).sum = (bs.map (fun k => k.old.length)).sum ∧
    ((cblockViews a b bs).map (fun v => v.dst.length)).sum = (bs.map (fun k => k.new.length)).sum := by
  induction bs with
  | nil => intro a b; exact ⟨rfl, rfl⟩
  | cons k ks ih =>
    intro a b
    obtain ⟨h1, h2⟩ := ih (a + k.old.length) (b + k.new.length)
    simp only [cblockViews, List.map_cons, List.sum_cons, h1, h2, CBlock.view]
    exact ⟨trivial, trivial⟩

/-- The end of a hunk of a context diff is an `int` in both files. -/
def Spec.CHunk.EndsFit (h : CHunk) : Prop := (h.srcLine : Int) + h.srcCount ≤ maxInt ∧ (h.dstLine : Int) + h.dstCount ≤ maxInt

theorem chunk_endsFit (h : CHunk) : h.view.EndsFit ↔ h.EndsFit := by
  obtain ⟨h1, h2⟩ := cblockViews_sums h.blocks h.srcLine h.dstLine
  unfold HView.EndsFit CHunk.EndsFit CHunk.view CHunk.srcCount CHunk.dstCount
  simp only [h1, h2]

/-- **C61.** The same for every well-formed context diff: if every hunk ends within `int`, nothing overflows … -/
theorem C61_context_fits (d : CDiff) (ok : d.Ok) (hne : d.files ≠ []) (fit : ∀ f ∈ d.files, ∀ h ∈ f.hunks, h.EndsFit) (win : Bool)
    (cmp : Str → Str → Int) (heap : Heap) : parse32 win cmp heap (split d.render.flatten) = parse win cmp heap (split d.render.flatten) := by
  rw [CDiff.split_text d ok]
  exact (parse32_context ok hne win cmp heap).1 (fun f hf h hh => (chunk_endsFit h).2 (fit f hf h hh))

/-- **C61.** … and otherwise the behaviour is undefined. -/
theorem C61_context_ub (d : CDiff) (ok : d.Ok) (hne : d.files ≠ []) {f : CFile} (hf : f ∈ d.files) {h : CHunk}
    (hh : h ∈ f.hunks) (big : ¬ h.EndsFit) (win : Bool) (cmp : Str → Str → Int) (heap : Heap) :
    parse32 win cmp heap (split d.render.flatten) = Res.ub := by
  rw [CDiff.split_text d ok]
  exact (parse32_context ok hne win cmp heap).2 (fun all => big ((chunk_endsFit h).1 (all f hf h hh)))

theorem sum_filter_le {α : Type} (p : α → Bool) (f : α → Nat) (l : List α) : ((l.filter p).map f).sum ≤ (l.map f).sum := by
  induction l with
  | nil => simp
  | cons x xs ih =>
    rw [List.filter_cons]
    split <;> simp only [List.map_cons, List.sum_cons] <;> omega

theorem growth_bounds (ds : List Diff) (k : Nat) (d : Diff) (hd : ds[k]? = some d) :
    (((ds.take k).filter (fun d => d.applied)).map (fun d => (d.dlc : Int) - d.slc)).sum + d.dlc ≤ ((ds.map Diff.dlc).sum : Nat) ∧
    -((ds.map Diff.slc).sum : Nat) ≤ (((ds.take k).filter (fun d => d.applied)).map (fun d => (d.dlc : Int) - d.slc)).sum := by
  induction ds generalizing k with
  | nil => simp at hd
  | cons x xs ih =>
    cases k with
    | zero =>
      simp only [List.getElem?_cons_zero, Option.some.injEq] at hd
      subst hd
      simp only [List.take_zero, List.filter_nil, List.map_nil, List.sum_nil, List.map_cons, List.sum_cons]
      omega
    | succ k =>
      simp only [List.getElem?_cons_succ] at hd
      obtain ⟨h1, h2⟩ := ih k hd
      rw [List.take_succ_cons, List.filter_cons]
      split
      · simp only [List.map_cons, List.sum_cons]
        omega
      · simp only [List.map_cons, List.sum_cons]
        omega

/-- **C61.** Applying and unapplying: whatever is called on the differences of a freshly parsed model, no tracking line number (and no line
after the last tracked line) ever leaves the range of `int`, provided the source line of every difference plus all lines the diff adds does not. -/
theorem C61_tracking {s s' : DModel × Heap} (hs : DModel.Fresh s) {ops : List MOp} (hops : MOp.Own s ops) (h : runOps ops s = Res.ok s')
    (low : ((s.1.differences.map (fun i => (s.2.cell i).slc)).sum : Nat) ≤ 2147483648)
    (fit : ∀ i ∈ s.1.differences, 0 ≤ (s.2.cell i).sourceLineNo ∧
      (s.2.cell i).sourceLineNo + ((s.1.differences.map (fun i => (s.2.cell i).dlc)).sum : Nat) ≤ maxInt) :
    ∀ i ∈ s'.1.differences, -2147483648 ≤ (s'.2.cell i).tracking ∧ (s'.2.cell i).tracking ≤ maxInt ∧ (s'.2.cell i).trackingEnd ≤ maxInt := by
  obtain ⟨e, same, tr⟩ := C10_tracking hs hops h
  intro i hi
  obtain ⟨k, hk⟩ := List.getElem?_of_mem hi
  have hk' : (s'.1.differences.map s'.2.cell)[k]? = some (s'.2.cell i) := by rw [List.getElem?_map, hk]; rfl
  have t := tr k _ hk'
  obtain ⟨b1, b2⟩ := growth_bounds _ k _ hk'
  have e1 : (s'.1.differences.map s'.2.cell).map Diff.dlc = s.1.differences.map (fun i => (s.2.cell i).dlc) := by
    rw [e, List.map_map]
    exact List.map_congr_left (fun j _ => by simp only [Function.comp, Diff.dlc, (same j).dest])
  have e2 : (s'.1.differences.map s'.2.cell).map Diff.slc = s.1.differences.map (fun i => (s.2.cell i).slc) := by
    rw [e, List.map_map]
    exact List.map_congr_left (fun j _ => by simp only [Function.comp, Diff.slc, (same j).source])
  rw [e1] at b1
  rw [e2] at b2
  have hf := fit i (e ▸ hi)
  rw [← (same i).sourceLineNo] at hf
  unfold Diff.trackingEnd
  rw [t]
  omega

/-- **C61.** Together: a well-formed unified diff with ascending hunks whose parsing did not overflow, where the end of every hunk plus all
lines the file's hunks contain in the new version stays within `int`; then after any calls on the differences of a model every tracked
line number is within `int`. -/
theorem C61_unified (d : UDiff) (ok : d.Ok) (hne : d.files ≠ [])
    (asc : ∀ f ∈ d.files, f.hunks.Pairwise (fun h h' => h.dstLine + h.dstCount < h'.dstLine))
    (low : ∀ f ∈ d.files, (f.hunks.map UHunk.srcCount).sum ≤ 2147483648)
    (fit : ∀ f ∈ d.files, ∀ h ∈ f.hunks, (h.srcLine : Int) + h.srcCount + ((f.hunks.map UHunk.dstCount).sum : Nat) ≤ maxInt)
    (win : Bool) (cmp : Str → Str → Int) (heap : Heap) {r : ParseResult} (hr : parse32 win cmp heap (split d.render.flatten) = Res.ok r)
    {ms : List DModel} (hms : r.models = some ms) {m : DModel} (hm : m ∈ ms) {ops : List MOp} (hops : MOp.Own (m, r.heap) ops)
    {s' : DModel × Heap} (h : runOps ops (m, r.heap) = Res.ok s') :
    ∀ i ∈ s'.1.differences, -2147483648 ≤ (s'.2.cell i).tracking ∧ (s'.2.cell i).tracking ≤ maxInt ∧ (s'.2.cell i).trackingEnd ≤ maxInt := by
  have hp := parse32_ok_parse hr
  obtain ⟨r', h1, h2⟩ := C10_unified_fresh d ok hne asc win cmp heap
  have : r' = r := Res.ok.inj (h1.symm.trans hp)
  subst this
  obtain ⟨r2, k1, _, k2⟩ := C26_unified d ok hne win cmp heap
  have : r2 = r' := Res.ok.inj (k1.symm.trans hp)
  subst this
  rw [hms] at k2
  have hv : m.view r2.heap ∈ (d.files.filter UFile.changes).map (UFile.view (unescapePath win)) :=
    k2.2.mem_iff.1 (List.mem_map.2 ⟨m, hm, rfl⟩)
  obtain ⟨f, hf, hv⟩ := List.mem_map.1 hv
  have hf := (List.mem_filter.1 hf).1
  have hd : m.differences.map (fun i => (r2.heap.cell i).view) =
      (f.hunks.flatMap (fun h => h.view.diffs)).filter (fun d => d.type ≠ .Unchanged) := (congrArg MView.differences hv).symm
  have sums : ((f.hunks.flatMap (fun h => h.view.diffs)).map (fun v => v.src.length)).sum = (f.hunks.map UHunk.srcCount).sum ∧
      ((f.hunks.flatMap (fun h => h.view.diffs)).map (fun v => v.dst.length)).sum = (f.hunks.map UHunk.dstCount).sum := by
    generalize f.hunks = hs
    induction hs with
    | nil => exact ⟨rfl, rfl⟩
    | cons x xs ih =>
      have := blockViews_sums x.blocks x.srcLine x.dstLine
      simp only [List.flatMap_cons, List.map_append, List.sum_append, List.map_cons, List.sum_cons, ih]
      exact ⟨by rw [show (x.view.diffs.map (fun v => v.src.length)).sum = x.srcCount from this.1],
        by rw [show (x.view.diffs.map (fun v => v.dst.length)).sum = x.dstCount from this.2]⟩
  have s1 : (m.differences.map (fun i => (r2.heap.cell i).slc)).sum ≤ (f.hunks.map UHunk.srcCount).sum := by
    have e : m.differences.map (fun i => (r2.heap.cell i).slc) = (m.differences.map (fun i => (r2.heap.cell i).view)).map (fun v => v.src.length) := by
      rw [List.map_map]; exact List.map_congr_left (fun j _ => view_slc.symm)
    rw [e, hd, ← sums.1]; exact sum_filter_le _ _ _
  have s2 : (m.differences.map (fun i => (r2.heap.cell i).dlc)).sum ≤ (f.hunks.map UHunk.dstCount).sum := by
    have e : m.differences.map (fun i => (r2.heap.cell i).dlc) = (m.differences.map (fun i => (r2.heap.cell i).view)).map (fun v => v.dst.length) := by
      rw [List.map_map]; exact List.map_congr_left (fun j _ => view_dlc.symm)
    rw [e, hd, ← sums.2]; exact sum_filter_le _ _ _
  refine C61_tracking (h2 ms hms m hm) hops h ?_ ?_
  · have := low f hf
    show (m.differences.map (fun i => (r2.heap.cell i).slc)).sum ≤ 2147483648
    omega
  · intro i hi
    have hvi : (r2.heap.cell i).view ∈ m.differences.map (fun i => (r2.heap.cell i).view) := List.mem_map.2 ⟨i, hi, rfl⟩
    rw [hd] at hvi
    obtain ⟨x, hx, hvi⟩ := List.mem_flatMap.1 (List.mem_filter.1 hvi).1
    have q := blockViews_srcLine x.blocks _ _ _ hvi
    have w := fit f hf x hx
    have e : (r2.heap.cell i).view.srcLine = (r2.heap.cell i).sourceLineNo := rfl
    rw [e] at q
    have e3 : (x.blocks.map (fun k => k.old.length)).sum = x.srcCount := rfl
    rw [e3] at q
    show 0 ≤ (r2.heap.cell i).sourceLineNo ∧ (r2.heap.cell i).sourceLineNo + ((m.differences.map (fun i => (r2.heap.cell i).dlc)).sum : Nat) ≤ maxInt
    omega

theorem normal_format (cs : List NCmd) (ok : ∀ c ∈ cs, c.Ok) (hne : cs ≠ []) :
    cleanUpCrap (cs.flatMap NCmd.render) = Res.ok (cs.flatMap NCmd.render) ∧
    determineFormat (determineGenerator (cs.flatMap NCmd.render)) (cs.flatMap NCmd.render) = .Normal := by
  have hl := ncmds_lines cs ok
  refine ⟨clean_quiet _ (fun l h => (hl l h).1.quiet.2.2.1), ?_⟩
  rw [generator_diff _ (fun l h => ⟨(hl l h).1.quiet.1, (hl l h).1.quiet.2.1⟩)]
  cases cs with
  | nil => exact absurd rfl hne
  | cons c cs => simp only [List.flatMap_cons, NCmd.render, List.cons_append, determineFormat, command_format c]

/-- **C61.** In the normal format the numbers are not checked: for every command that changes or removes lines from line 2147483647 on, the parsed
difference starts at that line, and the line after its last line, `sourceLineEnd()`, is a *negative* number (the sum is narrowed to `int`). -/
theorem C61_normal_end_defect (cs : List NCmd) (ok : ∀ c ∈ cs, c.Ok) {c : NCmd} (hc : c ∈ cs) (h1 : c.lineNumbers.1 = 2147483647)
    (h2 : c.type ≠ .Insert) (hl : c.old.length ≤ 2147483648) (win : Bool) (cmp : Str → Str → Int) (heap : Heap) :
    ∃ m h', parse32 win cmp heap (split (cs.flatMap NCmd.render).flatten) = Res.ok { models := some [m], malformed := false, heap := h' } ∧
      ∃ i ∈ m.differences, (h'.cell i).sourceLineNo = 2147483647 ∧ (h'.cell i).sourceEnd32 < 0 := by
  have hne : cs ≠ [] := fun e => by subst e; cases hc
  obtain ⟨m, h', k1, k2⟩ := C32_normal cs ok hne win cmp heap
  refine ⟨m, h', ?_, ?_⟩
  · rw [← k1, nlines_split _ (fun l hl => (ncmds_lines cs ok l hl).2)]
    obtain ⟨a, b⟩ := normal_format cs ok hne
    exact C61_normal win cmp heap _ _ a b
  · have hd : m.differences.map (fun i => (h'.cell i).view) = cs.flatMap (fun c => c.view.diffs) := congrArg MView.differences k2
    have hv : (c.view.diffs.head (by simp [NCmd.view])) ∈ m.differences.map (fun i => (h'.cell i).view) := by
      rw [hd]; exact List.mem_flatMap.2 ⟨c, hc, List.head_mem _⟩
    obtain ⟨i, hi, e⟩ := List.mem_map.1 hv
    refine ⟨i, hi, ?_⟩
    have e1 : (h'.cell i).sourceLineNo = (c.lineNumbers.1 : Int) := congrArg DView.srcLine e
    have e2 : (h'.cell i).view.src = c.old := congrArg DView.src e
    have e3 : (h'.cell i).slc = c.old.length := by rw [← e2]; exact view_slc.symm
    have hp : 0 < c.old.length := by
      have := (ok c hc).nonEmpty
      cases c with
      | insert _ _ _ => exact absurd rfl h2
      | delete _ ls _ => exact List.length_pos_iff.2 this
      | change _ r _ _ => exact List.length_pos_iff.2 this.1
    refine ⟨by rw [e1, h1]; rfl, ?_⟩
    unfold Diff.sourceEnd32 narrow32
    rw [e1, e3, h1, Int.bmod_def]
    split <;> omega

/-! ### Examples -/

/-- The example diffs end within `int`. -/
example (win : Bool) (cmp : Str → Str → Int) (heap : Heap) :
    parse32 win cmp heap (split exampleDiff.render.flatten) = parse win cmp heap (split exampleDiff.render.flatten) :=
  C61_unified_fits exampleDiff exampleDiff_ok (by decide) (by decide) (by unfold UHunk.EndsFit; decide) win cmp heap

example (win : Bool) (cmp : Str → Str → Int) (heap : Heap) :
    parse32 win cmp heap (split exampleContext.render.flatten) = parse win cmp heap (split exampleContext.render.flatten) :=
  C61_context_fits exampleContext exampleContext_ok (by decide) (by unfold CHunk.EndsFit; decide) win cmp heap

/-- A diff that removes the line with the largest number. -/
def hugeDiff : UDiff :=
  { files := [{ src := { name := str "a" }, dst := { name := str "b" },
                hunks := [{ srcLine := 2147483647, dstLine := 7, blocks := [.change [{ text := str "x" }] [{ text := str "y" }]] }] }] }

theorem hugeDiff_ok : hugeDiff.Ok := by
  refine ⟨?_, ?_, ?_, ⟨by intro t ht; simp [hugeDiff] at ht, by intro t ts e; simp [hugeDiff] at e⟩⟩
  · intro f hf
    simp only [hugeDiff, List.mem_cons, List.not_mem_nil, or_false] at hf
    subst hf
    refine ⟨⟨by decide, by simp, by simp⟩, ⟨by decide, by simp, by simp⟩, ?_, by simp⟩
    intro h hh
    simp only [List.mem_cons, List.not_mem_nil, or_false] at hh
    subst hh
    exact ⟨⟨by decide, by decide, by decide, by decide⟩, ⟨by decide, by decide, by decide, by decide⟩, by simp,
      by intro b hb; simp only [List.mem_cons, List.not_mem_nil, or_false] at hb; subst hb; simp [Block.NonEmpty],
      by simp [SeparatedBlocks], by decide⟩
  · intro f fs e
    simp only [hugeDiff, List.cons.injEq] at e
    obtain ⟨rfl, rfl⟩ := e
    refine ⟨by simp, fun h => ?_⟩
    simp [hugeDiff] at h
  · intro f fs e g hg
    simp only [hugeDiff, List.cons.injEq] at e
    obtain ⟨rfl, rfl⟩ := e
    cases hg

example (win : Bool) (cmp : Str → Str → Int) (heap : Heap) : parse32 win cmp heap (split hugeDiff.render.flatten) = Res.ub :=
  C61_unified_ub hugeDiff hugeDiff_ok (by decide) (by decide) (List.mem_cons_self ..) (List.mem_cons_self ..) (by unfold UHunk.EndsFit; decide) win cmp heap

/-- A command that removes that line, in the normal format. -/
example (win : Bool) (cmp : Str → Str → Int) (heap : Heap) := C61_normal_end_defect [.delete 2147483647 [str "x"] 7]
  (by
    intro c hc
    simp only [List.mem_cons, List.not_mem_nil, or_false] at hc
    subst hc
    exact ⟨by simp, by decide, by decide⟩) (List.mem_cons_self ..) rfl (by decide) (by decide) win cmp heap

/-- The example with two files: after any calls the tracked line numbers are within `int`. -/
example (win : Bool) (cmp : Str → Str → Int) (heap : Heap) {r : ParseResult} (hr : parse win cmp heap (split exampleDiff.render.flatten) = Res.ok r)
    {ms : List DModel} (hms : r.models = some ms) {m : DModel} (hm : m ∈ ms) {ops : List MOp} (hops : MOp.Own (m, r.heap) ops)
    {s' : DModel × Heap} (h : runOps ops (m, r.heap) = Res.ok s') :
    ∀ i ∈ s'.1.differences, -2147483648 ≤ (s'.2.cell i).tracking ∧ (s'.2.cell i).tracking ≤ maxInt ∧ (s'.2.cell i).trackingEnd ≤ maxInt :=
  C61_unified exampleDiff exampleDiff_ok (by decide) (by decide) (by decide) (by decide) win cmp heap
    ((C61_unified_fits exampleDiff exampleDiff_ok (by decide) (by decide) (by unfold UHunk.EndsFit; decide) win cmp heap).trans hr) hms hm hops h

/-- Ordinary text of any kind, even if it is no well-formed diff, has numbers that fit. -/
example (win : Bool) (cmp : Str → Str → Int) (heap : Heap) (ls : List Str) (hl : ls.length ≤ 1000)
    (h : ∀ l ∈ ls, ∀ s, LineNumber l s → s.length ≤ 9) : parse32 win cmp heap ls = parse win cmp heap ls := by
  refine C61_no_overflow win cmp heap ls (fun l hm s hs => ?_)
  have h9 := h l hm s hs
  have key : ∀ (t : Str) (n : Nat), (∀ c ∈ t, Digit c) →
      t.foldl (fun n c => 10 * n + (c.toNat - '0'.toNat)) n + 1 ≤ (n + 1) * 10 ^ t.length := by
    intro t
    induction t with
    | nil => intro n _; simp
    | cons c t ih =>
      intro n hd
      have hc : c.toNat - '0'.toNat ≤ 9 := by
        have := (hd c (List.mem_cons_self ..)).2
        have : c.toNat ≤ '9'.toNat := this
        simp only [show '9'.toNat = 57 from rfl, show '0'.toNat = 48 from rfl] at this ⊢
        omega
      refine Nat.le_trans (ih _ (fun x hx => hd x (List.mem_cons_of_mem _ hx))) ?_
      rw [List.length_cons, Nat.pow_succ, Nat.mul_comm (10 ^ t.length) 10, ← Nat.mul_assoc]
      exact Nat.mul_le_mul_right _ (by dsimp only; omega)
  have k := key s 0 hs.1.2
  have p : 10 ^ s.length ≤ 10 ^ 9 := Nat.pow_le_pow_right (by decide) h9
  have e : decimal s = s.foldl (fun n c => 10 * n + (c.toNat - '0'.toNat)) 0 := rfl
  rw [← e] at k
  unfold maxInt
  have : (10 : Nat) ^ 9 = 1000000000 := by decide
  omega

end KompareDiff2
