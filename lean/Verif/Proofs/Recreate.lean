import Verif.Spec.Recreate
import Verif.Proofs.Escape
import Verif.Proofs.Decimal
/-
A model that can be written is written as a well-formed unified diff.
-/
namespace KompareDiff2
open Spec

/-! ### The unified diff that stands for a model -/

/-- The line of a text. -/
def Spec.Line.ofStr (s : Str) : Line := { text := s.dropLast }

/-- The block of a difference. -/
def Spec.Block.ofView (d : DView) : Block :=
  if d.type = .Unchanged then .context (d.src.map Line.ofStr) else .change (d.src.map Line.ofStr) (d.dst.map Line.ofStr)

/-- The hunk. -/
def Spec.UHunk.ofView (h : HView) : UHunk :=
  { srcLine := (h.srcLine + drift h.srcCount).toNat, dstLine := (h.dstLine + drift h.dstCount).toNat,
    function := if h.function = [] then none else some h.function, blocks := h.diffs.map Block.ofView }

/-- The file. -/
def Spec.UFile.ofView (win : Bool) (v : MView) : UFile :=
  { src := { name := escapePath win v.source, stamp := some v.sourceTimestamp, extra := if v.sourceRevision = [] then none else some v.sourceRevision },
    dst := { name := escapePath win v.destination, stamp := some v.destinationTimestamp,
             extra := if v.destinationRevision = [] then none else some v.destinationRevision },
    hunks := v.ownHunks.map UHunk.ofView }

/-! ### Escaped names -/

theorem mem_replaceFuel {b a : Str} (n : Nat) : ∀ {s : Str} {x : Char}, x ∈ replaceFuel b a n s → x ∈ s ∨ x ∈ a := by
  induction n with
  | zero => intro s x h; exact .inl h
  | succ n ih =>
    intro s x h
    cases s with
    | nil => simp [replaceFuel] at h
    | cons y s =>
      simp only [replaceFuel] at h
      split at h
      · rcases List.mem_append.1 h with h | h
        · exact .inr h
        · rcases ih h with h | h
          · exact .inl (List.mem_of_mem_drop h)
          · exact .inr h
      · rcases List.mem_cons.1 h with rfl | h
        · simp
        · rcases ih h with h | h
          · exact .inl (by simp [h])
          · exact .inr h

theorem escape_mem {win : Bool} {p : Str} {x : Char} (h : x ∈ escapePath win p) : x ∈ p ∨ x = '\\' ∨ x = '"' := by
  have q : str "\"" = ['"'] := rfl
  have b : str "\\\\" = ['\\', '\\'] := rfl
  have bq : str "\\\"" = ['\\', '"'] := rfl
  have key : x ∈ replaceAll (str "\"") (str "\\\"") (if win then p else replaceAll (str "\\") (str "\\\\") p) → x ∈ p ∨ x = '\\' ∨ x = '"' := by
    intro h
    rcases mem_replaceFuel _ h with h | h
    · cases win with
      | true => exact .inl h
      | false =>
        rcases mem_replaceFuel _ h with h | h
        · exact .inl h
        · rw [b] at h; simp at h; exact .inr (.inl h)
    · rw [bq] at h; simp at h; exact .inr h
  unfold escapePath at h
  dsimp only at h
  generalize replaceAll (str "\"") (str "\\\"") (if win = true then p else replaceAll (str "\\") (str "\\\\") p) = r at h key
  by_cases hc : r.contains ' ' = true
  · rw [if_pos hc] at h
    simp only [List.mem_append, q, List.mem_singleton] at h
    rcases h with (h | h) | h
    · exact .inr (.inr h)
    · exact key h
    · exact .inr (.inr h)
  · rw [if_neg hc] at h
    exact key h

theorem escape_field {win : Bool} {p : Str} (h : HeaderField p) : HeaderField (escapePath win p) := by
  refine ⟨?_, ?_, ?_⟩
  · intro e
    have := unescape_escape win p
    rw [e] at this
    apply h.1
    rw [← this]
    cases win <;> decide
  · intro hx
    rcases escape_mem hx with h1 | h1 | h1
    · exact h.2.1 h1
    · cases h1
    · cases h1
  · intro hx
    rcases escape_mem hx with h1 | h1 | h1
    · exact h.2.2 h1
    · cases h1
    · cases h1

/-! ### Lines and blocks -/

theorem ofStr_value {l : Str} (h : TextLine l) : (Line.ofStr l).value = l := by
  obtain ⟨t, rfl, _⟩ := h
  simp [Line.ofStr, Line.value]

theorem ofStr_values {ls : List Str} (h : ∀ l ∈ ls, TextLine l) : (ls.map Line.ofStr).map Line.value = ls := by
  rw [List.map_map]
  conv => rhs; rw [← List.map_id ls]
  exact List.map_congr_left (fun l hl => ofStr_value (h l hl))

theorem ofStr_render {c : Char} {ls : List Str} (h : ∀ l ∈ ls, TextLine l) :
    ((ls.map Line.ofStr).flatMap (Line.render c)).flatten = (ls.map (fun l => c :: l)).flatten := by
  induction ls with
  | nil => rfl
  | cons l ls ih =>
    obtain ⟨t, rfl, _⟩ := h l (by simp)
    simp only [List.map_cons, List.flatMap_cons, List.flatten_append, List.flatten_cons, ih (fun l hl => h l (by simp [hl]))]
    simp [Line.ofStr, Line.render]

theorem block_old {d : DView} (w : d.Writable) : (Block.ofView d).old.length = d.src.length := by
  unfold Block.ofView
  split <;> simp [Block.old]

theorem block_new {d : DView} (w : d.Writable) : (Block.ofView d).new.length = d.dst.length := by
  have := w.kind
  unfold Block.ofView
  split
  · next e => rw [e] at this; simp [Block.new, this.2]
  · simp [Block.new]

theorem block_ok {d : DView} (w : d.Writable) :
    (Block.ofView d).NonEmpty ∧ ∀ l ∈ (Block.ofView d).old ++ (Block.ofView d).new, '\n' ∉ l.text ∧ l.text.length < 65534 := by
  have hk := w.kind
  constructor
  · unfold Block.ofView
    split
    · next e => rw [e] at hk; simpa [Block.NonEmpty] using hk.1
    · next e =>
      simp only [Block.NonEmpty, ne_eq, List.map_eq_nil_iff]
      cases ht : d.type with
      | Unchanged => exact absurd ht e
      | Insert => rw [ht] at hk; exact .inr hk.2
      | Delete => rw [ht] at hk; exact .inl hk.1
      | Change => rw [ht] at hk; exact .inl hk.1
  · intro l hl
    have : ∃ s ∈ d.src ++ d.dst, l = Line.ofStr s := by
      unfold Block.ofView at hl
      split at hl
      · simp only [Block.old, Block.new, List.mem_append, or_self, List.mem_map] at hl
        obtain ⟨s, hs, e⟩ := hl
        exact ⟨s, by simp [hs], e.symm⟩
      · simp only [Block.old, Block.new, List.mem_append, List.mem_map] at hl
        rcases hl with ⟨s, hs, e⟩ | ⟨s, hs, e⟩
        · exact ⟨s, by simp [hs], e.symm⟩
        · exact ⟨s, by simp [hs], e.symm⟩
    obtain ⟨s, hs, rfl⟩ := this
    obtain ⟨t, rfl, h1, h2⟩ := w.lines s hs
    simpa [Line.ofStr] using ⟨h1, h2⟩

theorem block_view {d : DView} (w : d.Writable) (a b : Nat) (p q : Int) (ha : d.srcLine + p = a) (hb : d.dstLine + q = b) :
    (Block.ofView d).view a b = d.reread p q := by
  have hk := w.kind
  have hs : ∀ l ∈ d.src, TextLine l := fun l hl => w.lines l (by simp [hl])
  have hd : ∀ l ∈ d.dst, TextLine l := fun l hl => w.lines l (by simp [hl])
  unfold Block.ofView
  split
  · next e =>
    rw [e] at hk
    simp only [Block.view, DView.reread, ofStr_values hs, ha, hb, e, hk.2]
  · next e =>
    simp only [Block.view, DView.reread, ofStr_values hs, ofStr_values hd, ha, hb, List.map_eq_nil_iff]
    cases ht : d.type with
    | Unchanged => exact absurd ht e
    | Insert => rw [ht] at hk; simp [hk.1]
    | Delete => rw [ht] at hk; simp [hk.1, hk.2]
    | Change => rw [ht] at hk; simp [hk.1, hk.2]

theorem blocks_view (ds : List DView) (w : ∀ d ∈ ds, d.Writable) (x y p q : Int) (a b : Nat) (pl : Contiguous x y ds) (ha : x + p = a) (hb : y + q = b) :
    blockViews a b (ds.map Block.ofView) = ds.map (DView.reread p q) := by
  induction ds generalizing x y a b with
  | nil => rfl
  | cons d ds ih =>
    obtain ⟨h1, h2, h3⟩ := pl
    simp only [List.map_cons, blockViews]
    rw [block_view (w d (by simp)) a b p q (by rw [h1]; exact ha) (by rw [h2]; exact hb), block_old (w d (by simp)), block_new (w d (by simp))]
    rw [ih (fun d hd => w d (by simp [hd])) _ _ _ _ h3 (by omega) (by omega)]

theorem blocks_separated (ds : List DView) (w : ∀ d ∈ ds, d.Writable) (h : AllApart ds) : SeparatedBlocks (ds.map Block.ofView) := by
  induction ds with
  | nil => exact trivial
  | cons d ds ih =>
    cases ds with
    | nil => exact trivial
    | cons d' ds =>
      refine ⟨?_, ih (fun d hd => w d (by simp [hd])) h.2⟩
      obtain ⟨⟨h1, h2⟩, _⟩ := h
      unfold Block.ofView
      by_cases e : d.type = .Unchanged
      · simp [e, h1 e, Block.Separated]
      · by_cases e' : d'.type = .Unchanged
        · simp [e, e', Block.Separated]
        · simpa [e, e', Block.Separated] using h2 e e'

theorem counts_src (ds : List DView) (w : ∀ d ∈ ds, d.Writable) :
    ((ds.map Block.ofView).map (fun b => b.old.length)).sum = (ds.map (fun d => d.src.length)).sum := by
  rw [List.map_map]
  exact congrArg List.sum (List.map_congr_left (fun d hd => block_old (w d hd)))

theorem counts_dst (ds : List DView) (w : ∀ d ∈ ds, d.Writable) :
    ((ds.map Block.ofView).map (fun b => b.new.length)).sum = (ds.map (fun d => d.dst.length)).sum := by
  rw [List.map_map]
  exact congrArg List.sum (List.map_congr_left (fun d hd => block_new (w d hd)))

/-! ### Hunks -/

theorem hunkOf_counts {k : HView} (w : k.Writable) : (UHunk.ofView k).srcCount = k.srcCount ∧ (UHunk.ofView k).dstCount = k.dstCount :=
  ⟨counts_src k.diffs w.diffs, counts_dst k.diffs w.diffs⟩

theorem drift_le (n : Nat) : 0 ≤ drift n ∧ drift n ≤ 1 := by unfold drift; split <;> decide

theorem hunkOf_view {k : HView} (w : k.Writable) : (UHunk.ofView k).view = k.reread := by
  have hs := drift_le k.srcCount
  have hd := drift_le k.dstCount
  have h1 := w.src.1
  have h2 := w.dst.1
  have ea : ((k.srcLine + drift k.srcCount).toNat : Int) = k.srcLine + drift k.srcCount := Int.toNat_of_nonneg (by omega)
  have eb : ((k.dstLine + drift k.dstCount).toNat : Int) = k.dstLine + drift k.dstCount := Int.toNat_of_nonneg (by omega)
  unfold UHunk.view HView.reread UHunk.ofView
  simp only [blocks_view k.diffs w.diffs k.srcLine k.dstLine (drift k.srcCount) (drift k.dstCount) _ _ w.placed ea.symm eb.symm, ea, eb]
  congr 1
  split
  · next e => rw [e]; rfl
  · rfl

theorem hunkOf_ok {k : HView} (w : k.Writable) : (UHunk.ofView k).Ok := by
  obtain ⟨c1, c2⟩ := hunkOf_counts w
  have hs := drift_le k.srcCount
  have hd := drift_le k.dstCount
  obtain ⟨s1, s2, s3⟩ := w.src
  obtain ⟨d1, d2, d3⟩ := w.dst
  refine ⟨⟨by simp [UHunk.ofView], ?_, ?_, by rw [c1]; exact s3⟩, ⟨by simp [UHunk.ofView], ?_, ?_, by rw [c2]; exact d3⟩, ?_, ?_, ?_, ?_⟩
  · rw [c1]
    intro h0
    simp only [UHunk.ofView, drift, h0, if_true]
    omega
  · simp only [UHunk.ofView]; omega
  · rw [c2]
    intro h0
    simp only [UHunk.ofView, drift, h0, if_true]
    omega
  · simp only [UHunk.ofView]; omega
  · intro f hf
    simp only [UHunk.ofView] at hf
    split at hf
    · cases hf
    · simp only [Option.some.injEq] at hf; rw [← hf]; exact ⟨w.function, fun h => by cases h⟩
  · intro b hb
    obtain ⟨d, hd, rfl⟩ := List.mem_map.1 hb
    exact (block_ok (w.diffs d hd)).1
  · exact blocks_separated k.diffs w.diffs w.apart
  · intro b hb
    obtain ⟨d, hd, rfl⟩ := List.mem_map.1 hb
    exact (block_ok (w.diffs d hd)).2

theorem decInt_natCast (n : Nat) : decInt (n : Int) = decNat n := by simp [decInt]

theorem range_ofView (x : Int) (n : Nat) (hx : 0 ≤ x) : range (x + drift n).toNat n false = decInt x ++ ',' :: decNat n := by
  have e : (if n = 0 then (x + drift n).toNat - 1 else (x + drift n).toNat) = x.toNat := by
    unfold drift
    split <;> omega
  have : decInt x = decNat x.toNat := by
    conv => lhs; rw [show x = (x.toNat : Int) from by omega]
    exact decInt_natCast _
  rw [range, e, this]
  simp

theorem diff_render (d : Diff) (w : d.view.Writable) : (Block.ofView d.view).render.flatten = d.recreate := by
  have hk := w.kind
  have hs : ∀ l ∈ d.srcText, TextLine l := fun l hl => w.lines l (by simp [Diff.view, hl])
  have hd : ∀ l ∈ d.dstText, TextLine l := fun l hl => w.lines l (by simp [Diff.view, hl])
  have none : ∀ ls : List Str, (ls.map (fun _ => ([] : Str))).flatten = [] := by
    intro ls; induction ls with
    | nil => rfl
    | cons l ls ih => simpa using ih
  have ht : d.view.type = d.type := rfl
  have es : d.view.src = d.srcText := rfl
  have ed : d.view.dst = d.dstText := rfl
  rw [ht, es, ed] at hk
  unfold Block.ofView Diff.recreate Diff.recreateSource Diff.recreateDest
  rw [ht, es, ed]
  cases e : d.type with
  | Unchanged =>
    rw [e] at hk
    simp only [if_true, Block.render, ofStr_render hs, none, List.nil_append, hk.2]
  | Insert => rw [e] at hk; simp [Block.render, ofStr_render hs, ofStr_render hd, hk.1]
  | Delete => rw [e] at hk; simp [Block.render, ofStr_render hs, ofStr_render hd, hk.2]
  | Change => simp [Block.render, ofStr_render hs, ofStr_render hd]

theorem diff_counts (d : Diff) (w : d.view.Writable) : d.headerSlc = d.view.src.length ∧ d.headerDlc = d.view.dst.length := by
  have hk := w.kind
  have ht : d.view.type = d.type := rfl
  have es : d.view.src = d.srcText := rfl
  have ed : d.view.dst = d.dstText := rfl
  have ls : d.slc = d.srcText.length := by simp [Diff.slc, Diff.srcText]
  have ld : d.dlc = d.dstText.length := by simp [Diff.dlc, Diff.dstText]
  rw [ht, es, ed] at hk
  unfold Diff.headerSlc Diff.headerDlc
  rw [es, ed, ls, ld]
  cases e : d.type with
  | Unchanged => simp
  | Insert => rw [e] at hk; simp [hk.1]
  | Delete => rw [e] at hk; simp [hk.2]
  | Change => simp

/-- A hunk with its differences. -/
def Hunk.load (h : Heap) (k : Hunk Nat) : Hunk Diff :=
  { sourceLine := k.sourceLine, destLine := k.destLine, function := k.function, type := k.type, diffs := k.diffs.map h.cell }

theorem hunkOf_render (h : Heap) (k : Hunk Nat) (w : (k.view h).Writable) : (UHunk.ofView (k.view h)).render.flatten = (k.load h).recreate := by
  obtain ⟨c1, c2⟩ := hunkOf_counts w
  have wd : ∀ i ∈ k.diffs, (h.cell i).view.Writable := fun i hi => w.diffs _ (List.mem_map_of_mem hi)
  have hb : ((k.view h).diffs.map Block.ofView |>.flatMap Block.render).flatten = ((k.load h).diffs.map Diff.recreate).flatten := by
    have : ∀ is : List Nat, (∀ i ∈ is, (h.cell i).view.Writable) →
        (((is.map (fun i => (h.cell i).view)).map Block.ofView).flatMap Block.render).flatten = ((is.map h.cell).map Diff.recreate).flatten := by
      intro is
      induction is with
      | nil => intro _; rfl
      | cons i is ih =>
        intro hw
        simp only [List.map_cons, List.flatMap_cons, List.flatten_append, List.flatten_cons]
        rw [diff_render _ (hw i (by simp)), ih (fun i hi => hw i (by simp [hi]))]
    exact this k.diffs wd
  have n1 : (k.load h).headerSlc = (k.view h).srcCount := by
    simp only [Hunk.headerSlc, Hunk.load, HView.srcCount, Hunk.view, List.map_map]
    exact congrArg List.sum (List.map_congr_left (fun i hi => (diff_counts _ (wd i hi)).1))
  have n2 : (k.load h).headerDlc = (k.view h).dstCount := by
    simp only [Hunk.headerDlc, Hunk.load, HView.dstCount, Hunk.view, List.map_map]
    exact congrArg List.sum (List.map_congr_left (fun i hi => (diff_counts _ (wd i hi)).2))
  have hh : (UHunk.ofView (k.view h)).header = (k.load h).header := by
    unfold UHunk.header Hunk.header
    rw [c1, c2, n1, n2]
    simp only [UHunk.ofView]
    rw [range_ofView _ _ w.src.1, range_ofView _ _ w.dst.1, decInt_natCast, decInt_natCast]
    have ef : (k.load h).function = (k.view h).function := rfl
    have es : (k.load h).sourceLine = (k.view h).srcLine := rfl
    have ed : (k.load h).destLine = (k.view h).dstLine := rfl
    rw [ef, es, ed]
    have hc : str "," = [','] := rfl
    have hn : str "\n" = ['\n'] := rfl
    rw [hc, hn]
    by_cases e : (k.view h).function = []
    · simp [e]
    · simp [e]
  unfold UHunk.render Hunk.recreate
  rw [List.flatten_cons, hh, ← hb]
  rfl

/-! ### Files -/

theorem fileOf_ok (win : Bool) {v : MView} (w : v.Writable) : (UFile.ofView win v).Ok := by
  refine ⟨⟨escape_field w.source, ?_, ?_⟩, ⟨escape_field w.destination, ?_, ?_⟩, ?_, by simp [UFile.ofView]⟩
  · intro ts h; simp only [UFile.ofView, Option.some.injEq] at h; rw [← h]; exact w.sourceTimestamp
  · intro e h
    simp only [UFile.ofView] at h
    split at h
    · cases h
    · simp only [Option.some.injEq] at h; rw [← h]; exact w.sourceRevision
  · intro ts h; simp only [UFile.ofView, Option.some.injEq] at h; rw [← h]; exact w.destinationTimestamp
  · intro e h
    simp only [UFile.ofView] at h
    split at h
    · cases h
    · simp only [Option.some.injEq] at h; rw [← h]; exact w.destinationRevision
  · intro k hk
    obtain ⟨v', hv', rfl⟩ := List.mem_map.1 hk
    exact hunkOf_ok (w.hunks v' hv')

theorem fileOf_view (win : Bool) {v : MView} (w : v.Writable) : (UFile.ofView win v).view (unescapePath win) = v.reread := by
  have hh : (v.ownHunks.map UHunk.ofView).map UHunk.view = v.ownHunks.map HView.reread := by
    rw [List.map_map]
    exact List.map_congr_left (fun k hk => hunkOf_view (w.hunks k hk))
  have hd : (v.ownHunks.map UHunk.ofView).flatMap (fun k => k.view.diffs) = v.ownHunks.flatMap (fun k => k.reread.diffs) := by
    rw [List.flatMap_map]
    rw [List.flatMap_def, List.flatMap_def]
    exact congrArg List.flatten (List.map_congr_left (fun k hk => by rw [hunkOf_view (w.hunks k hk)]))
  simp only [UFile.view, UFile.ofView, MView.reread, unescape_escape, hh, hd, Option.getD_some]

theorem fileOf_changes (win : Bool) {v : MView} : (UFile.ofView win v).changes = v.hasChange := by
  unfold UFile.changes MView.hasChange UFile.ofView
  simp only [List.any_map]
  congr 1
  funext k
  simp only [Function.comp_apply, UHunk.ofView, List.any_map]
  congr 1
  funext d
  simp only [Function.comp_apply, Block.ofView]
  by_cases e : d.type = .Unchanged <;> simp [e, Block.isChange]

theorem fileOf_render (win : Bool) (h : Heap) (m : DModel) (w : ∀ k ∈ (m.view h).ownHunks, k.Writable) : (UFile.ofView win (m.view h)).render.flatten = m.recreateDiff win h := by
  have hhunks : (((m.view h).ownHunks.map UHunk.ofView).flatMap UHunk.render).flatten =
      ((m.hunks.filter (fun k => k.type ≠ .AddedByBlend)).map (fun k => (k.load h).recreate)).flatten := by
    have e : (m.view h).ownHunks = (m.hunks.filter (fun k => k.type ≠ .AddedByBlend)).map (Hunk.view h) := by
      simp only [MView.ownHunks, DModel.view, List.filter_map]
      rfl
    have wk := w
    rw [e] at wk ⊢
    generalize m.hunks.filter (fun k => k.type ≠ .AddedByBlend) = ks at wk
    induction ks with
    | nil => rfl
    | cons k ks ih =>
      simp only [List.map_cons, List.flatMap_cons, List.flatten_append, List.flatten_cons]
      rw [hunkOf_render h k (wk _ (by simp)), ih (fun k hk => wk k (by simp only [List.map_cons, List.mem_cons]; exact .inr hk))]
  have hn : str "\n" = ['\n'] := rfl
  have ht : str "\t" = ['\t'] := rfl
  unfold UFile.render DModel.recreateDiff
  simp only [UFile.ofView, List.map_nil, List.nil_append, List.flatten_append]
  rw [hhunks, hn, ht]
  simp only [Header.render, DModel.view, Hunk.load]
  by_cases e1 : m.sourceRevision = [] <;> by_cases e2 : m.destinationRevision = [] <;> simp [e1, e2]

/-- The diff of several models. -/
def diffOf (win : Bool) (h : Heap) (ms : List DModel) : UDiff := { files := ms.map (fun m => UFile.ofView win (m.view h)) }

theorem diffOf_ok (win : Bool) (h : Heap) (ms : List DModel) (w : ∀ m ∈ ms, (m.view h).Writable) : (diffOf win h ms).Ok := by
  refine ⟨?_, ?_, ?_, by simp [diffOf]⟩
  · intro f hf
    obtain ⟨m, hm, rfl⟩ := List.mem_map.1 hf
    exact fileOf_ok win (w m hm)
  · intro f fs e
    have hf : f ∈ (diffOf win h ms).files := by rw [e]; simp
    obtain ⟨m, hm, rfl⟩ := List.mem_map.1 hf
    exact ⟨by simp [UFile.ofView], fun _ => by simp [UFile.ofView]⟩
  · intro f fs e g hg t ts ht
    have hg' : g ∈ (diffOf win h ms).files := by rw [e]; simp [hg]
    obtain ⟨m, hm, rfl⟩ := List.mem_map.1 hg'
    simp [UFile.ofView] at ht

theorem diffOf_render (win : Bool) (h : Heap) (ms : List DModel) (w : ∀ m ∈ ms, (m.view h).Writable) :
    (diffOf win h ms).render.flatten = ms.flatMap (fun m => m.recreateDiff win h) := by
  unfold UDiff.render diffOf
  simp only [List.map_nil, List.append_nil]
  induction ms with
  | nil => rfl
  | cons m ms ih =>
    simp only [List.map_cons, List.flatMap_cons, List.flatten_append]
    rw [fileOf_render win h m (w m (by simp)).hunks, ih (fun m hm => w m (by simp [hm]))]

end KompareDiff2
