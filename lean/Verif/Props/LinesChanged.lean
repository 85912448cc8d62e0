import Verif.Proofs.HeapEdit
/-
Property theorems C15–C19 and C47: interactive edits.
-/
namespace KompareDiff2
open Spec

/-- The differences of a model, as values. -/
abbrev DModel.values (m : DModel) (h : Heap) : List Diff := m.differences.map h.cell

/-- **C15.**  `b` is the number of the first line.  If the differences of a model describe how the source text `S` becomes the
current text `P ++ old ++ Q` (line numbers, contents and tracking numbers), every unapplied difference having as many source as
destination lines, and the client reports that the lines `old` were replaced by `new`, then the call returns normally (no
out-of-range access) and afterwards the differences describe how `S` becomes `P ++ new ++ Q`; they still do not touch each other
and the pointers are valid.  The size hypothesis is the 2^24 limit of the comparison table for the edited block. -/
theorem C15_edit_consistent (hash : Str → Nat) (m : DModel) (h : Heap) (b : Int) (S P old Q new : List Str)
    (hv : m.Valid h) (hdesc : Describes b b S (P ++ old ++ Q) (m.values h)) (hapart : Apart (m.values h))
    (hfair : ∀ d ∈ m.values h, Fair d)
    (hshortS : ∀ l ∈ S, ShortLine l) (hshortT : ∀ l ∈ P ++ new ++ Q, ShortLine l)
    (hsz : (old.length + (((m.values h).filter (touched (b + P.length) (b + P.length + old.length))).map Diff.slc).sum + 1) *
      (new.length + (((m.values h).filter (touched (b + P.length) (b + P.length + old.length))).map Diff.dlc).sum + 1) ≤ 2 ^ 24) :
    ∃ m' h' ins rem, m.linesChanged hash h old new (b + P.length) = Res.ok (m', h', ins, rem) ∧
      m'.Valid h' ∧ Describes b b S (P ++ new ++ Q) (m'.values h') ∧ Apart (m'.values h') ∧
      (∀ d ∈ m'.values h', Fair d) := by
  by_cases hne : old = [] ∧ new = []
  · have hr : linesChanged hash (m.values h) old new (b + P.length) = Res.ok ⟨m.values h, [], [], []⟩ := by
      unfold linesChanged; rw [if_pos hne]
    obtain ⟨m', h', ins, rem, pre, post, h1, _, _, _, _, _, _, _, hv', _, _, _, hl⟩ := DModel.linesChanged_heap hv hr
    have hl' : m'.values h' = m.values h := by
      rw [DModel.values, hl]; simp [LCResult.list]
    exact ⟨m', h', ins, rem, h1, hv', by rw [hl', hne.2, ← hne.1]; exact hdesc, by rw [hl']; exact hapart, by rw [hl']; exact hfair⟩
  · obtain ⟨r, r1, r2, r3, r4, _⟩ := linesChanged_ok hash b S P old Q new (m.values h) (b + P.length) hdesc hapart hfair rfl hne
      hshortS hshortT hsz
    obtain ⟨m', h', ins, rem, pre, post, h1, _, _, _, _, _, _, _, hv', _, _, _, hl⟩ := DModel.linesChanged_heap hv r1
    exact ⟨m', h', ins, rem, h1, hv', by rw [DModel.values, hl]; exact r2, by rw [DModel.values, hl]; exact r3,
      by rw [DModel.values, hl]; exact r4⟩

theorem LTable.init_get (x y : Nat) (hx : x < 256) (hy : y < 256) : LTable.init.get x y = Res.ok 0 := by
  have h1 : (y * LTable.init.width + x) % uintMod = y * 256 + x := by
    have : LTable.init.width = 256 := rfl
    rw [this]; unfold uintMod; omega
  have h2 : LTable.init.mem[y * 256 + x]? = some 0 := by
    have : LTable.init.mem = List.replicate (256 * 256) 0 := rfl
    rw [this, List.getElem?_replicate, if_pos (by omega)]
  unfold LTable.get
  rw [h1, h2]

/-- The walk through a table of zeros goes straight to the corner and notes nothing. -/
theorem walk_zero (t : LTable) (get0 : ∀ x y, x < 256 → y < 256 → t.get x y = Res.ok 0) (n fuel : Nat) (hn : n < 256)
    (hf : n < fuel) : walkLoop t false fuel ⟨n, n, [], []⟩ = Res.ok ⟨0, 0, [], []⟩ := by
  induction n generalizing fuel with
  | zero =>
    cases fuel with
    | zero => omega
    | succ fuel => simp [walkLoop]
  | succ n ih =>
    cases fuel with
    | zero => omega
    | succ fuel =>
      have hs : walkStep t false ⟨n + 1, n + 1, [], []⟩ = Res.ok ⟨n, n, [], []⟩ := by
        simp only [walkStep, get0 _ _ hn hn, get0 (n + 1) (n + 1 - 1) hn (by omega), get0 (n + 1 - 1) (n + 1) (by omega) hn,
          get0 (n + 1 - 1) (n + 1 - 1) (by omega) (by omega), Res.bind_ok]
        simp [chooseRoute, noteMarker]
      simp only [walkLoop, hs, Res.bind_ok]
      rw [if_pos (by simp)]
      exact ih fuel (by omega) (by omega)

theorem markers_zero (t : LTable) (hw : t.width = 256) (hh : t.height = 256)
    (get0 : ∀ x y, x < 256 → y < 256 → t.get x y = Res.ok 0) (hash : Str → Nat) (k : Nat) (old new : List Str) :
    t.createListsOfMarkers (stringListPair hash k old new) = Res.ok ([], []) := by
  unfold LTable.createListsOfMarkers
  have en : ∀ j, (stringListPair hash k old new).needFine j = true := fun _ => rfl
  have ea : (stringListPair hash k old new).allowReplace = false := rfl
  have e3 : (stringListPair hash k old new).markersFirst = [] := rfl
  have e4 : (stringListPair hash k old new).markersSecond = [] := rfl
  have g := get0 255 255 (by omega) (by omega)
  have w := walk_zero t get0 255 511 (by omega) (by omega)
  simp [hw, hh, g, en, ea, e3, e4, w]

theorem lcInserted_none (hash : Str → Nat) (old new : List Str) (x y : Int)
    (hct : LTable.init.createTable (stringListPair hash (hash []) old new) = Res.ok (0, LTable.init))
    (hlm : LTable.init.createListsOfMarkers (stringListPair hash (hash []) old new) = Res.ok ([], [])) :
    lcInserted hash old new x y = Res.ok [] := by
  unfold lcInserted
  generalize LTable.init = t at hct hlm ⊢
  dsimp only
  rw [hct, Res.bind_ok, hlm, Res.bind_ok]
  simp [lcMarkerLoop]

/-- **C15, refuted beyond the size limit.**  If the compared blocks exceed the table limit, the difference is dropped silently:
replacing `old` by a different `new` in a model without differences leaves it without differences. -/
theorem C15_oversize_defect (hash : Str → Nat) (m : DModel) (h : Heap) (old new : List Str) (e : Int)
    (hm : m.differences = []) (hsz : 2 ^ 24 < (old.length + 1) * (new.length + 1))
    (hsz' : (old.length + 1) * (new.length + 1) < 2 ^ 32) :
    m.linesChanged hash h old new e = Res.ok (m, h, [], []) := by
  have hne : ¬ (old = [] ∧ new = []) := by
    rintro ⟨rfl, rfl⟩
    simp at hsz
  have hct : LTable.init.createTable (stringListPair hash (hash []) old new) = Res.ok (0, LTable.init) := by
    have : LTable.init.setSize (old.length + 1) (new.length + 1) = (false, LTable.init) := by
      unfold LTable.setSize
      rw [if_pos]
      rw [Nat.mod_eq_of_lt (by unfold uintMod; omega)]
      omega
    unfold LTable.createTable
    have e1 : (stringListPair hash (hash []) old new).lengthFirst = old.length + 1 := rfl
    have e2 : (stringListPair hash (hash []) old new).lengthSecond = new.length + 1 := rfl
    rw [e1, e2, this]
  have hlm := markers_zero LTable.init rfl rfl LTable.init_get hash (hash []) old new
  have hins : ∀ x y, lcInserted hash old new x y = Res.ok [] := by
    intro x y
    exact lcInserted_none hash old new x y hct hlm
  unfold DModel.linesChanged
  rw [hm]
  simp only [linesChanged, List.map_nil, if_neg hne]
  simp only [List.takeWhile_nil, List.dropWhile_nil, List.filter_nil, lcBlocks, Res.bind_ok, hins]
  simp only [List.take_nil, List.drop_nil, Heap.allocAll, Heap.modifyAll, List.append_nil]
  rw [show ({ m with differences := [] } : DModel) = m by rw [← hm]]

/-- The hypotheses of `C15_oversize_defect` hold for a file of 4096 lines that is changed completely. -/
example : ∃ old new : List Str, old ≠ new ∧ 2 ^ 24 < (old.length + 1) * (new.length + 1) ∧
    (old.length + 1) * (new.length + 1) < 2 ^ 32 := by
  refine ⟨List.replicate 4096 (str "a\n"), List.replicate 4096 (str "b\n"), ?_, ?_⟩
  · intro h
    have := congrArg List.head? h
    simp only [List.head?_replicate] at this
    exact absurd this (by decide)
  · rw [List.length_replicate, List.length_replicate]; omega

/-- A pure insertion of two lines before line 3 that is *not* applied. -/
def unfairDiff : Diff :=
  { Diff.new 3 3 .Insert with dest := [DStr.ofStr (str "i\n"), DStr.ofStr (str "j\n")] }

/-- **C15, the restriction on unapplied differences is needed.**  Ten lines, one unapplied insertion of two lines at line 3.
The model describes the text, line 8 is replaced, and afterwards the differences do not describe the new text. -/
theorem C15_unfair_counterexample (hash : Str → Nat) (l : Nat → Str) (x : Str) (hx : x ≠ l 8) (hl : ∀ i, ShortLine (l i))
    (hxs : ShortLine x) (h : Heap) (m : DModel) (hm : m.differences = [0]) (hc : h.cell 0 = unfairDiff) (hn : h.next = 1) :
    Describes 1 1 ([1, 2, 3, 4, 5, 6, 7, 8, 9, 10].map l) ([1, 2, 3, 4, 5, 6, 7, 8, 9, 10].map l) (m.values h) ∧
    ∃ m' h' ins rem, m.linesChanged hash h [l 8] [x] 8 = Res.ok (m', h', ins, rem) ∧
      ¬ Describes 1 1 ([1, 2, 3, 4, 5, 6, 7, 8, 9, 10].map l)
        ([1, 2, 3, 4, 5, 6, 7].map l ++ [x] ++ [9, 10].map l) (m'.values h') := by
  have hv : m.Valid h := ⟨by rw [hm]; simp, by rw [hm]; simp [hn]⟩
  have hvals : m.differences.map h.cell = [unfairDiff] := by rw [hm]; simp [hc]
  constructor
  · rw [DModel.values, hvals]
    exact Describes.diff 1 1 ([1, 2].map l) unfairDiff ([3, 4, 5, 6, 7, 8, 9, 10].map l) ([3, 4, 5, 6, 7, 8, 9, 10].map l) []
      (by simp [unfairDiff, Diff.new]) (by simp [unfairDiff, Diff.new]) (.done _ _ _)
  · obtain ⟨ins, i1, i2, i3, _, i5⟩ := lcInserted_ok hash [l 8] [x] 6 8 (by simp [hl]) (by simp [hxs]) (by simp)
    have hb : lcBefore 8 unfairDiff = true := by decide
    have hr : linesChanged hash (m.differences.map h.cell) [l 8] [x] 8 = Res.ok ⟨[unfairDiff], [], ins, []⟩ := by
      rw [hvals]
      unfold linesChanged
      rw [if_neg (by simp)]
      have hno : lcLineNumbers [unfairDiff] [] 8 = (6, 8) := by decide
      simp [hb, lcBlocks, hno, i1]
    obtain ⟨m', h', insI, rem, pre, post, h1, _, _, _, _, _, _, _, _, _, _, _, hl'⟩ := DModel.linesChanged_heap hv hr
    refine ⟨m', h', insI, rem, h1, ?_⟩
    rw [DModel.values, hl']
    simp only [LCResult.list, List.append_nil, List.singleton_append]
    intro hd
    generalize hA : [l 8] = A at i2
    generalize hB : [x] = B at i2
    cases i2 with
    | done _ _ _ =>
      rw [← hB] at hA
      exact hx (List.cons.inj hA).1.symm
    | diff _ _ c d S' T' ds e1 e2 e3 =>
      have := hd.offset (pre := [unfairDiff]) (d := d) (r := ds)
      have hnd : netDelta [unfairDiff] = 0 := by decide
      omega


/-- One reported edit: at index `at`, `del` lines of the current text are replaced by `new`. -/
structure LineEdit where
  «at» : Nat
  del : Nat
  new : List Str
  deriving Repr, DecidableEq

namespace Spec
/-- The text after one edit. -/
def editText (T : List Str) (ed : LineEdit) : List Str := T.take ed.at ++ ed.new ++ T.drop (ed.at + ed.del)

/-- The text after a history of edits. -/
def editedText (T : List Str) (eds : List LineEdit) : List Str := eds.foldl editText T
end Spec

/-- The client reports the edits one after the other; the current text provides the replaced lines. -/
def runEdits (hash : Str → Nat) (b : Int) : List LineEdit → DModel × Heap × List Str → Res (DModel × Heap × List Str)
  | [], s => Res.ok s
  | ed :: eds, (m, h, T) => do
    let r ← m.linesChanged hash h ((T.drop ed.at).take ed.del) ed.new (b + ed.at)
    runEdits hash b eds (r.1, r.2.1, editText T ed)

/-- Every edit of a history lies inside the text, its lines are shorter than 65535 characters, and the part of the text it
touches respects the limit of the comparison table.  (The number of lines touched depends on the differences present at
that moment.) -/
def EditsFit (hash : Str → Nat) (b : Int) : List LineEdit → DModel × Heap × List Str → Prop
  | [], _ => True
  | ed :: eds, (m, h, T) =>
    ed.at + ed.del ≤ T.length ∧ (∀ l ∈ ed.new, ShortLine l) ∧
    (ed.del + (((m.values h).filter (touched (b + ed.at) (b + ed.at + ed.del))).map Diff.slc).sum + 1) *
      (ed.new.length + (((m.values h).filter (touched (b + ed.at) (b + ed.at + ed.del))).map Diff.dlc).sum + 1) ≤ 2 ^ 24 ∧
    ∀ m' h' ins rem, m.linesChanged hash h ((T.drop ed.at).take ed.del) ed.new (b + ed.at) = Res.ok (m', h', ins, rem) →
      EditsFit hash b eds (m', h', editText T ed)

/-- A model that describes how `S` becomes `T`, all differences applied or line-preserving, pointers valid. -/
structure Consistent (b : Int) (S T : List Str) (m : DModel) (h : Heap) : Prop where
  valid : m.Valid h
  describes : Describes b b S T (m.values h)
  apart : Apart (m.values h)
  fair : ∀ d ∈ m.values h, Fair d

theorem editText_parts {T : List Str} {ed : LineEdit} (hb : ed.at + ed.del ≤ T.length) :
    T.take ed.at ++ (T.drop ed.at).take ed.del ++ T.drop (ed.at + ed.del) = T ∧ (T.take ed.at).length = ed.at ∧
    ((T.drop ed.at).take ed.del).length = ed.del := by
  refine ⟨?_, by simp; omega, by simp; omega⟩
  rw [← List.drop_drop, List.append_assoc, List.take_append_drop, List.take_append_drop]

/-- **C16.**  From a consistent model, every history of edits (within the limits) runs without undefined behaviour and leaves
the differences describing exactly how the original source becomes the current text. -/
theorem C16_edit_history (hash : Str → Nat) (b : Int) (S T : List Str) (m : DModel) (h : Heap) (eds : List LineEdit)
    (hc : Consistent b S T m h) (hS : ∀ l ∈ S, ShortLine l) (hT : ∀ l ∈ T, ShortLine l)
    (hfit : EditsFit hash b eds (m, h, T)) :
    ∃ m' h', runEdits hash b eds (m, h, T) = Res.ok (m', h', editedText T eds) ∧ Consistent b S (editedText T eds) m' h' := by
  induction eds generalizing m h T with
  | nil => exact ⟨m, h, rfl, hc⟩
  | cons ed eds ih =>
    obtain ⟨f1, f2, f3, f4⟩ := hfit
    obtain ⟨p1, p2, p3⟩ := editText_parts f1
    have hT' : ∀ l ∈ editText T ed, ShortLine l := by
      intro l hl
      simp only [editText, List.mem_append] at hl
      rcases hl with (hl | hl) | hl
      · exact hT l (List.mem_of_mem_take hl)
      · exact f2 l hl
      · exact hT l (List.mem_of_mem_drop hl)
    obtain ⟨m', h', ins, rem, e1, e2, e3, e4, e5⟩ := C15_edit_consistent hash m h b S (T.take ed.at) ((T.drop ed.at).take ed.del)
      (T.drop (ed.at + ed.del)) ed.new hc.valid (by rw [p1]; exact hc.describes) hc.apart hc.fair hS hT'
      (by rw [p2, p3]; exact f3)
    rw [p2] at e1
    obtain ⟨m'', h'', g1, g2⟩ := ih (editText T ed) m' h' ⟨e2, e3, e4, e5⟩ hT' (f4 _ _ _ _ e1)
    exact ⟨m'', h'', by simp only [runEdits, e1, Res.bind_ok]; exact g1, g2⟩

/-- Number of source lines / destination lines in a list of differences is bounded by the texts it describes. -/
theorem Spec.Describes.sums {s t S T ds} (h : Describes s t S T ds) (ha : ∀ d ∈ ds, Fair d) :
    (ds.map Diff.slc).sum ≤ S.length ∧ (ds.map Diff.dlc).sum ≤ T.length := by
  induction h with
  | done => simp
  | diff s t c d S T ds e1 e2 e3 ih =>
    have ih := ih (fun d hd => ha d (by simp [hd]))
    have hf := (ha d (by simp)).2
    have h1 : d.srcText.length = d.slc := by simp [Diff.srcText, Diff.slc]
    have h2 : (current d).length = d.dlc := by
      unfold current
      split
      · simp [Diff.dstText, Diff.dlc]
      · rename_i hna; rw [h1]; exact hf (by cases hh : d.applied <;> simp_all)
    simp only [List.map_cons, List.sum_cons, List.length_append]
    omega

theorem filter_sum_le (p : Diff → Bool) (f : Diff → Nat) (ds : List Diff) :
    ((ds.filter p).map f).sum ≤ (ds.map f).sum := by
  induction ds with
  | nil => simp
  | cons d ds ih =>
    simp only [List.filter_cons, List.map_cons, List.sum_cons]
    split
    · simp only [List.map_cons, List.sum_cons]; omega
    · omega

/-- Limits that speak only about the texts: at every step the whole source and the whole text fit into the table. -/
def TextsFit (n : Nat) : List Str → List LineEdit → Prop
  | _, [] => True
  | T, ed :: eds => ed.at + ed.del ≤ T.length ∧ (∀ l ∈ ed.new, ShortLine l) ∧
      (ed.del + n + 1) * (ed.new.length + T.length + 1) ≤ 2 ^ 24 ∧ TextsFit n (editText T ed) eds

/-- **C16, with limits stated on the texts alone.** -/
theorem C16_edit_history_texts (hash : Str → Nat) (b : Int) (S T : List Str) (m : DModel) (h : Heap) (eds : List LineEdit)
    (hc : Consistent b S T m h) (hS : ∀ l ∈ S, ShortLine l) (hT : ∀ l ∈ T, ShortLine l)
    (hfit : TextsFit S.length T eds) :
    ∃ m' h', runEdits hash b eds (m, h, T) = Res.ok (m', h', editedText T eds) ∧ Consistent b S (editedText T eds) m' h' := by
  refine C16_edit_history hash b S T m h eds hc hS hT ?_
  induction eds generalizing m h T with
  | nil => trivial
  | cons ed eds ih =>
    obtain ⟨f1, f2, f3, f4⟩ := hfit
    have hsum := hc.describes.sums hc.fair
    have hszs : (ed.del + (((m.values h).filter (touched (b + ed.at) (b + ed.at + ed.del))).map Diff.slc).sum + 1) *
      (ed.new.length + (((m.values h).filter (touched (b + ed.at) (b + ed.at + ed.del))).map Diff.dlc).sum + 1) ≤ 2 ^ 24 := by
      refine Nat.le_trans (Nat.mul_le_mul ?_ ?_) f3
      · have := filter_sum_le (touched (b + ed.at) (b + ed.at + ed.del)) Diff.slc (m.values h)
        omega
      · have := filter_sum_le (touched (b + ed.at) (b + ed.at + ed.del)) Diff.dlc (m.values h)
        omega
    refine ⟨f1, f2, hszs, ?_⟩
    intro m' h' ins rem hr
    obtain ⟨p1, p2, p3⟩ := editText_parts f1
    have hT' : ∀ l ∈ editText T ed, ShortLine l := by
      intro l hl
      simp only [editText, List.mem_append] at hl
      rcases hl with (hl | hl) | hl
      · exact hT l (List.mem_of_mem_take hl)
      · exact f2 l hl
      · exact hT l (List.mem_of_mem_drop hl)
    obtain ⟨m1, h1, ins1, rem1, e1, e2, e3, e4, e5⟩ := C15_edit_consistent hash m h b S (T.take ed.at) ((T.drop ed.at).take ed.del)
      (T.drop (ed.at + ed.del)) ed.new hc.valid (by rw [p1]; exact hc.describes) hc.apart hc.fair hS hT'
      (by rw [p2, p3]; exact hszs)
    rw [p2, hr] at e1
    cases e1
    exact ih (editText T ed) m' h' ⟨e2, e3, e4, e5⟩ hT' f4

/-- A model without differences is consistent: the text is the source. -/
theorem C16_empty_start (b : Int) (S : List Str) (m : DModel) (h : Heap) (hm : m.differences = []) : Consistent b S S m h :=
  ⟨⟨by rw [hm]; simp, by rw [hm]; simp⟩, by rw [DModel.values, hm]; exact .done _ _ _, by rw [DModel.values, hm]; trivial,
    by rw [DModel.values, hm]; simp⟩

/-- **C17.**  Whenever the call returns: `inserted` are new pointers, the new list is the old one with the contiguous block
`removed` replaced by `inserted`; all old objects keep their contents except that those behind the block get their tracking
number shifted by `|new| - |old|`; nothing else in the model changes. -/
theorem C17_report_frame (hash : Str → Nat) (m m' : DModel) (h h' : Heap) (old new : List Str) (e : Int) (ins rem : List Nat)
    (hv : m.Valid h) (hr : m.linesChanged hash h old new e = Res.ok (m', h', ins, rem)) :
    ∃ pre post, m.differences = pre ++ (rem ++ post) ∧ m'.differences = pre ++ (ins ++ post) ∧
      m' = { m with differences := pre ++ (ins ++ post) } ∧
      ins = List.range' h.next ins.length ∧ h'.next = h.next + ins.length ∧
      (∀ i ∈ post, h'.cell i = { h.cell i with tracking := (h.cell i).tracking + ((new.length : Int) - old.length) }) ∧
      (∀ i < h.next, i ∉ post → h'.cell i = h.cell i) ∧ m'.Valid h' := by
  have hr' := hr
  unfold DModel.linesChanged at hr'
  rw [Res.bind_eq_ok] at hr'
  obtain ⟨r, hr', _⟩ := hr'
  obtain ⟨m1, h1, ins1, rem1, pre, post, h2, h3, h4, h5, h6, h7, h8, h9, h10, _⟩ := DModel.linesChanged_heap hv hr'
  rw [hr] at h2
  cases h2
  exact ⟨pre, post, h3, h4, h5, h6, h7, h8, h9, h10⟩

/-- **C17, contents.**  Under the hypotheses of C15, every inserted difference is applied, unsaved, not a conflict, non-empty and
of the type that its sides determine; the removed differences are exactly a block of differences that the edit touches: those
kept before end at or before the first edited line, those kept behind start at or behind the last one. -/
theorem C17_report_contents (hash : Str → Nat) (m m' : DModel) (h h' : Heap) (b : Int) (S P old Q new : List Str)
    (ins rem : List Nat)
    (hv : m.Valid h) (hdesc : Describes b b S (P ++ old ++ Q) (m.values h)) (hapart : Apart (m.values h))
    (hfair : ∀ d ∈ m.values h, Fair d)
    (hshortS : ∀ l ∈ S, ShortLine l) (hshortT : ∀ l ∈ P ++ new ++ Q, ShortLine l)
    (hsz : (old.length + (((m.values h).filter (touched (b + P.length) (b + P.length + old.length))).map Diff.slc).sum + 1) *
      (new.length + (((m.values h).filter (touched (b + P.length) (b + P.length + old.length))).map Diff.dlc).sum + 1) ≤ 2 ^ 24)
    (hne : ¬ (old = [] ∧ new = []))
    (hr : m.linesChanged hash h old new (b + P.length) = Res.ok (m', h', ins, rem)) :
    (∀ i ∈ ins, (h'.cell i).applied = true ∧ (h'.cell i).unsaved = true ∧ (h'.cell i).conflicts = false ∧
      0 < (h'.cell i).slc + (h'.cell i).dlc ∧ (h'.cell i).destLineNo = (h'.cell i).tracking ∧
      ((h'.cell i).type = .Change ↔ 0 < (h'.cell i).slc ∧ 0 < (h'.cell i).dlc) ∧
      ((h'.cell i).type = .Delete ↔ (h'.cell i).dlc = 0) ∧ ((h'.cell i).type = .Insert ↔ (h'.cell i).slc = 0)) ∧
    ∃ pre post, m.differences = pre ++ (rem ++ post) ∧
      (∀ i ∈ pre, (h.cell i).trackingEnd ≤ b + P.length) ∧
      (∀ i ∈ rem, b + P.length ≤ (h.cell i).trackingEnd ∧ (h.cell i).tracking ≤ b + P.length + old.length) ∧
      (∀ i ∈ post, b + P.length + old.length ≤ (h.cell i).tracking) := by
  obtain ⟨r, r1, r2, r3, r4, r5, ⟨mid, pst, q1, q2, q3, q4, q5, q6⟩, _⟩ :=
    linesChanged_ok hash b S P old Q new (m.values h) (b + P.length) hdesc hapart hfair rfl hne hshortS hshortT hsz
  obtain ⟨m1, h1, ins1, rem1, pre, post, h2, h3, h4, h5, h6, h7, h8, h9, h10, h11, h12, h13, _⟩ := DModel.linesChanged_heap hv r1
  rw [hr] at h2
  cases h2
  refine ⟨?_, pre, post, h3, ?_, ?_, ?_⟩
  · intro i hi
    have hc := r5 (h'.cell i) (by rw [← h13]; exact List.mem_map_of_mem hi)
    have ht := hc.type
    have hn := hc.nonempty
    refine ⟨hc.applied, hc.unsaved, hc.noConflict, hn, hc.tracking, ?_, ?_, ?_⟩ <;> rw [ht] <;> split
    · simp; omega
    · split <;> simp <;> omega
    · simp; omega
    · split <;> simp <;> omega
    · simp; omega
    · split <;> simp <;> omega
  · intro i hi
    exact q4 _ (by rw [← h11]; exact List.mem_map_of_mem hi)
  · intro i hi
    exact q5 _ (by rw [← q2, ← h12]; exact List.mem_map_of_mem hi)
  · intro i hi
    refine q6 _ ?_
    have e1 : m.values h = r.pre ++ (r.removed ++ post.map h.cell) := by
      rw [DModel.values, h3]; simp [h11, h12]
    rw [e1, q2] at q1
    have := List.append_cancel_left (List.append_cancel_left q1)
    rw [← this]
    exact List.mem_map_of_mem hi

theorem script_refl : ∀ l : List Str, Script false l l 0
  | [] => .nil
  | x :: l => .keep x (script_refl l)

/-- **C18.**  The inserted differences cover a block `Sm` of the source and `Tm` of the new text, the text around them being described by the
differences kept before and behind, and they hold as few lines as possible: the number of their source and destination lines is
the least number of line deletions and insertions turning `Sm` into `Tm`; it is zero (no difference is inserted) iff `Sm = Tm`. -/
theorem C18_minimal (hash : Str → Nat) (m m' : DModel) (h h' : Heap) (b : Int) (S P old Q new : List Str)
    (ins rem : List Nat)
    (hv : m.Valid h) (hdesc : Describes b b S (P ++ old ++ Q) (m.values h)) (hapart : Apart (m.values h))
    (hfair : ∀ d ∈ m.values h, Fair d)
    (hshortS : ∀ l ∈ S, ShortLine l) (hshortT : ∀ l ∈ P ++ new ++ Q, ShortLine l)
    (hsz : (old.length + (((m.values h).filter (touched (b + P.length) (b + P.length + old.length))).map Diff.slc).sum + 1) *
      (new.length + (((m.values h).filter (touched (b + P.length) (b + P.length + old.length))).map Diff.dlc).sum + 1) ≤ 2 ^ 24)
    (hne : ¬ (old = [] ∧ new = []))
    (hr : m.linesChanged hash h old new (b + P.length) = Res.ok (m', h', ins, rem)) :
    ∃ pre post S1 Sm S3 T1 Tm T3, m'.differences = pre ++ (ins ++ post) ∧ S = S1 ++ (Sm ++ S3) ∧ P ++ new ++ Q = T1 ++ (Tm ++ T3) ∧
      Describes b b S1 T1 (pre.map h'.cell) ∧
      Describes (b + S1.length) (b + T1.length) Sm Tm (ins.map h'.cell) ∧
      Describes (b + S1.length + Sm.length) (b + T1.length + Tm.length) S3 T3 (post.map h'.cell) ∧
      T1.length ≤ P.length ∧ T3.length ≤ Q.length ∧
      IsDistance false Sm Tm (((ins.map h'.cell).map Diff.slc).sum + ((ins.map h'.cell).map Diff.dlc).sum) ∧
      (ins = [] ↔ Sm = Tm) := by
  obtain ⟨r, r1, r2, r3, r4, r5, ⟨mid, pst, q1, q2, q3, q4, q5, q6⟩, S1, Sm, S3, T1, Tm, T3, d1, d2, d3, d4, d5, d6, d7, d8⟩ :=
    linesChanged_ok hash b S P old Q new (m.values h) (b + P.length) hdesc hapart hfair rfl hne hshortS hshortT hsz
  obtain ⟨m1, h1, ins1, rem1, pre, post, h2, h3, h4, h5, h6, h7, h8, h9, h10, h11, h12, h13, h14⟩ := DModel.linesChanged_heap hv r1
  rw [hr] at h2
  cases h2
  have hpre : pre.map h'.cell = r.pre := by
    have := h14
    rw [h4] at this
    simp only [List.map_append, LCResult.list, List.append_assoc] at this
    exact (List.append_inj this (by rw [← h11]; simp)).1
  have hpost : post.map h'.cell = r.post := by
    have := h14
    rw [h4] at this
    simp only [List.map_append, LCResult.list, List.append_assoc, hpre, h13] at this
    exact List.append_cancel_left (List.append_cancel_left this)
  refine ⟨pre, post, S1, Sm, S3, T1, Tm, T3, h4, d1, d2, by rw [hpre]; exact d3, by rw [h13]; exact d4,
    by rw [hpost]; exact d5, d6, d7, by rw [h13]; exact d8, ?_⟩
  constructor
  · intro hi
    rw [hi] at h13
    rw [← h13] at d4
    cases d4
    rfl
  · intro he
    subst he
    have hz : Script false Sm Sm 0 := by
      exact script_refl Sm
    have := d8.2 0 hz
    rw [← h13] at this r5
    cases ins with
    | nil => rfl
    | cons i is =>
      have hc := (r5 (h'.cell i) (by simp)).nonempty
      simp at this
      omega

/-- **C47.**  An edit changes neither the applied counter nor the hunks, nor the text produced by `recreateDiff`. -/
theorem C47_edit_invisible (hash : Str → Nat) (m m' : DModel) (h h' : Heap) (old new : List Str) (e : Int) (ins rem : List Nat)
    (hv : m.Valid h) (hh : ∀ k ∈ m.hunks, ∀ i ∈ k.diffs, i < h.next)
    (hr : m.linesChanged hash h old new e = Res.ok (m', h', ins, rem)) :
    m'.appliedCount = m.appliedCount ∧ m'.hunks = m.hunks ∧ ∀ win, m'.recreateDiff win h' = m.recreateDiff win h := by
  obtain ⟨pre, post, _, _, e3, _, _, e6, e7, _⟩ := C17_report_frame hash m m' h h' old new e ins rem hv hr
  have hcell : ∀ i < h.next, ∃ t, h'.cell i = { h.cell i with tracking := t } := by
    intro i hi
    by_cases hp : i ∈ post
    · exact ⟨_, e6 i hp⟩
    · exact ⟨_, e7 i hi hp⟩
  subst e3
  refine ⟨rfl, rfl, ?_⟩
  intro win
  unfold DModel.recreateDiff
  congr 2
  apply List.map_congr_left
  intro k hk
  have hk := hh k (List.mem_filter.1 hk).1
  have hmap : ∀ {β : Type} (f : Diff → β), (∀ d t, f { d with tracking := t } = f d) →
      (k.diffs.map h'.cell).map f = (k.diffs.map h.cell).map f := by
    intro β f hf
    rw [List.map_map, List.map_map]
    apply List.map_congr_left
    intro i hi
    obtain ⟨t, ht⟩ := hcell i (hk i hi)
    simp only [Function.comp_apply, ht, hf]
  have h1 := hmap Diff.headerSlc (by intro d t; rfl)
  have h2 := hmap Diff.headerDlc (by intro d t; rfl)
  have h3 := hmap Diff.recreate (by intro d t; rfl)
  simp only [Hunk.recreate, Hunk.header, Hunk.headerSlc, Hunk.headerDlc]

  rw [h1, h2, h3]

/-- **C47, the drift.**  In a model without differences (counter 0), replacing `old` by a different `new` creates differences, all
of them applied, while the counter stays 0. -/
theorem C47_counter_drift_defect (hash : Str → Nat) (m : DModel) (h : Heap) (old new : List Str) (e : Int)
    (hm : m.differences = []) (hc : m.appliedCount = 0) (hne : old ≠ new)
    (hS : ∀ l ∈ old, ShortLine l) (hT : ∀ l ∈ new, ShortLine l) (hsz : (old.length + 1) * (new.length + 1) ≤ 2 ^ 24) :
    ∃ m' h' ins rem, m.linesChanged hash h old new e = Res.ok (m', h', ins, rem) ∧ m'.appliedCount = 0 ∧
      m'.differences ≠ [] ∧ ∀ i ∈ m'.differences, (h'.cell i).applied = true := by
  have hcons := C16_empty_start e old m h hm
  have hvals : m.values h = [] := by rw [DModel.values, hm]; rfl
  have hsz' : (old.length + (((m.values h).filter (touched (e + ([] : List Str).length) (e + ([] : List Str).length + old.length))).map Diff.slc).sum + 1) *
      (new.length + (((m.values h).filter (touched (e + ([] : List Str).length) (e + ([] : List Str).length + old.length))).map Diff.dlc).sum + 1) ≤ 2 ^ 24 := by
    rw [hvals]; simpa using hsz
  obtain ⟨m', h', ins, rem, e1, e2, e3, e4, e5⟩ := C15_edit_consistent hash m h e old [] old [] new hcons.valid
    (by simpa using hcons.describes) hcons.apart hcons.fair hS (by simpa using hT) hsz'
  have hnn : ¬ (old = [] ∧ new = []) := by
    rintro ⟨rfl, rfl⟩; exact hne rfl
  obtain ⟨c1, _⟩ := C17_report_contents hash m m' h h' e old [] old [] new ins rem hcons.valid
    (by simpa using hcons.describes) hcons.apart hcons.fair hS (by simpa using hT) hsz' hnn e1
  obtain ⟨pre, post, f1, f2, f3, f4, _⟩ := C17_report_frame hash m m' h h' old new _ ins rem hcons.valid e1
  rw [hm] at f1
  have hp : pre = [] ∧ post = [] := by
    have := congrArg List.length f1
    simp only [List.length_nil, List.length_append] at this
    exact ⟨List.eq_nil_of_length_eq_zero (by omega), List.eq_nil_of_length_eq_zero (by omega)⟩
  rw [hp.1, hp.2] at f2 f3
  simp only [List.nil_append, List.append_nil] at f2
  refine ⟨m', h', ins, rem, by simpa using e1, by rw [f3]; exact hc, ?_, ?_⟩
  · intro hz
    rw [DModel.values, hz, List.map_nil] at e3
    generalize hX : ([] : List Str) ++ new ++ [] = X at e3
    simp only [List.nil_append, List.append_nil] at hX
    subst hX
    cases e3
    exact hne rfl
  · intro i hi
    rw [f2] at hi
    exact (c1 i hi).1

/-- **C47, created differences are not connected.**  Applying or unapplying one of them through the object itself changes no other
tracking number. -/
theorem C47_unconnected_defect (hash : Str → Nat) (m m' : DModel) (h h' : Heap) (old new : List Str) (e : Int) (ins rem : List Nat)
    (hv : m.Valid h) (hcn : ∀ i ∈ m.connected, i < h.next)
    (hr : m.linesChanged hash h old new e = Res.ok (m', h', ins, rem)) (i : Nat) (hi : i ∈ ins) (b : Bool) (j : Nat) (hj : j ≠ i) :
    (m'.applyDirect h' i b).cell j = h'.cell j := by
  obtain ⟨pre, post, _, _, e3, e4, _⟩ := C17_report_frame hash m m' h h' old new e ins rem hv hr
  have hni : i ∉ m'.connected := by
    intro hc
    rw [e3] at hc
    have h1 := hcn i hc
    rw [e4, List.mem_range'_1] at hi
    omega
  unfold DModel.applyDirect
  simp only [hni, and_false, if_false, Heap.set_cell, if_neg hj]

/-- A text of three lines whose second line was changed, as a consistent model: hypotheses of C15–C18 hold for it. -/
def editDemoDiff : Diff :=
  { Diff.new 2 2 .Change with source := [DStr.ofStr (str "b\n")], dest := [DStr.ofStr (str "B\n")], applied := true }
def editDemoHeap : Heap := { cell := fun _ => editDemoDiff, next := 1 }
def editDemoModel : DModel := { differences := [0], appliedCount := 1 }

theorem editDemo_consistent :
    Consistent 1 [str "a\n", str "b\n", str "c\n"] [str "a\n", str "B\n", str "c\n"] editDemoModel editDemoHeap := by
  refine ⟨⟨by decide, by decide⟩, ?_, trivial, ?_⟩
  · exact Describes.diff 1 1 [str "a\n"] editDemoDiff [str "c\n"] [str "c\n"] [] (by decide) (by decide) (.done _ _ _)
  · intro d hd
    have : d = editDemoDiff := by simpa [editDemoModel, editDemoHeap, eq_comm] using hd
    subst this
    exact ⟨by decide, by decide⟩

/-- Replacing the changed line and its neighbour by three lines, then deleting everything. -/
example (hash : Str → Nat) : ∃ m' h', runEdits hash 1 [⟨1, 2, [str "x\n", str "c\n", str "y\n"]⟩, ⟨0, 4, []⟩]
      (editDemoModel, editDemoHeap, [str "a\n", str "B\n", str "c\n"]) = Res.ok (m', h', []) ∧
    Consistent 1 [str "a\n", str "b\n", str "c\n"] [] m' h' :=
  C16_edit_history_texts hash 1 _ _ _ _ _ editDemo_consistent (by decide) (by decide)
    ⟨by decide, by decide, by decide, by decide, by decide, by decide, trivial⟩

/-- The hypotheses of C15, C17 and C18 are met by an edit of the demo model. -/
example (hash : Str → Nat) : ∃ m' h' ins rem,
    editDemoModel.linesChanged hash editDemoHeap [str "B\n"] [str "b\n", str "d\n"] (1 + [str "a\n"].length) =
      Res.ok (m', h', ins, rem) ∧ m'.Valid h' ∧
    Describes 1 1 [str "a\n", str "b\n", str "c\n"] ([str "a\n"] ++ [str "b\n", str "d\n"] ++ [str "c\n"]) (m'.values h') ∧
    Apart (m'.values h') ∧ (∀ d ∈ m'.values h', Fair d) :=
  C15_edit_consistent hash _ _ 1 _ [str "a\n"] [str "B\n"] [str "c\n"] [str "b\n", str "d\n"] editDemo_consistent.valid
    editDemo_consistent.describes editDemo_consistent.apart editDemo_consistent.fair (by decide) (by decide) (by decide)

/-! ### C19 -/

/-- Lines are only on the sides that the type allows, every line ends with its only newline. -/
structure Diff.Printable (d : Diff) : Prop where
  insert : d.type = .Insert → d.slc = 0
  delete : d.type = .Delete → d.dlc = 0
  unchanged : d.type = .Unchanged → d.slc = d.dlc
  lines : ∀ l ∈ d.srcText ++ d.dstText, ∃ t, l = t ++ ['\n'] ∧ '\n' ∉ t

/-- A complete line: its only newline is the last character. -/
def Spec.IsLine (l : Str) : Prop := ∃ t, l = t ++ ['\n'] ∧ '\n' ∉ t

/-- Lines of `l` whose first character is one of `cs`. -/
def Spec.countStart (cs : List Char) (ls : List Str) : Nat := ls.countP (fun l => l.head?.any (fun c => decide (c ∈ cs)))

theorem countStart_cons (cs : List Char) (c : Char) (ls : List Str) :
    countStart cs (ls.map (c :: ·)) = if c ∈ cs then ls.length else 0 := by
  induction ls with
  | nil => simp [countStart]
  | cons l ls ih =>
    simp only [countStart, List.map_cons, List.countP_cons, List.head?_cons, Option.any_some] at ih ⊢
    rw [ih]
    split <;> simp_all

theorem countStart_append (cs : List Char) (a b : List Str) : countStart cs (a ++ b) = countStart cs a + countStart cs b := by
  simp [countStart]

theorem Diff.recreate_lines (d : Diff) (hd : d.Printable) :
    ∃ ls, d.recreate = ls.flatten ∧ (∀ l ∈ ls, IsLine l) ∧
      countStart [' ', '-'] ls = d.headerSlc ∧
      countStart [' ', '+'] ls = d.headerDlc ∧
      countStart [' ', '-', '+'] ls = ls.length := by
  have hline : ∀ c : Char, c ≠ '\n' → ∀ l ∈ d.srcText ++ d.dstText, IsLine (c :: l) := by
    intro c hc l hl
    obtain ⟨t, h1, h2⟩ := hd.lines l hl
    exact ⟨c :: t, by rw [h1]; rfl, by simp [h2]; exact fun h => hc h.symm⟩
  have e1 : d.srcText.length = d.slc := by simp [Diff.srcText, Diff.slc]
  have e2 : d.dstText.length = d.dlc := by simp [Diff.dstText, Diff.dlc]
  cases hT : d.type with
  | Change =>
    refine ⟨d.srcText.map ('-' :: ·) ++ d.dstText.map ('+' :: ·), by simp [Diff.recreate, Diff.recreateSource, Diff.recreateDest, hT], ?_, ?_, ?_, ?_⟩
    · intro l hl
      simp only [List.mem_append, List.mem_map] at hl
      rcases hl with ⟨a, ha, rfl⟩ | ⟨a, ha, rfl⟩
      · exact hline _ (by decide) a (by simp [ha])
      · exact hline _ (by decide) a (by simp [ha])
    all_goals simp [countStart_append, countStart_cons, e1, e2, Diff.headerSlc, Diff.headerDlc, hT]
  | Insert =>
    have hs : d.srcText = [] := List.eq_nil_of_length_eq_zero (by rw [e1]; exact hd.insert hT)
    refine ⟨d.dstText.map ('+' :: ·), by simp [Diff.recreate, Diff.recreateSource, Diff.recreateDest, hT, hs], ?_, ?_, ?_, ?_⟩
    · intro l hl
      obtain ⟨a, ha, rfl⟩ := List.mem_map.1 hl
      exact hline _ (by decide) a (by simp [ha])
    all_goals simp [countStart_cons, e2, Diff.headerSlc, Diff.headerDlc, hT]
  | Delete =>
    have hs : d.dstText = [] := List.eq_nil_of_length_eq_zero (by rw [e2]; exact hd.delete hT)
    refine ⟨d.srcText.map ('-' :: ·), by simp [Diff.recreate, Diff.recreateSource, Diff.recreateDest, hT, hs], ?_, ?_, ?_, ?_⟩
    · intro l hl
      obtain ⟨a, ha, rfl⟩ := List.mem_map.1 hl
      exact hline _ (by decide) a (by simp [ha])
    all_goals simp [countStart_cons, e1, Diff.headerSlc, Diff.headerDlc, hT]
  | Unchanged =>
    refine ⟨d.dstText.map (' ' :: ·), by simp [Diff.recreate, Diff.recreateSource, Diff.recreateDest, hT], ?_, ?_, ?_, ?_⟩
    · intro l hl
      obtain ⟨a, ha, rfl⟩ := List.mem_map.1 hl
      exact hline _ (by decide) a (by simp [ha])
    · have := hd.unchanged hT
      simp [countStart_cons, e2, this, Diff.headerSlc, hT]
    all_goals simp [countStart_cons, e2, Diff.headerSlc, Diff.headerDlc, hT]

/-- **C19.**  `recreateHunk` is a header `@@ -l,ns +l',nd @@…` followed by complete lines, each starting with ' ', '-' or '+'; exactly `ns`
of them start with ' ' or '-' and exactly `nd` with ' ' or '+'. -/
theorem C19_hunk_header_counts (k : Hunk Diff) (hk : ∀ d ∈ k.diffs, d.Printable) :
    ∃ (ls : List Str) (ns nd : Nat), k.recreate = str "@@ -" ++ decInt k.sourceLine ++ str "," ++ decInt ns ++ str " +" ++ decInt k.destLine ++
        str "," ++ decInt nd ++ str " @@" ++ (if k.function ≠ [] then ' ' :: k.function else []) ++ str "\n" ++ ls.flatten ∧
      (∀ l ∈ ls, IsLine l) ∧ countStart [' ', '-', '+'] ls = ls.length ∧
      countStart [' ', '-'] ls = ns ∧ countStart [' ', '+'] ls = nd := by
  have main : ∀ ds : List Diff, (∀ d ∈ ds, d.Printable) → ∃ ls : List Str, (ds.map Diff.recreate).flatten = ls.flatten ∧
      (∀ l ∈ ls, IsLine l) ∧ countStart [' ', '-', '+'] ls = ls.length ∧
      countStart [' ', '-'] ls = (ds.map Diff.headerSlc).sum ∧
      countStart [' ', '+'] ls = (ds.map Diff.headerDlc).sum := by
    intro ds hds
    induction ds with
    | nil => exact ⟨[], rfl, by simp, rfl, rfl, rfl⟩
    | cons d ds ih =>
      obtain ⟨ls, i1, i2, i3, i4, i5⟩ := ih (fun d hd => hds d (by simp [hd]))
      obtain ⟨l0, j1, j2, j3, j4, j5⟩ := d.recreate_lines (hds d (by simp))
      refine ⟨l0 ++ ls, by simp [i1, j1], ?_, ?_, ?_, ?_⟩
      · intro l hl
        rcases List.mem_append.1 hl with hl | hl
        · exact j2 l hl
        · exact i2 l hl
      · rw [countStart_append, i3, j5]; simp
      · rw [countStart_append, i4, j3]; simp
      · rw [countStart_append, i5, j4]; simp
  obtain ⟨ls, i1, i2, i3, i4, i5⟩ := main k.diffs hk
  exact ⟨ls, k.headerSlc, k.headerDlc, by rw [Hunk.recreate, i1, Hunk.header], i2, i3, i4, i5⟩

/-- A hunk with context, a change of one line into two, and an insertion meets the hypothesis of C19. -/
example : ∀ d ∈ ({ sourceLine := 1, destLine := 1, diffs := [
      { Diff.new 1 1 .Unchanged with source := [DStr.ofStr (str "a\n")], dest := [DStr.ofStr (str "a\n")] },
      { Diff.new 2 2 .Change with source := [DStr.ofStr (str "b\n")], dest := [DStr.ofStr (str "c\n"), DStr.ofStr (str "d\n")] }] }
      : Hunk Diff).diffs, d.Printable := by
  intro d hd
  simp only [List.mem_cons, List.not_mem_nil, or_false] at hd
  rcases hd with rfl | rfl
  · refine ⟨by decide, by decide, by decide, ?_⟩
    intro l hl
    have : l = str "a" ++ ['\n'] := by
      simp [Diff.srcText, Diff.dstText, DStr.ofStr, str] at hl ⊢; exact hl
    exact ⟨_, this, by decide⟩
  · refine ⟨by decide, by decide, by decide, ?_⟩
    intro l hl
    have : l = str "b" ++ ['\n'] ∨ l = str "c" ++ ['\n'] ∨ l = str "d" ++ ['\n'] := by
      simp [Diff.srcText, Diff.dstText, DStr.ofStr, str] at hl ⊢; exact hl
    rcases this with h | h | h
    · exact ⟨_, h, by decide⟩
    · exact ⟨_, h, by decide⟩
    · exact ⟨_, h, by decide⟩

end KompareDiff2
