import Verif.Proofs.LinesChanged32
import Verif.Props.LinesChanged
/-
C67: reported edits and the range of `int`.
-/
namespace KompareDiff2
open Spec

/-- **C67.** With the arithmetic of the code – checked `int` operations, narrowed 64-bit sizes – a reported edit does exactly what `C15` to `C18` say of
unbounded numbers, provided the source, the text before and the text after the edit all end within `int`.  `m` and `h` are a model that
describes the two texts, the edited lines are `old`; the other hypotheses are those of `C15`. -/
theorem C67_edit (hash : Str → Nat) (m : DModel) (h : Heap) (b : Int) (S P old Q new : List Str)
    (hc : Consistent b S (P ++ old ++ Q) m h) (hshortS : ∀ l ∈ S, ShortLine l) (hshortT : ∀ l ∈ P ++ new ++ Q, ShortLine l)
    (hsz : (old.length + (((m.values h).filter (touched (b + P.length) (b + P.length + old.length))).map Diff.slc).sum + 1) *
      (new.length + (((m.values h).filter (touched (b + P.length) (b + P.length + old.length))).map Diff.dlc).sum + 1) ≤ 2 ^ 24)
    (h0 : 0 ≤ b) (h1 : b + S.length ≤ maxInt) (h2 : b + (P ++ old ++ Q).length ≤ maxInt) (h3 : b + (P ++ new ++ Q).length ≤ maxInt) :
    m.linesChanged32 hash h old new (b + P.length) = m.linesChanged hash h old new (b + P.length) := by
  obtain ⟨k1, k2⟩ := linesChanged32_ok hash b S P old Q new (m.values h) (b + P.length) hc.describes hc.apart hc.fair rfl hshortS hshortT hsz h0 h1 h2 h3
  unfold DModel.linesChanged32 DModel.linesChanged
  have e : KompareDiff2.linesChanged32 hash (m.differences.map h.cell) old new (b + P.length) =
      KompareDiff2.linesChanged hash (m.differences.map h.cell) old new (b + P.length) := k1
  rw [e]
  cases hr : KompareDiff2.linesChanged hash (m.differences.map h.cell) old new (b + P.length) with
  | ub => rfl
  | hang => rfl
  | ok r =>
    rw [Res.bind_ok, Res.bind_ok]
    dsimp only
    have nd : (m.differences.drop (r.pre.length + r.removed.length)).Nodup := hc.valid.1.sublist (List.drop_sublist ..)
    have key : (h.allocAll r.inserted).2.modifyAll (retrack32 old new) (m.differences.drop (r.pre.length + r.removed.length)) =
        (h.allocAll r.inserted).2.modifyAll (fun d => { d with tracking := d.tracking + ((new.length : Int) - old.length) })
          (m.differences.drop (r.pre.length + r.removed.length)) := by
      refine Heap.modifyAll_congr _ _ _ _ nd (fun i hi => ?_)
      have hm : i ∈ m.differences := List.mem_of_mem_drop hi
      have ec : (h.allocAll r.inserted).2.cell i = h.cell i := Heap.allocAll_old _ _ _ (hc.valid.2 i hm)
      rw [ec]
      refine k2 _ (List.mem_map.2 ⟨i, hm, rfl⟩) ?_
      by_cases hne : old = [] ∧ new = []
      · exfalso
        have : r = ⟨m.differences.map h.cell, [], [], []⟩ := by
          unfold linesChanged at hr
          rw [if_pos hne] at hr
          exact (Res.ok.inj hr).symm
        subst this
        simp at hi
      · obtain ⟨r', q1, _, _, _, _, ⟨mid, post, p1, p2, p3, _, _, p6⟩, _⟩ :=
          linesChanged_ok hash b S P old Q new (m.values h) (b + P.length) hc.describes hc.apart hc.fair rfl hne hshortS hshortT hsz
        have : r' = r := Res.ok.inj (q1.symm.trans hr)
        subst this
        refine p6 _ ?_
        have hd : (m.differences.drop (r'.pre.length + r'.removed.length)).map h.cell = post := by
          rw [List.map_drop]
          show List.drop _ (m.values h) = post
          rw [p1, p2, ← List.append_assoc, ← List.length_append, List.drop_left]
        rw [← hd]
        exact List.mem_map.2 ⟨i, hi, rfl⟩
    rw [key]

/-- The client reports the edits one after the other, to the code with its arithmetic. -/
def runEdits32 (hash : Str → Nat) (b : Int) : List LineEdit → DModel × Heap × List Str → Res (DModel × Heap × List Str)
  | [], s => Res.ok s
  | ed :: eds, (m, h, T) => do
    let r ← m.linesChanged32 hash h ((T.drop ed.at).take ed.del) ed.new (b + ed.at)
    runEdits32 hash b eds (r.1, r.2.1, editText T ed)

/-- **C67.** Every history of edits: as long as the source and every text of the history end within `int`, nothing overflows and nothing is
narrowed: at the end the differences describe exactly how the source becomes the current text. -/
theorem C67_edit_history (hash : Str → Nat) (b : Int) (S T : List Str) (m : DModel) (h : Heap) (eds : List LineEdit)
    (hc : Consistent b S T m h) (hS : ∀ l ∈ S, ShortLine l) (hT : ∀ l ∈ T, ShortLine l) (hfit : TextsFit S.length T eds)
    (h0 : 0 ≤ b) (h1 : b + S.length ≤ maxInt) (h2 : ∀ k ≤ eds.length, b + (editedText T (eds.take k)).length ≤ maxInt) :
    ∃ m' h', runEdits32 hash b eds (m, h, T) = Res.ok (m', h', editedText T eds) ∧ Consistent b S (editedText T eds) m' h' := by
  suffices e : runEdits32 hash b eds (m, h, T) = runEdits hash b eds (m, h, T) by
    rw [e]; exact C16_edit_history_texts hash b S T m h eds hc hS hT hfit
  induction eds generalizing m h T with
  | nil => rfl
  | cons ed eds ih =>
    obtain ⟨f1, f2, f3, f4⟩ := hfit
    obtain ⟨p1, p2, p3⟩ := editText_parts f1
    have hsum := hc.describes.sums hc.fair
    have hszs : (ed.del + (((m.values h).filter (touched (b + ed.at) (b + ed.at + ed.del))).map Diff.slc).sum + 1) *
      (ed.new.length + (((m.values h).filter (touched (b + ed.at) (b + ed.at + ed.del))).map Diff.dlc).sum + 1) ≤ 2 ^ 24 := by
      refine Nat.le_trans (Nat.mul_le_mul ?_ ?_) f3
      · have := filter_sum_le (touched (b + ed.at) (b + ed.at + ed.del)) Diff.slc (m.values h)
        omega
      · have := filter_sum_le (touched (b + ed.at) (b + ed.at + ed.del)) Diff.dlc (m.values h)
        omega
    have hT' : ∀ l ∈ editText T ed, ShortLine l := by
      intro l hl
      simp only [editText, List.mem_append] at hl
      rcases hl with (hl | hl) | hl
      · exact hT l (List.mem_of_mem_take hl)
      · exact f2 l hl
      · exact hT l (List.mem_of_mem_drop hl)
    have e0 := h2 0 (by simp)
    have e1 := h2 1 (by simp)
    simp only [List.take_zero, editedText, List.foldl_nil] at e0
    simp only [List.take_succ_cons, List.take_zero, editedText, List.foldl_cons, List.foldl_nil] at e1
    have same := C67_edit hash m h b S (T.take ed.at) ((T.drop ed.at).take ed.del) (T.drop (ed.at + ed.del)) ed.new
      (by rw [p1]; exact hc) hS hT' (by rw [p2, p3]; exact hszs) h0 h1 (by rw [p1]; exact e0) e1
    rw [p2] at same
    unfold runEdits32 runEdits
    rw [same]
    obtain ⟨m1, h1', ins1, rem1, g1, g2, g3, g4, g5⟩ := C15_edit_consistent hash m h b S (T.take ed.at) ((T.drop ed.at).take ed.del)
      (T.drop (ed.at + ed.del)) ed.new hc.valid (by rw [p1]; exact hc.describes) hc.apart hc.fair hS hT'
      (by rw [p2, p3]; exact hszs)
    rw [p2] at g1
    rw [g1, Res.bind_ok, Res.bind_ok]
    refine ih (editText T ed) m1 h1' ⟨g2, g3, g4, g5⟩ hT' f4 (fun k hk => ?_)
    have := h2 (k + 1) (by simp; omega)
    simpa [editedText] using this

/-- **C67, defect.** The range is not checked: when lines are inserted before a difference whose tracked line number then no longer fits, the
call returns normally and the difference is tracked at a *negative* line. -/
theorem C67_wrap_defect (hash : Str → Nat) (d : Diff) (new : List Str) (e : Int) (hn : new ≠ []) (hs : ∀ l ∈ new, ShortLine l) (hl : new.length + 1 ≤ 2 ^ 24)
    (h0 : 0 ≤ e) (h1 : e < d.tracking) (hi : InInt d) (h2 : d.tracking - e ≤ d.sourceLineNo) (h3 : e + new.length ≤ maxInt)
    (big : maxInt < d.tracking + new.length) :
    ∃ r, linesChanged32 hash [d] [] new e = Res.ok r ∧ r.removed = [] ∧
      r.post = [{ d with tracking := d.tracking + new.length - 4294967296 }] ∧ d.tracking + new.length - 4294967296 < 0 := by
  have a1 := hi.tracking; have a2 := hi.trackingEnd; have a3 := hi.source; have a4 := hi.sourceEnd
  unfold Diff.trackingEnd at a2
  unfold Diff.sourceEnd at a4
  obtain ⟨l, i1, i2, i3, _⟩ := lcInserted_ok hash [] new (d.sourceLineNo - (d.tracking - e)) e (by simp) hs (by simpa using hl)
  have i32 : lcInserted32 hash [] new (d.sourceLineNo - (d.tracking - e)) e = Res.ok l := by
    refine lcInserted32_eq hash [] new _ _ (by omega) h0 (by simpa using hl) i1 (fun x hx => ?_)
    have c := i3 x hx
    have f1 : Fair x := ⟨c.nonempty, fun q => by rw [c.applied] at q; cases q⟩
    have b1 := i2.srcBounds x hx
    have b2 := i2.bounds x hx
    rw [curEnd_fair f1] at b2
    unfold Diff.sourceEnd at b1
    unfold Diff.trackingEnd at b2
    simp only [List.length_nil, Int.natCast_zero] at b1
    rw [c.tracking]
    omega
  have hb : lcBefore32 e d = false := by
    rw [lcBefore32_eq hi]
    unfold lcBefore
    have : d.trackingEnd > e := by unfold Diff.trackingEnd; omega
    simp [this]
  have he : narrow32 (e + ([] : List Str).length) = e := by
    simp only [List.length_nil]
    exact (narrow32_ok (by omega) (by omega)).trans (by omega)
  have hin : lcInside e d = false := by
    unfold lcInside
    simp [h1]
  have hw : narrow32 (d.tracking + ((new.length : Int) - (([] : List Str).length : Int))) = d.tracking + new.length - 4294967296 := by
    unfold maxInt at *
    simp only [List.length_nil, Int.natCast_zero, Int.sub_zero]
    unfold narrow32
    rw [Int.bmod_def]
    split <;> omega
  refine ⟨⟨[], [], l, [{ d with tracking := d.tracking + new.length - 4294967296 }]⟩, ?_, rfl, rfl, by unfold maxInt at *; omega⟩
  unfold linesChanged32
  rw [if_neg (fun q => hn q.2)]
  dsimp only
  rw [he]
  simp only [List.takeWhile_cons, List.dropWhile_cons, hb, hin, Bool.false_eq_true, if_false, List.filter_nil, lcBlocks32, List.map_cons, List.map_nil,
    retrack32, hw]
  have hno : lcLineNumbers32 [d] [d] e = Res.ok (d.sourceLineNo - (d.tracking - e), e) := by
    unfold lcLineNumbers32
    dsimp only
    rw [if_pos (Or.inr (by omega)), int32_ok (by omega) (by omega), Res.bind_ok, int32_ok (by omega) (by omega), Res.bind_ok]
  rw [hno, Res.bind_ok, Res.bind_ok]
  dsimp only
  rw [i32, Res.bind_ok]

/-! ### Examples -/

/-- The history of edits of the example of `C16`. -/
example (hash : Str → Nat) : ∃ m' h', runEdits32 hash 1 [⟨1, 2, [str "x\n", str "c\n", str "y\n"]⟩, ⟨0, 4, []⟩]
      (editDemoModel, editDemoHeap, [str "a\n", str "B\n", str "c\n"]) = Res.ok (m', h', []) ∧
    Consistent 1 [str "a\n", str "b\n", str "c\n"] [] m' h' :=
  C67_edit_history hash 1 _ _ _ _ _ editDemo_consistent (by decide) (by decide)
    ⟨by decide, by decide, by decide, by decide, by decide, by decide, trivial⟩ (by decide) (by decide)
    (by
      intro k hk
      simp only [List.length_cons, List.length_nil] at hk
      match k, hk with
      | 0, _ => decide
      | 1, _ => decide
      | 2, _ => decide)

/-- One edit of the same model. -/
example (hash : Str → Nat) : editDemoModel.linesChanged32 hash editDemoHeap [str "B\n"] [str "b\n", str "d\n"] (1 + [str "a\n"].length) =
    editDemoModel.linesChanged hash editDemoHeap [str "B\n"] [str "b\n", str "d\n"] (1 + [str "a\n"].length) :=
  C67_edit hash _ _ 1 _ [str "a\n"] [str "B\n"] [str "c\n"] [str "b\n", str "d\n"] editDemo_consistent (by decide) (by decide) (by decide)
    (by decide) (by decide) (by decide) (by decide)

/-- A difference such as the hunk `@@ -2147483646 +2147483646 @@` gives, and two lines inserted at line 1. -/
example (hash : Str → Nat) : ∃ r, linesChanged32 hash [{ editDemoDiff with sourceLineNo := 2147483646, tracking := 2147483646 }] [] [str "x\n", str "y\n"] 1 = Res.ok r ∧
    r.removed = [] ∧ r.post = [{ editDemoDiff with sourceLineNo := 2147483646, tracking := -2147483648 }] ∧ (-2147483648 : Int) < 0 :=
  C67_wrap_defect hash { editDemoDiff with sourceLineNo := 2147483646, tracking := 2147483646 } [str "x\n", str "y\n"] 1 (by decide) (by decide) (by decide)
    (by decide) (by decide) ⟨by decide, by decide, by decide, by decide⟩ (by decide) (by decide) (by decide)

end KompareDiff2
