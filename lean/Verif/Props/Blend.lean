import Verif.Proofs.Saved
import Verif.Props.ParserSound
/-
Property theorems C34, C35: blending a diff with the original file, saving the selected mix.
-/
namespace KompareDiff2
open Spec

/-- C34: whenever the hunks of a model apply to a file, giving the lines `new`, after blending: the old lines of all hunks together
are the file and their new lines are the patched file; leaving out the added hunks gives the hunks the model had; the differences of the
model and all `Difference` objects that existed are unchanged; every hunk stands directly behind the one before it; an added hunk
holds one unchanged, non-empty block of lines with the right numbers. -/
theorem C34_blend {m : DModel} {h : Heap} {contents : Str} {new : List Str} (ha : ∀ i ∈ m.hunkIds, i < h.next)
    (hn : ∀ k ∈ m.hunks, k.type ≠ .AddedByBlend)
    (hp : Patches 0 ((m.hunks.map (Hunk.view h)).map HView.edit) (split contents) new) :
    let r := m.blend h contents
    let hv := r.1.hunks.map (Hunk.view r.2)
    (hv.flatMap HView.old).flatten = contents ∧ hv.flatMap HView.new = new ∧
      hv.filter (fun k => decide (k.type ≠ .AddedByBlend)) = m.hunks.map (Hunk.view h) ∧
      r.1.differences = m.differences ∧ (∀ i, i < h.next → r.2.cell i = h.cell i) ∧
      (∀ (before : List HView) (k : HView) (after : List HView), hv = before ++ k :: after →
        k.srcLine = (((before.flatMap HView.old).length + 1 : Nat) : Int) ∧
        (k.type = .AddedByBlend → k.dstLine = (((before.flatMap HView.new).length + 1 : Nat) : Int) ∧ k.function = [] ∧
          ∃ ls, ls ≠ [] ∧ k.diffs = [unchanged k.srcLine k.dstLine ls])) := by
  intro r hv
  obtain ⟨hb, _⟩ := blend_blended ha (located_of_patches hp)
  have hn' : ∀ k ∈ m.hunks.map (Hunk.view h), k.type ≠ .AddedByBlend := by
    intro k hk
    rw [List.mem_map] at hk
    obtain ⟨k, hk, rfl⟩ := hk
    exact hn k hk
  obtain ⟨h1, h2⟩ := blended_lines hb hp
  refine ⟨?_, h2, blended_filter hb hn', rfl, (blend_ext m h contents).2, ?_⟩
  · rw [h1]; exact splitAux_flatten [] contents
  · intro before k after e
    obtain ⟨p1, p2⟩ := placed_split (blended_placed hb hn') before k after e
    rw [Nat.zero_add] at p1 p2
    refine ⟨p1, fun ht => ⟨p2 ht, ?_⟩⟩
    obtain ⟨a, b, ls, hne, hk⟩ := blended_added hb hn' (k := k) (by
      have e' : (m.blend h contents).1.hunks.map (Hunk.view (m.blend h contents).2) = before ++ k :: after := e
      rw [e']; simp) ht
    subst hk
    exact ⟨rfl, ls, hne, rfl⟩

/-- C34: blending marks the model as blended and changes nothing else of it than the list of hunks: names, paths, time stamps, revisions, the
list of differences, the number of applied ones and the selection stay. -/
theorem C34_frame (m : DModel) (h : Heap) (contents : Str) :
    (m.blend h contents).1.blended = true ∧
      { (m.blend h contents).1 with hunks := m.hunks, blended := m.blended } = m := ⟨rfl, rfl⟩

/-- C34, defect: the lines of the file at the place of a hunk are not looked at.  If another file has the same lines outside the hunks
and any lines of the same number inside them, the user sees exactly the same hunks and saves exactly the same text: lines of the other
file are lost without notice. -/
theorem C34_unchecked_defect {m : DModel} {h : Heap} {contents contents' : Str} {new : List Str} {es : List Edit}
    (ha : ∀ i ∈ m.hunkIds, i < h.next)
    (hp : Patches 0 ((m.hunks.map (Hunk.view h)).map HView.edit) (split contents) new)
    (he : es.map (fun e => (e.line, e.old.length, e.new)) = (m.hunks.map (Hunk.view h)).map (fun k => (k.edit.line, k.edit.old.length, k.edit.new)))
    (hp' : Patches 0 es (split contents') new) :
    (m.blend h contents').1.hunks.map (Hunk.view (m.blend h contents').2) = (m.blend h contents).1.hunks.map (Hunk.view (m.blend h contents).2) ∧
      (m.blend h contents').1.savedText (m.blend h contents').2 = (m.blend h contents).1.savedText (m.blend h contents).2 := by
  have hl : Located 0 (m.hunks.map (Hunk.view h)) (split contents') := by
    have : ∀ (ks : List HView) (a : Nat) (es : List Edit) (file out : List Str),
        es.map (fun e => (e.line, e.old.length, e.new)) = ks.map (fun k => (k.edit.line, k.edit.old.length, k.edit.new)) →
        Patches a es file out → Located a ks file := by
      intro ks
      induction ks with
      | nil => intro a es file out _ _; exact .done _ _
      | cons k ks ih =>
        intro a es file out he hp
        cases hp with
        | done => simp at he
        | edit _ e es keep file out hl hp =>
          simp only [List.map_cons, List.cons.injEq, Prod.mk.injEq] at he
          obtain ⟨⟨e1, e2, e3⟩, he⟩ := he
          rw [e2] at hp
          exact .hunk _ _ _ _ _ _ (by rw [← hl, e1]; rfl) (by rw [e2]; rfl) (ih _ _ _ _ he hp)
    exact this _ _ _ _ _ he hp'
  obtain ⟨hb, _⟩ := blend_blended ha (located_of_patches hp)
  obtain ⟨hb', _⟩ := blend_blended ha hl
  have e := blended_unchecked hb hb' he hp hp'
  refine ⟨e.symm, ?_⟩
  rw [savedText_view, savedText_view, ← view_diffs, ← view_diffs, e]

theorem blend_parsed {P : HView → Prop} {m : DModel} {h : Heap} {c : Str} {T : List Str} (hm : Parsed P h m)
    (hP : ∀ k, P k → k.type = .Normal ∧ k.Coherent)
    (hp : Patches 0 ((m.hunks.map (Hunk.view h)).map HView.edit) (split c) T) : Ready (m.blend h c).2 (m.blend h c).1 (split c) T := by
  refine blend_ready hm.alloc ?_ ?_ ?_ hp
  · intro k hk q
    have e : (k.view h).type = .Normal := (hP _ (hm.hunks k hk)).1
    have e2 : (k.view h).type = k.type := rfl
    rw [e2, q] at e
    cases e
  · exact fun k hk => (hP _ (hm.hunks k hk)).2
  · intro i hi ht
    rw [hm.differences, List.mem_filter]
    exact ⟨hi, by simpa using ht⟩

/-- The hypothesis about the hunks holds for the hunks of all three formats. -/
theorem coherent_formats (k : HView) : (k.UnifiedOk → k.type = .Normal ∧ k.Coherent) ∧ (k.ContextOk → k.type = .Normal ∧ k.Coherent) ∧
    (k.NormalOk → k.type = .Normal ∧ k.Coherent) :=
  ⟨fun h => ⟨h.1, unified_coherent h⟩, fun h => ⟨h.1, context_coherent h⟩, fun h => ⟨h.1, normal_coherent h⟩⟩

/-- C35: after blending a parsed model that applies to a file, and after any sequence of calls (selecting, applying, unapplying one or
all differences, saving), the text written on saving is the file with exactly those changes made that are *not* marked as applied.
With no difference marked it is the patched file, with all marked it is the original file. -/
theorem C35_saved {P : HView → Prop} {m m' : DModel} {h h' : Heap} {contents : Str} {new : List Str} {ops : List MOp} (hm : Parsed P h m)
    (hP : ∀ k, P k → k.type = .Normal ∧ k.Coherent)
    (hp : Patches 0 ((m.hunks.map (Hunk.view h)).map HView.edit) (split contents) new)
    (hr : runOps ops (m.blend h contents) = Res.ok (m', h')) :
    (∃ out, Patches 0 ((pending (m'.hunks.map (Hunk.view h'))).map DView.edit) (split contents) out ∧ m'.savedText h' = out.flatten) ∧
      ((∀ d ∈ m'.differences, (h'.cell d).applied = false) → m'.savedText h' = new.flatten) ∧
      ((∀ d ∈ m'.differences, (h'.cell d).applied = true) → m'.savedText h' = contents) := by
  have r0 := blend_parsed hm hP hp
  obtain ⟨r1, r2, r3⟩ := run_same hr
  have rr : ∀ j, Diff.Same ((m.blend h contents).2.cell j) (h'.cell j) := r3
  have r := (r0.frame (m' := m') r1 r2 rr (h' := { h' with next := (m.blend h contents).2.next }) (Nat.le_refl _))
  obtain ⟨out, ho, hs⟩ := r.saved
  refine ⟨⟨out, ho, hs⟩, fun hb => r.all false hb, fun hb => ?_⟩
  exact (r.all true hb).trans (splitAux_flatten [] contents)

/-- C35: hence "unapply all" and save writes the patched file, "apply all" and save the original file, whatever was done before. -/
theorem C35_apply_all {P : HView → Prop} {m : DModel} {h : Heap} {contents : Str} {new : List Str} (ops : List MOp) (hm : Parsed P h m)
    (hP : ∀ k, P k → k.type = .Normal ∧ k.Coherent)
    (hp : Patches 0 ((m.hunks.map (Hunk.view h)).map HView.edit) (split contents) new) {t : DModel × Heap}
    (hr : runOps ops (m.blend h contents) = Res.ok t) :
    (t.1.applyAllDifferences t.2 false).1.savedText (t.1.applyAllDifferences t.2 false).2 = new.flatten ∧
      (t.1.applyAllDifferences t.2 true).1.savedText (t.1.applyAllDifferences t.2 true).2 = contents := by
  have key : ∀ b, runOps (ops ++ [.applyAll b]) (m.blend h contents) = Res.ok (t.1.applyAllDifferences t.2 b) := by
    intro b
    have : ∀ (ops : List MOp) (s t : DModel × Heap), runOps ops s = Res.ok t →
        runOps (ops ++ [.applyAll b]) s = Res.ok (t.1.applyAllDifferences t.2 b) := by
      intro ops
      induction ops with
      | nil => intro s t h; simp only [runOps, Res.ok.injEq] at h; subst h; rfl
      | cons op ops ih =>
        intro s t h
        simp only [runOps, Res.bind_eq_ok] at h
        obtain ⟨u, h1, h2⟩ := h
        simp only [List.cons_append, runOps, h1, Res.bind_ok]
        exact ih u t h2
    exact this ops _ _ hr
  have app : ∀ b, ∀ d ∈ (t.1.applyAllDifferences t.2 b).1.differences, ((t.1.applyAllDifferences t.2 b).2.cell d).applied = b := by
    intro b d hd
    exact (applied_applyAllLoop b t.1.differences t.2 0 d).trans (if_pos hd)
  exact ⟨(C35_saved hm hP hp (key false)).2.1 (app false), (C35_saved hm hP hp (key true)).2.2 (app true)⟩

/-- C35: edits made through `linesChanged` are not part of the saved text (they change the list of differences, but the text is taken
from the hunks). -/
theorem C35_edits_not_saved {hash : Str → Nat} {m m' : DModel} {h h' : Heap} {old new : List Str} {edit : Int} {ins del : List Nat}
    (ha : ∀ i ∈ m.hunkIds, i < h.next) (hr : m.linesChanged hash h old new edit = Res.ok (m', h', ins, del)) :
    m'.savedText h' = m.savedText h := by
  unfold DModel.linesChanged at hr
  obtain ⟨r, hr1, hr2⟩ := Res.bind_eq_ok.1 hr
  simp only [Res.ok.injEq, Prod.mk.injEq] at hr2
  obtain ⟨rfl, rfl, -, -⟩ := hr2
  unfold DModel.savedText
  simp only
  congr 1
  simp only [List.flatMap]
  congr 1
  apply List.map_congr_left
  intro i hi
  have hi' : i < h.next := ha i hi
  have key : ∀ (ids : List Nat) (hp : Heap) (c : Int), ((hp.modifyAll (fun d => { d with tracking := d.tracking + c }) ids).cell i).savedLines = (hp.cell i).savedLines := by
    intro ids
    induction ids with
    | nil => intro hp c; rfl
    | cons j js ih =>
      intro hp c
      simp only [Heap.modifyAll]
      rw [ih]
      by_cases e : i = j
      · subst e; simp [Heap.modify, Diff.savedLines, Diff.srcText, Diff.dstText]
      · simp [Heap.modify, e]
  rw [key, Heap.allocAll_old _ _ _ hi']

/-! ### The hypotheses are met -/

/-- The old text of `b.txt` in the diff of C26. -/
def exampleOld : Str := str "one\ntwo\nx\nold\n"
/-- The new text of `b.txt` in the diff of C26. -/
def exampleNew : List Str := [str "one\n", str "two\n", str "x\n", str "new"]

/-- The hunk of `b.txt` applies. -/
theorem example_patches : Patches 0 [⟨3, [str "x\n", str "old\n"], [str "x\n", str "new"]⟩] (split exampleOld) exampleNew := by
  have e1 : split exampleOld = [str "one\n", str "two\n"] ++ [str "x\n", str "old\n"] ++ [] := by decide
  have e2 : exampleNew = [str "one\n", str "two\n"] ++ [str "x\n", str "new"] ++ [] := by decide
  rw [e1, e2]
  exact .edit 0 ⟨3, [str "x\n", str "old\n"], [str "x\n", str "new"]⟩ [] [str "one\n", str "two\n"] [] [] (by decide) (.done _ _)

/-- The diff of C26 gives a model that meets the hypotheses of C34 and C35: it was parsed and applies to the old text of `b.txt`. -/
theorem example_blend : ∃ (P : HView → Prop) (h : Heap) (m : DModel), Parsed P h m ∧ (∀ k, P k → k.type = .Normal ∧ k.Coherent) ∧
    m.differences.length = 1 ∧ (∀ i ∈ m.hunkIds, i < h.next) ∧ (∀ k ∈ m.hunks, k.type ≠ .AddedByBlend) ∧
    Patches 0 ((m.hunks.map (Hunk.view h)).map HView.edit) (split exampleOld) exampleNew := by
  obtain ⟨r, hr, _, hv⟩ := C26_unified exampleDiff exampleDiff_ok (by simp [exampleDiff]) false (fun _ _ => 0) ⟨fun _ => Diff.new 0 0 .Unchanged, 0⟩
  cases hms : r.models with
  | none =>
    rw [hms] at hv
    exact absurd (hv _ (List.mem_cons_self ..)) (by decide)
  | some ms =>
    rw [hms] at hv
    simp only at hv
    have hf : ∃ f ∈ exampleDiff.files.filter UFile.changes, f.hunks.map UHunk.view = [⟨3, 3, str "int main()", .Normal,
        [⟨.Unchanged, 3, 3, 3, [str "x\n"], [str "x\n"], false, false, false⟩, ⟨.Change, 4, 4, 4, [str "old\n"], [str "new"], false, false, false⟩]⟩] ∧
        (f.hunks.flatMap (fun h => h.view.diffs)).filter (fun d => d.type ≠ .Unchanged) = [⟨.Change, 4, 4, 4, [str "old\n"], [str "new"], false, false, false⟩] := by
      refine ⟨_, List.mem_filter.2 ⟨List.mem_cons_self .., by decide⟩, by decide, by decide⟩
    obtain ⟨f, hf, hh, hd⟩ := hf
    have hm : f.view (unescapePath false) ∈ ms.map (DModel.view r.heap) := hv.2.mem_iff.2 (List.mem_map.2 ⟨f, hf, rfl⟩)
    rw [List.mem_map] at hm
    obtain ⟨m, hm, e⟩ := hm
    have e1 : m.hunks.map (Hunk.view r.heap) = f.hunks.map UHunk.view := congrArg MView.hunks e
    have e2 : m.differences.length = 1 := by
      have q := congrArg (fun v => (MView.differences v).length) e
      simp only [DModel.view, List.length_map] at q
      rw [q]
      show ((f.hunks.flatMap (fun h => h.view.diffs)).filter (fun d => d.type ≠ .Unchanged)).length = 1
      rw [hd]; rfl
    have key : ∀ P : HView → Prop, ParsedModels P ⟨fun _ => Diff.new 0 0 .Unchanged, 0⟩ r.heap ms → (∀ k, P k → k.type = .Normal ∧ k.Coherent) →
        ∃ (P : HView → Prop) (h : Heap) (m : DModel), Parsed P h m ∧ (∀ k, P k → k.type = .Normal ∧ k.Coherent) ∧
          m.differences.length = 1 ∧ (∀ i ∈ m.hunkIds, i < h.next) ∧ (∀ k ∈ m.hunks, k.type ≠ .AddedByBlend) ∧
          Patches 0 ((m.hunks.map (Hunk.view h)).map HView.edit) (split exampleOld) exampleNew := by
      intro P hp hP
      refine ⟨P, r.heap, m, (hp.each m hm).1, hP, e2, (hp.each m hm).1.alloc, ?_, by rw [e1, hh]; exact example_patches⟩
      intro k hk q
      have e : (k.view r.heap).type = .Normal := (hP _ ((hp.each m hm).1.hunks k hk)).1
      have e2 : (k.view r.heap).type = k.type := rfl
      rw [e2, q] at e
      cases e
    rcases C27_parse_sound _ _ _ _ r ms hr hms with h | h | h
    · exact key _ h (fun k => (coherent_formats k).1)
    · exact key _ h (fun k => (coherent_formats k).2.1)
    · exact key _ h (fun k => (coherent_formats k).2.2)

/-- After blending, unapplying all differences and saving gives the new text, applying all the old text. -/
example : ∃ (m : DModel) (h : Heap), m.differences.length = 1 ∧
    (let t := m.blend h exampleOld
     (t.1.applyAllDifferences t.2 false).1.savedText (t.1.applyAllDifferences t.2 false).2 = exampleNew.flatten ∧
      (t.1.applyAllDifferences t.2 true).1.savedText (t.1.applyAllDifferences t.2 true).2 = exampleOld) := by
  obtain ⟨P, h, m, h1, h2, h3, h4, h5, h6⟩ := example_blend
  exact ⟨m, h, h3, C35_apply_all [] h1 h2 h6 rfl⟩

/-- The hypotheses of the defect are met: a file with other lines at the place of the hunk. -/
example : ∃ es new, Patches 0 es (split (str "one\ntwo\nother\nlines\n")) new ∧ new = exampleNew ∧
    es.map (fun e => (e.line, e.old.length, e.new)) = [(3, 2, [str "x\n", str "new"])] := by
  refine ⟨[⟨3, [str "other\n", str "lines\n"], [str "x\n", str "new"]⟩], exampleNew, ?_, rfl, rfl⟩
  have e1 : split (str "one\ntwo\nother\nlines\n") = [str "one\n", str "two\n"] ++ [str "other\n", str "lines\n"] ++ [] := by decide
  have e2 : exampleNew = [str "one\n", str "two\n"] ++ [str "x\n", str "new"] ++ [] := by decide
  rw [e1, e2]
  exact .edit 0 ⟨3, [str "other\n", str "lines\n"], [str "x\n", str "new"]⟩ [] [str "one\n", str "two\n"] [] [] (by decide) (.done _ _)

end KompareDiff2
