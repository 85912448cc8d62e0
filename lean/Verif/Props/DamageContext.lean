import Verif.Proofs.DamageContext
import Verif.Props.Context
/-
Context diffs with lines in the wrong place.
-/
namespace KompareDiff2
open Spec

/-- **C79.** A context diff with a line in the wrong place after a hunk, and after it any lines at all: everything before that line is shown, and the
diff is reported as malformed (if the parser comes to an end; see `C29_context_ub_iff`). -/
theorem C79_before (d : CutDiff) (ok : d.Ok) (win : Bool) (cmp : Str → Str → Int) (heap : Heap) (r : ParseResult)
    (h : parse win cmp heap (split d.render.flatten) = Res.ok r) :
    r.malformed = true ∧ ∃ others, r.shown.Perm (shownFiles (unescapePath win) d.cvs d.before ++ others) := by
  obtain ⟨s, _, h2, h3, n, _, h4⟩ := CutDiff.start d ok win cmp heap
  rw [h4] at h
  obtain ⟨st, h5, h6⟩ := Res.bind_eq_ok.1 h
  simp only [Res.ok.injEq] at h6
  rw [← h6]
  obtain ⟨k1, more, k2⟩ := fileLoop_keeps win d.cvs n s st _ h3 h2 h5
  exact ⟨k1, more, cfinish_shown cmp st _ k2⟩

/-- **C79.** If none of the lines in the wrong place looks like the first header line of a file, no file is lost: those after them are shown too. -/
theorem C79_contained (d : CutDiff) (ok : d.Ok) (hm : ∀ t ∈ d.mess, ¬ opensFile d.cvs (t ++ ['\n'])) (win : Bool) (cmp : Str → Str → Int) (heap : Heap) :
    ∃ r, parse win cmp heap (split d.render.flatten) = Res.ok r ∧ r.malformed = true ∧
      r.shown.Perm (shownFiles (unescapePath win) d.cvs (d.before ++ d.after)) := by
  obtain ⟨s, h1, h2, h3, n, hn, h4⟩ := CutDiff.start d ok win cmp heap
  obtain ⟨st, k1, k2, k3⟩ := cfiles_rest win d.cvs d.after (fun f hf => ok.files f (by simp [hf])) (fun f hf => ok.headers f (by simp [hf]))
    (fun f fs hf => ok.later f fs (.inr hf)) d.trailer ok.trailer.1 ok.trailer.2 d.mess hm s _ h3 h1 n hn
  refine ⟨finishParse cmp st, ?_, ?_, ?_⟩
  · rw [h4, k1]; rfl
  · exact k2.trans h2
  · have : shownFiles (unescapePath win) d.cvs (d.before ++ d.after) = shownFiles (unescapePath win) d.cvs d.before ++ shownFiles (unescapePath win) d.cvs d.after := by
      simp [shownFiles]
    rw [this]
    exact cfinish_shown cmp st _ k3

/-- **C79, what is false.** The damage need not stay in its file, unless the diff was written by CVS.  After the line in the wrong place the next line `*** a,b ****` of a
hunk is taken for the first header line of a file.  If lines were removed in that hunk, the line after it is not the second one, and the parser
gives up: no file after the damage is shown, however well-formed. -/
theorem C79_lost_defect (d : CutDiff) (ok : d.Ok) (hc : d.cvs = false) (pre more : List Str) (range line : Str) (hm : d.mess = pre ++ range :: line :: more)
    (hp : ∀ t ∈ pre, ¬ str "*** " <+: t) (hr : OldRange (range ++ ['\n'])) (htab : '\t' ∉ range) (hl : SectionLine (line ++ ['\n'])) (win : Bool) (cmp : Str → Str → Int) (heap : Heap) :
    ∃ r, parse win cmp heap (split d.render.flatten) = Res.ok r ∧ r.malformed = true ∧ r.shown.Perm (shownFiles (unescapePath win) false d.before) := by
  obtain ⟨s, h1, h2, h3, n, hn, h4⟩ := CutDiff.start d ok win cmp heap
  rw [hc] at h3 h4
  have h5 : parseContextDiffHeader win .Diff s = Res.ok ({ s with rest := (line ++ ['\n']) :: (ended more ++ (d.after.flatMap CFile.render ++ ended d.trailer)) }, false) := by
    unfold parseContextDiffHeader
    simp only
    rw [h1, hm]
    simp only [ended, List.map_append, List.map_cons, List.append_assoc, List.cons_append]
    rw [twoLineHeader_skip]
    · obtain ⟨c, hcx⟩ := Option.isSome_iff_exists.1 ((Re.full_isSome _ _).2 ((contextHeader_lang "*** " _).2 (range_opens hr htab)))
      have hx : (contextHeader2 .Diff).full (line ++ ['\n']) = none := (Re.full_none _ _).2 (fun x => section_not_header hl ((contextHeader_lang "--- " _).1 x))
      simp only [twoLineHeader, contextHeader1, hcx, hx]
    · intro l hl
      obtain ⟨t, ht, rfl⟩ := List.mem_map.1 hl
      exact contextHeader1_none _ (by simp) (not_prefix_newline (by decide) (hp t ht))
  obtain ⟨n, rfl⟩ : ∃ k, n = k + 1 := ⟨n - 1, by omega⟩
  refine ⟨finishParse cmp { s with rest := (line ++ ['\n']) :: (ended more ++ (d.after.flatMap CFile.render ++ ended d.trailer)) }, ?_, h2, ?_⟩
  · rw [h4]
    simp only [fileLoop, genOf, Bool.false_eq_true, if_false, h5, Res.bind_ok, if_true]
    rfl
  · exact cfinish_shown cmp _ _ ⟨h3.parsed, h3.views⟩

/-! ### Examples -/

/-- The two files of `exampleContext` with other lines between them. -/
def cutExample (mess : List Str) : CutDiff := { before := exampleContext.files.take 1, mess := mess, after := exampleContext.files.drop 1 }

theorem cutExample_ok (mess : List Str) (h1 : ∃ t ts, mess = t :: ts ∧ Stray t)
    (h2 : ∀ t ∈ mess, '\n' ∉ t ∧ ¬ str "==== " <+: t ∧ ¬ str "\\ No newline" <+: t) (h3 : (cutExample mess).cvs = false) : (cutExample mess).Ok := by
  have e : (cutExample mess).before ++ (cutExample mess).after = exampleContext.files := rfl
  have hc : exampleContext.cvs = false := by decide
  refine ⟨by rw [e]; exact exampleContext_ok.files, ?_, by simp [cutExample, exampleContext], ?_, ?_, h1, h2, ⟨(by intro t ht; cases ht), (by intro t ts e; cases e)⟩⟩
  · rw [e, h3, ← hc]; exact exampleContext_ok.headers
  · intro f fs hf
    have : exampleContext.files = f :: exampleContext.files.drop 1 := by
      simp only [cutExample, exampleContext, List.take_succ_cons, List.take_zero, List.cons.injEq] at hf ⊢
      simp [hf.1]
    exact exampleContext_ok.first f _ this
  · intro f fs hf g hg
    have : fs = [] := by
      rcases hf with hf | hf <;> (simp only [cutExample, exampleContext, List.take_succ_cons, List.take_zero, List.drop_succ_cons, List.drop_zero, List.cons.injEq] at hf; exact hf.2.symm)
    rw [this] at hg; cases hg

/-- A line in the wrong place: both files are shown. -/
example (win : Bool) (cmp : Str → Str → Int) (heap : Heap) :
    ∃ r, parse win cmp heap (split (cutExample [str "garbage"]).render.flatten) = Res.ok r ∧ r.malformed = true ∧
      r.shown.Perm (shownFiles (unescapePath win) false exampleContext.files) := by
  have hc : (cutExample [str "garbage"]).cvs = false := by decide +kernel
  have := C79_contained (cutExample [str "garbage"]) (cutExample_ok _ ⟨_, _, rfl, by unfold SeparatorLine; decide, by decide, by decide, by
    intro x u e; simp only [str] at e; cases e⟩ (by decide) hc)
    (by
      intro t ht
      rw [List.mem_singleton.1 ht]
      rintro ⟨name, tail, e, _⟩
      simp only [str] at e
      cases e) win cmp heap
  rw [hc] at this
  exact this

/-- The same line in the wrong place, and a second hunk after it: the second file is not shown. -/
def cutMess : List Str := [str "garbage", str "***************", str "*** 31,32 ****", str "  x", str "- y", str "--- 31 ----"]

example (win : Bool) (cmp : Str → Str → Int) (heap : Heap) :
    ∃ r, parse win cmp heap (split (cutExample cutMess).render.flatten) = Res.ok r ∧ r.malformed = true ∧
      r.shown.Perm (shownFiles (unescapePath win) false (exampleContext.files.take 1)) :=
  C79_lost_defect (cutExample cutMess) (cutExample_ok _ ⟨_, _, rfl, by unfold SeparatorLine; decide, by decide, by decide, by
    intro x u e; simp only [str] at e; cases e⟩ (by decide) (by decide +kernel)) (by decide +kernel) [str "garbage", str "***************"] [str "- y", str "--- 31 ----"]
    (str "*** 31,32 ****") (str "  x") rfl (by decide) ⟨str "31", str "32", [], by decide, ⟨by decide, by decide⟩, ⟨by decide, by decide⟩, by decide⟩ (by decide)
    ⟨' ', str "x", by decide, .inl rfl, by decide⟩ win cmp heap

/-- In both cases the first file is shown. -/
example (win : Bool) (cmp : Str → Str → Int) (heap : Heap) (r : ParseResult) (h : parse win cmp heap (split (cutExample cutMess).render.flatten) = Res.ok r) :
    r.malformed = true ∧ ∃ others, r.shown.Perm (shownFiles (unescapePath win) (cutExample cutMess).cvs (exampleContext.files.take 1) ++ others) :=
  C79_before (cutExample cutMess) (cutExample_ok _ ⟨_, _, rfl, by unfold SeparatorLine; decide, by decide, by decide, by
    intro x u e; simp only [str] at e; cases e⟩ (by decide) (by decide +kernel)) win cmp heap r h

end KompareDiff2
