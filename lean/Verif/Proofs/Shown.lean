import Verif.Spec.Shown
import Verif.Proofs.Reading
import Verif.Proofs.Structure
/-
What the parser shows of arbitrary lines: the loop over the files.
-/
namespace KompareDiff2
open Spec

/-- The view of a model after adding hunks. -/
def Spec.MView.addHunks (v : MView) (hs : List HView) : MView :=
  { v with hunks := v.hunks ++ hs, differences := v.differences ++ changesOf hs }

theorem changesOf_append (a b : List HView) : changesOf (a ++ b) = changesOf a ++ changesOf b := by simp [changesOf]

theorem addHunks_nil (v : MView) : v.addHunks [] = v := by cases v; simp [MView.addHunks, changesOf]

theorem addHunks_append (v : MView) (a b : List HView) : (v.addHunks a).addHunks b = v.addHunks (a ++ b) := by
  simp [MView.addHunks, changesOf_append]

theorem names_addHunks (f : FileNames) (hs : List HView) : (f.view []).addHunks hs = f.view hs := by
  simp [MView.addHunks, FileNames.view, changesOf]

/-- The loop over hunks adds the hunks that stand in the lines. -/
structure HunksShow (P : HView → Prop) (H : List Str → List HView → List Str → Prop) (st st' : PState) : Prop where
  building : ∀ h0, Building P h0 st → Building P h0 st'
  ext : st.heap.Ext st'.heap
  models : st'.models = st.models
  single : st'.single = st.single
  lines : st'.lines = st.lines
  shown : ∀ h0, Building P h0 st → ∃ hs, H st.rest hs st'.rest ∧ st'.cur.view st'.heap = (st.cur.view st.heap).addHunks hs

/-- A header that is found is the next one in the lines. -/
structure HeaderShows (o : FileForm) (st st' : PState) (found : Bool) : Prop where
  step : HeaderStep st st' found
  yes : found = true → ∃ pre hdr f, st.rest = pre ++ (hdr ++ st'.rest) ∧ (∀ x ∈ pre, ¬ o.first x) ∧ o.header hdr f ∧
    ∀ h, st'.cur.view h = f.view []

theorem models_ext {P : HView → Prop} {h0 : Heap} {st : PState} {h : Heap} (f : FoundAll P h0 st) (e : st.heap.Ext h) :
    st.models.map (fun m => m.view h) = st.models.map (fun m => m.view st.heap) :=
  List.map_congr_left fun m hm => (f.models m hm).1.view_ext e

theorem view_differences_length (h : Heap) (m : DModel) : (m.view h).differences.length = m.differences.length := by simp [DModel.view]

theorem keepModel_shown (st : PState) (f : FileNames) (hs : List HView) (h : st.cur.view st.heap = f.view hs) :
    st.keepModel.heap = st.heap ∧ st.keepModel.rest = st.rest ∧
      st.keepModel.models.map (fun m => m.view st.heap) = st.models.map (fun m => m.view st.heap) ++ f.shown hs := by
  have hl : st.cur.differences.length = (changesOf hs).length := by
    rw [← view_differences_length st.heap, h]; rfl
  unfold PState.keepModel FileNames.shown
  by_cases hz : changesOf hs = []
  · rw [if_neg (by rw [hl, hz]; simp), if_pos hz]; simp
  · have : 0 < (changesOf hs).length := List.length_pos_iff.2 hz
    rw [if_pos (by omega), if_neg hz]; simp [h]

theorem checkHeader_kept (r : Re) (st : PState) : (checkHeader r st).rest = st.rest ∧ (checkHeader r st).lines = st.lines := by
  unfold checkHeader
  split
  · simp_all
  · split <;> simp_all

theorem keepModel_lines (st : PState) : st.keepModel.lines = st.lines := by unfold PState.keepModel; split <;> rfl

/-- The loop over the files. -/
theorem fileLoop_shown {P : HView → Prop} {H : List Str → List HView → List Str → Prop} {o : FileForm} {header : PState → Res (PState × Bool)}
    {hunks : PState → Res PState} {check : Re} {N : PState → List MView → PState → Prop}
    (hH : ∀ st st', header st = Res.ok (st', true) → HeaderShows o st st' true)
    (hN : ∀ h0 st st', FoundAll P h0 st → header st = Res.ok (st', false) → st'.heap = st.heap ∧ st'.models = st.models ∧ N st [] st')
    (hB : ∀ st st', hunks st = Res.ok st' → HunksShow P H st st')
    (hF : ∀ st s ms st' pre hdr f hs, N s ms st' → s.lines = st.lines → s.single = st.single →
      (∃ ls, st.rest = pre ++ (hdr ++ ls) ∧ H ls hs s.rest) → (∀ x ∈ pre, ¬ o.first x) → o.header hdr f → N st (f.shown hs ++ ms) st') :
    ∀ (n : Nat) (h0 : Heap) (st st' : PState), FoundAll P h0 st → fileLoop header hunks check n st = Res.ok st' →
      FoundAll P h0 st' ∧ st.heap.Ext st'.heap ∧
        ∃ ms, N st ms st' ∧ st'.models.map (fun m => m.view st'.heap) = st.models.map (fun m => m.view st.heap) ++ ms := by
  intro n
  induction n with
  | zero => intro h0 st st' _ h; simp [fileLoop] at h
  | succ n ih =>
    intro h0 st st' hf h
    simp only [fileLoop] at h
    obtain ⟨⟨s1, b⟩, hr, h⟩ := Res.bind_eq_ok.1 h
    cases b with
    | false =>
      simp only [if_true, Res.ok.injEq] at h
      obtain ⟨e1, e2, e3⟩ := hN h0 st s1 hf hr
      rw [← h]
      exact ⟨hf.congr e1 e2, e1 ▸ Heap.Ext.refl _, [], e3, by rw [e1, e2, List.append_nil]⟩
    | true =>
      simp only [Bool.true_eq_false, if_false] at h
      obtain ⟨s2, h2, h⟩ := Res.bind_eq_ok.1 h
      have k := hH _ _ hr
      have w := hB _ _ h2
      obtain ⟨pre, hdr, f, e1, e2, e3, e4⟩ := k.yes rfl
      have hb := hf.start k.step.heap k.step.models (k.step.blank rfl)
      have hb2 := w.building h0 hb
      obtain ⟨hs, g1, g2⟩ := w.shown h0 hb
      rw [e4, names_addHunks] at g2
      have c := checkHeader_same check s2.keepModel
      have cr := checkHeader_kept check s2.keepModel
      have kp := keepModel_shown s2 f hs g2
      have f2 := hb2.keep c.1 c.2.1
      obtain ⟨i1, i2, ms, i3, i4⟩ := ih h0 _ _ f2 h
      have hx : st.heap.Ext s2.heap := k.step.heap ▸ w.ext
      refine ⟨i1, hx.trans (by rw [c.1, kp.1] at i2; exact i2), f.shown hs ++ ms, ?_, ?_⟩
      · refine hF st _ ms st' pre hdr f hs i3 ?_ ?_ ⟨s1.rest, e1, ?_⟩ e2 e3
        · rw [cr.2, keepModel_lines, w.lines, k.step.lines]
        · rw [c.2.2.2, keepModel_single, w.single, k.step.single rfl]
        · rw [cr.1, kp.2.1]; exact g1
      · rw [i4, c.1, c.2.1, kp.1, kp.2.2, w.models, k.step.models, models_ext hf hx, List.append_assoc]

/-! ### Headers -/

theorem twoLine_shown {h1 h2 : Re} {mk : Caps → Caps → DModel} {o : FileForm} (hmk : ∀ c c', (mk c c').Blank)
    (hF : ∀ l, h1.Lang l ↔ o.first l)
    (hY : ∀ l1 l2 c1 c2, h1.full l1 = some c1 → h2.full l2 = some c2 → ∃ f, o.header [l1, l2] f ∧ ∀ h, (mk c1 c2).view h = f.view [])
    {st st' : PState} (ls : List Str)
    (h : twoLineHeader h1 h2 mk st ls = Res.ok (st', true)) : HeaderStep st st' true ∧
    ∃ pre hdr f, ls = pre ++ (hdr ++ st'.rest) ∧ (∀ x ∈ pre, ¬ o.first x) ∧ o.header hdr f ∧ ∀ h, st'.cur.view h = f.view [] := by
  refine ⟨twoLineHeader_step hmk h, ?_⟩
  induction ls with
  | nil => simp [twoLineHeader] at h
  | cons l ls ih =>
    simp only [twoLineHeader] at h
    split at h
    · rename_i hn
      obtain ⟨pre, hdr, f, e1, e2, e3, e4⟩ := ih h
      refine ⟨l :: pre, hdr, f, by rw [e1]; rfl, ?_, e3, e4⟩
      intro x hx
      rcases List.mem_cons.1 hx with rfl | hx
      · rw [← hF]; exact (Re.full_none _ _).1 hn
      · exact e2 x hx
    · rename_i c1 hc1
      split at h
      · simp at h
      · rename_i l2 ls2
        split at h
        · rename_i c2 hc2
          simp only [Res.ok.injEq, Prod.mk.injEq, and_true] at h
          subst h
          obtain ⟨f, g1, g2⟩ := hY l l2 c1 c2 hc1 hc2
          exact ⟨[], [l, l2], f, rfl, by simp, g1, g2⟩
        · simp at h

theorem twoLine_hidden {h1 h2 : Re} {mk : Caps → Caps → DModel} {o : FileForm} {H : List Str → List HView → List Str → Prop}
    (hF : ∀ l, h1.Lang l ↔ o.first l) (hone : ∀ l f, ¬ o.header [l] f)
    (hN : ∀ l1 l2 f, o.header [l1, l2] f → h2.Lang l2)
    {st st' : PState} (ls : List Str)
    (h : twoLineHeader h1 h2 mk st ls = Res.ok (st', false)) : ShowsFiles o H ls [] := by
  have key : (∀ l ∈ ls, ¬ o.first l) ∨ ∃ pre l l2 more, ls = pre ++ l :: l2 :: more ∧ (∀ x ∈ pre, ¬ o.first x) ∧ o.first l ∧ ¬ h2.Lang l2 := by
    induction ls with
    | nil => exact .inl (by simp)
    | cons l ls ih =>
      simp only [twoLineHeader] at h
      split at h
      · rename_i hn
        have hl : ¬ o.first l := by rw [← hF]; exact (Re.full_none _ _).1 hn
        rcases ih h with i | ⟨pre, l', l2, more, e, i1, i2⟩
        · exact .inl (by simpa [hl] using i)
        · exact .inr ⟨l :: pre, l', l2, more, by rw [e]; rfl, by simpa [hl] using i1, i2⟩
      · rename_i c1 hc1
        split at h
        · simp at h
        · rename_i l2 ls2
          split at h
          · simp at h
          · rename_i hn
            refine .inr ⟨[], l, l2, ls2, rfl, by simp, ?_, (Re.full_none _ _).1 hn⟩
            rw [← hF, ← Re.full_isSome, hc1]; rfl
  rcases key with i | ⟨pre, l, l2, more, rfl, i1, i2, i3⟩
  · exact .finished _ i
  · exact .abandoned pre l l2 more i1 i2 (hone l) (fun f hf => i3 (hN _ _ f hf))

theorem p4_shown {st : PState} (ls : List Str) (h : (p4Header st ls).2 = true) :
    ∃ pre l c, ls = pre ++ ([l] ++ (p4Header st ls).1.rest) ∧ (∀ x ∈ pre, ¬ PerforceHeaderLine x) ∧ reP4Header.full l = some c ∧
      (p4Header st ls).1.cur = p4Model c := by
  induction ls with
  | nil => simp [p4Header] at h
  | cons l ls ih =>
    unfold p4Header at h ⊢
    split at h
    · rename_i c hc
      simp only [hc]
      exact ⟨[], l, c, rfl, by simp, hc, rfl⟩
    · rename_i hn
      obtain ⟨pre, l', c, e1, e2, e3⟩ := ih h
      refine ⟨l :: pre, l', c, by rw [List.cons_append]; exact congrArg _ e1, ?_, e3⟩
      intro x hx
      rcases List.mem_cons.1 hx with rfl | hx
      · rw [← p4Header_lang]; exact (Re.full_none _ _).1 hn
      · exact e2 x hx

theorem p4_hidden {st : PState} (ls : List Str) (h : (p4Header st ls).2 = false) : ∀ l ∈ ls, ¬ PerforceHeaderLine l := by
  induction ls with
  | nil => simp
  | cons l ls ih =>
    unfold p4Header at h
    split at h
    · simp at h
    · rename_i hn
      intro x hx
      rcases List.mem_cons.1 hx with rfl | hx
      · rw [← p4Header_lang]; exact (Re.full_none _ _).1 hn
      · exact ih h x hx

theorem header_line {s t : Str} {s1 s2 : Str} (h : '\t' ∉ s) (h' : '\t' ∉ t) (e : s ++ '\t' :: s1 = t ++ '\t' :: s2) : s = t ∧ s1 = s2 := by
  induction s generalizing t with
  | nil =>
    cases t with
    | nil => simpa using e
    | cons x t => simp only [List.nil_append, List.cons_append, List.cons.injEq] at e; exact absurd (by rw [← e.1]; simp) h'
  | cons x s ih =>
    cases t with
    | nil => simp only [List.nil_append, List.cons_append, List.cons.injEq] at e; exact absurd (by rw [e.1]; simp) h
    | cons y t =>
      simp only [List.cons_append, List.cons.injEq] at e
      simp only [List.mem_cons, not_or] at h h'
      obtain ⟨e1, e2⟩ := ih h.2 h'.2 e.2
      exact ⟨by rw [e.1, e1], e2⟩

end KompareDiff2
