import Verif.Spec.NormalFlag
import Verif.Proofs.ShownNormal
import Verif.Proofs.Reading
/-
The malformed flag of the normal parser.
-/
namespace KompareDiff2
open Spec

theorem normalOpening_first (unesc : Str → Str) (g : Generator) : (normalForm unesc g).first = (normalOpening g).first := by cases g <;> rfl

theorem normalHeader_lang (g : Generator) (l : Str) : (normalHeader g).Lang l ↔ (normalOpening g).first l := by
  cases g with
  | Diff => exact diffHeader_lang l
  | CVSDiff => exact indexHeader_lang l
  | Perforce => exact p4Header_lang l

theorem normalHunks_malformed (n : Nat) (st st' : PState) (h : hunkLoop parseNormalHunk n st = Res.ok st') : st'.malformed = st.malformed := by
  induction n generalizing st with
  | zero => simp [hunkLoop] at h
  | succ n ih =>
    simp only [hunkLoop] at h
    obtain ⟨r, hr, h⟩ := Res.bind_eq_ok.1 h
    cases r with
    | none => simp only [Res.ok.injEq] at h; rw [← h]
    | some s =>
      rw [ih s h]
      unfold parseNormalHunk at hr
      split at hr
      · simp at hr
      · split at hr
        · simp at hr
        · simp only [Res.ok.injEq, Option.some.injEq] at hr
          rw [← hr]
          rfl

theorem normalDiffHeader_malformed {win : Bool} {g : Generator} {st st' : PState} {b : Bool} (h : parseNormalDiffHeader win g st = (st', b)) :
    st'.malformed = st.malformed := by
  unfold parseNormalDiffHeader at h
  split at h
  · have key : ∀ ls, p4Header st ls = (st', b) → st'.malformed = st.malformed := by
      intro ls h
      induction ls with
      | nil => simp only [p4Header, Prod.mk.injEq] at h; rw [← h.1]
      | cons l ls ih =>
        simp only [p4Header] at h
        split at h
        · simp only [Prod.mk.injEq] at h; rw [← h.1]
        · exact ih h
    exact key _ h
  · simp only at h
    split at h <;> (simp only [Prod.mk.injEq] at h; rw [← h.1])

theorem normalLoop_flag {win : Bool} {g : Generator} {ls : List Str} {stops : List (List Str)} {out : Outcome}
    (hr : Reading (normalOpening g) AfterCommands ls stops out) (n : Nat) (h0 : Heap) (st st' : PState) (e : st.rest = ls)
    (hf : FoundAll HView.NormalOk h0 st)
    (h : fileLoop (fun st => Res.ok (parseNormalDiffHeader win g st)) normalHunks (normalHeader g) n st = Res.ok st') :
    st'.malformed = true ↔ st.malformed = true ∨ ∃ r ∈ stops, BadStop (normalOpening g) r := by
  have hsecond : (normalOpening g).second = none := by cases g <;> rfl
  induction hr generalizing n st with
  | truncated pre l S h1 => rw [hsecond] at h1; cases h1
  | abandoned pre l l2 ls S h1 => rw [hsecond] at h1; cases h1
  | two pre l l2 ls rest S stops out h1 => rw [hsecond] at h1; cases h1
  | badTwo pre l l2 ls S h1 => rw [hsecond] at h1; cases h1
  | badOne pre l ls _ _ _ h1 => obtain ⟨_, _, h1, _⟩ := h1; cases h1
  | finished ls h1 =>
    cases n with
    | zero => simp [fileLoop] at h
    | succ n =>
      simp only [fileLoop] at h
      obtain ⟨⟨s1, b⟩, hr, h⟩ := Res.bind_eq_ok.1 h
      simp only [Res.ok.injEq] at hr
      cases b with
      | false =>
        simp only [if_true, Res.ok.injEq] at h
        rw [← h, normalDiffHeader_malformed hr]; simp
      | true =>
        obtain ⟨pre, hdr, f, e1, e2, e3, _⟩ := (normal_header_shows hr).yes rfl
        obtain ⟨l, t, rfl, hl⟩ := (normalForm_proper _ g).opens _ _ e3
        rw [normalOpening_first] at hl
        exact absurd hl (h1 l (by rw [← e, e1]; simp))
  | one pre l ls rest stops out _ h1 h2 h3 _ ih =>
    cases n with
    | zero => simp [fileLoop] at h
    | succ n =>
      simp only [fileLoop] at h
      obtain ⟨⟨s1, b⟩, hr, h⟩ := Res.bind_eq_ok.1 h
      simp only [Res.ok.injEq] at hr
      cases b with
      | false =>
        have := (normal_header_hidden hr).1 l (by rw [e]; simp)
        rw [normalOpening_first] at this
        exact absurd h2 this
      | true =>
        simp only [Bool.true_eq_false, if_false] at h
        obtain ⟨s2, h4, h⟩ := Res.bind_eq_ok.1 h
        have k := normal_header_shows hr
        obtain ⟨pre', hdr, f, e1, e2, e3, _⟩ := k.yes rfl
        have hone : ∃ l', hdr = [l'] := by
          cases g with
          | Diff => obtain ⟨l', _, _, rfl, _⟩ := e3; exact ⟨_, rfl⟩
          | CVSDiff => obtain ⟨l', rfl, _⟩ := e3; exact ⟨_, rfl⟩
          | Perforce => obtain ⟨l', _, _, rfl, _⟩ := e3; exact ⟨_, rfl⟩
        obtain ⟨l', rfl⟩ := hone
        obtain ⟨l'', t, e4, hl⟩ := (normalForm_proper _ g).opens _ _ e3
        simp only [List.cons.injEq] at e4
        obtain ⟨rfl, rfl⟩ := e4
        rw [normalOpening_first] at hl e2
        rw [e] at e1
        obtain ⟨rfl, rfl, e5⟩ := first_unique h1 e2 h2 hl e1
        have hb := hf.start k.step.heap k.step.models (k.step.blank rfl)
        have w := normalHunks_shown _ s1 s2 h4
        obtain ⟨hs, g1, _⟩ := w.shown h0 hb
        obtain ⟨hs', rest', e6, g2⟩ := h3
        simp only [Option.some.injEq] at e6
        subst e6
        have e7 : s2.rest = rest := (normalShown_det (by rw [e5]; exact g1) g2).2
        have c := checkHeader_same (normalHeader g) s2.keepModel
        have := ih n (checkHeader (normalHeader g) s2.keepModel) (by rw [checkHeader_rest, keepModel_rest, e7]) ((w.building h0 hb).keep c.1 c.2.1) h
        refine this.trans ?_
        rw [checkHeader_malformed (normalHeader_lang g), keepModel_malformed, keepModel_rest, e7, normalHunks_malformed _ s1 s2 h4,
          normalDiffHeader_malformed hr]
        simp [or_assoc]

theorem normalLoop_ends_at {win : Bool} {g : Generator} {h0 : Heap} {st s1 : PState} {n : Nat} (hf : FoundAll HView.NormalOk h0 st)
    (h1 : fileLoop (fun st => Res.ok (parseNormalDiffHeader win g st)) normalHunks (normalHeader g) n st = Res.ok s1) :
    FoundAll HView.NormalOk h0 s1 ∧ (g = .Perforce → s1.single = st.single) ∧ (g ≠ .Perforce → s1.single = true ∧ s1.rest = st.lines ∧ s1.cur = {}) := by
  obtain ⟨i1, _, _, n1, _⟩ := fileLoop_shown (P := HView.NormalOk) (H := NormalShown) (o := normalForm (unescapePath win) g)
    (N := fun st _ st' => (g = .Perforce → st'.single = st.single) ∧ (g ≠ .Perforce → st'.single = true ∧ st'.rest = st.lines ∧ st'.cur = {}))
    (fun st st' e => by
      simp only [Res.ok.injEq] at e
      exact normal_header_shows e)
    (fun h0 st st' _ e => by
      simp only [Res.ok.injEq] at e
      have k := (normalHeader_step e).1
      obtain ⟨_, k2, k3⟩ := normal_header_hidden e
      exact ⟨k.heap, k.models, k2, k3⟩)
    (fun st st' e => normalHunks_shown _ st st' e)
    (fun st s ms st' pre hdr f hs n el es _ _ _ => ⟨fun hg => by rw [n.1 hg, es], fun hg => by rw [← el]; exact n.2 hg⟩) _ h0 st s1 hf h1
  exact ⟨i1, n1⟩

/-- Commands are no headers. -/
theorem commands_noHeader {g : Generator} (hg : g ≠ .Perforce) {x : Str} (h : ∃ c, x.head? = some c ∧ (Digit c ∨ c = '<' ∨ c = '>' ∨ c = '-')) :
    ¬ (normalOpening g).first x := by
  obtain ⟨c, e, hc⟩ := h
  cases g with
  | Perforce => exact absurd rfl hg
  | CVSDiff =>
    rintro ⟨name, rfl, _⟩
    have : c = 'I' := by simpa [str] using e.symm
    subst this
    revert hc; unfold Digit; decide
  | Diff =>
    rintro ⟨r, rfl, _⟩
    have : c = 'd' := by simpa [str] using e.symm
    subst this
    revert hc; unfold Digit; decide

theorem normalFiles_flag {win : Bool} {g : Generator} {h0 : Heap} {st st' : PState} (hf : FoundAll HView.NormalOk h0 st) (hs : st.single = false)
    (hl : st.lines = st.rest) (hm : st.malformed = false) (h : normalFiles win g st = Res.ok st') :
    (g = .Perforce → ∀ stops out, Reading (normalOpening g) AfterCommands st.rest stops out →
      (st'.malformed = true ↔ ∃ r ∈ stops, BadStop (normalOpening g) r)) ∧
    (g ≠ .Perforce → ∀ hs rest, NormalShown st.rest hs rest → (st'.malformed = true ↔ rest ≠ [])) := by
  unfold normalFiles at h
  obtain ⟨s1, h1, h⟩ := Res.bind_eq_ok.1 h
  obtain ⟨i1, n2, n3⟩ := normalLoop_ends_at hf h1
  constructor
  · intro hg stops out hr
    have : s1.single = false := by rw [n2 hg, hs]
    rw [this] at h
    simp only [Bool.false_eq_true, if_false, Res.ok.injEq] at h
    rw [← h]
    refine (normalLoop_flag hr _ h0 st s1 rfl hf h1).trans ?_
    simp [hm]
  · intro hg hs rest hn
    obtain ⟨m1, m2, m3⟩ := n3 hg
    rw [m1] at h
    simp only [if_true] at h
    obtain ⟨s2, h2, h⟩ := Res.bind_eq_ok.1 h
    simp only [Res.ok.injEq] at h
    have w := normalHunks_shown _ s1 s2 h2
    obtain ⟨hs', g1, _⟩ := w.shown h0 (i1.start (st' := s1) rfl rfl (by rw [m3]; exact empty_blank))
    rw [m2, hl] at g1
    have e := (normalShown_det g1 hn).2
    rw [← h, keepModel_rest, e]
    by_cases hrest : rest = []
    · simp only [hrest, ne_eq, not_true_eq_false, if_false, iff_false]
      rw [keepModel_malformed, normalHunks_malformed _ s1 s2 h2]
      subst hrest
      obtain ⟨top, e1, ht⟩ := normalShown_top hn
      have := normalLoop_flag (Reading.finished (o := normalOpening g) (Hunks := AfterCommands) st.rest (by
        intro l hl
        rw [e1, List.append_nil] at hl
        exact commands_noHeader hg (ht l hl))) _ h0 st s1 rfl hf h1
      rw [this]; simp [hm]
    · simp [hrest]

end KompareDiff2
