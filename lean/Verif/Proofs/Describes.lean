import Verif.Spec.Describes
/-
Structural lemmas about `Describes`: splitting, joining, shifting, dissolving unapplied differences.
-/
namespace KompareDiff2
open Spec

theorem Spec.Describes.cast {s t s' t' S T S' T' ds} (h : Describes s t S T ds) (hs : s = s') (ht : t = t')
    (hS : S = S') (hT : T = T') : Describes s' t' S' T' ds := by subst hs ht hS hT; exact h

/-- Common lines may be put in front. -/
theorem Spec.Describes.common {s t S T ds} (g : List Str) (h : Describes (s + g.length) (t + g.length) S T ds) :
    Describes s t (g ++ S) (g ++ T) ds := by
  cases h with
  | done _ _ c => exact .done s t (g ++ S)
  | diff _ _ c d S T ds h1 h2 h3 =>
    have := Describes.diff s t (g ++ c) d S T ds (by rw [h1]; simp; omega) (by rw [h2]; simp; omega)
      (h3.cast (by simp; omega) (by simp; omega) rfl rfl)
    simpa using this

theorem Spec.Describes.append {s t S1 T1 ds1 S2 T2 ds2} (h1 : Describes s t S1 T1 ds1)
    (h2 : Describes (s + S1.length) (t + T1.length) S2 T2 ds2) :
    Describes s t (S1 ++ S2) (T1 ++ T2) (ds1 ++ ds2) := by
  induction h1 with
  | done s t c => exact h2.common c
  | diff s t c d S T ds e1 e2 e3 ih =>
    have := ih (h2.cast (by simp; omega) (by simp; omega) rfl rfl)
    simpa using Describes.diff s t c d _ _ _ e1 e2 this

/-- Renumbering of the current text. -/
def shiftBy (k : Int) (d : Diff) : Diff := { d with tracking := d.tracking + k }

@[simp] theorem current_shift (k : Int) (d : Diff) : current (shiftBy k d) = current d := rfl
@[simp] theorem srcText_shift (k : Int) (d : Diff) : (shiftBy k d).srcText = d.srcText := rfl

theorem Spec.Describes.shift {s t S T ds} (k : Int) (h : Describes s t S T ds) :
    Describes s (t + k) S T (ds.map (shiftBy k)) := by
  induction h with
  | done s t c => exact .done s _ c
  | diff s t c d S T ds e1 e2 e3 ih =>
    refine Describes.diff s (t + k) c (shiftBy k d) S T _ e1 ?_ (ih.cast rfl ?_ rfl rfl)
    · simp only [shiftBy, e2]; omega
    · simp; omega

/-- Unapplied differences are no differences between source and current text. -/
theorem Spec.Describes.dissolve {s t S T ds} (h : Describes s t S T ds) : Describes s t S T (ds.filter Diff.applied) := by
  induction h with
  | done s t c => exact .done s t c
  | diff s t c d S T ds e1 e2 e3 ih =>
    by_cases ha : d.applied = true
    · rw [List.filter_cons_of_pos ha]
      exact .diff s t c d S T _ e1 e2 ih
    · rw [List.filter_cons_of_neg ha]
      have hc : current d = d.srcText := by simp [current, ha]
      rw [hc] at ih ⊢
      have := Describes.common (s := s) (t := t) (c ++ d.srcText) (ih.cast (by simp; omega) (by simp; omega) rfl rfl)
      simpa using this

/-- End of the lines a difference occupies in the current text. -/
def curEnd (d : Diff) : Int := d.tracking + (current d).length

/-- Net number of source lines minus current lines. -/
def netDelta : List Diff → Int
  | [] => 0
  | d :: ds => d.srcText.length - (current d).length + netDelta ds

theorem netDelta_append (a b : List Diff) : netDelta (a ++ b) = netDelta a + netDelta b := by
  induction a with
  | nil => simp [netDelta]
  | cons d a ih => simp [netDelta, ih]; omega

theorem Spec.Describes.length {s t S T ds} (h : Describes s t S T ds) :
    (S.length : Int) - T.length = netDelta ds := by
  induction h with
  | done => simp [netDelta]
  | diff s t c d S T ds e1 e2 e3 ih => simp only [netDelta, List.length_append, Int.natCast_add]; omega

/-- Relation of source and tracking line numbers. -/
theorem Spec.Describes.offset {s t S T pre d r} (h : Describes s t S T (pre ++ d :: r)) :
    d.sourceLineNo - d.tracking = s - t + netDelta pre := by
  induction pre generalizing s t S T with
  | nil =>
    cases h with
    | diff _ _ c _ S T ds e1 e2 e3 => simp [netDelta]; omega
  | cons p pre ih =>
    rw [List.cons_append] at h
    cases h with
    | diff _ _ c _ S T ds e1 e2 e3 => have := ih e3; simp [netDelta]; omega

/-- A description can be cut at any line `p` of the current text that is not before the end of `ds1`
and not after the start of `ds2`. -/
theorem Spec.Describes.split {s t S T} (ds1 ds2 : List Diff) (p : Int) (h : Describes s t S T (ds1 ++ ds2))
    (hlo : t ≤ p) (hhi : p ≤ t + T.length)
    (h1 : ∀ d ∈ ds1, curEnd d ≤ p) (h2 : ∀ d, ds2.head? = some d → p ≤ d.tracking) :
    ∃ S1 S2 T1 T2, S = S1 ++ S2 ∧ T = T1 ++ T2 ∧ (T1.length : Int) = p - t ∧
      Describes s t S1 T1 ds1 ∧ Describes (s + S1.length) (t + T1.length) S2 T2 ds2 := by
  induction ds1 generalizing s t S T with
  | nil =>
    rw [List.nil_append] at h
    cases h with
    | done _ _ c =>
      refine ⟨S.take (p - t).toNat, S.drop (p - t).toNat, S.take (p - t).toNat, S.drop (p - t).toNat,
        by simp, by simp, by simp; omega, .done _ _ _, ?_⟩
      exact .done _ _ _
    | diff _ _ c d S' T' ds e1 e2 e3 =>
      have hp := h2 d rfl
      have hl : (p - t).toNat ≤ c.length := by omega
      refine ⟨c.take (p - t).toNat, c.drop (p - t).toNat ++ (d.srcText ++ S'), c.take (p - t).toNat,
        c.drop (p - t).toNat ++ (current d ++ T'), by simp only [← List.append_assoc, List.take_append_drop],
        by simp only [← List.append_assoc, List.take_append_drop], by simp; omega, .done _ _ _, ?_⟩
      refine .diff _ _ _ _ _ _ _ ?_ ?_ (e3.cast ?_ ?_ rfl rfl) <;> simp <;> omega
  | cons d ds1 ih =>
    rw [List.cons_append] at h
    cases h with
    | diff _ _ c _ S' T' ds e1 e2 e3 =>
      have hd := h1 d (by simp)
      unfold curEnd at hd
      obtain ⟨S1, S2, T1, T2, k1, k2, k3, k4, k5⟩ := ih e3 (by omega)
        (by simp at hhi; omega) (fun d' hd' => h1 d' (by simp [hd']))
      refine ⟨c ++ (d.srcText ++ S1), S2, c ++ (current d ++ T1), T2, by rw [k1]; simp, by rw [k2]; simp,
        by simp; omega, .diff _ _ _ _ _ _ _ e1 e2 k4, k5.cast ?_ ?_ rfl rfl⟩ <;> simp <;> omega

/-- Every difference lies within the current text, in order. -/
theorem Spec.Describes.bounds {s t S T ds} (h : Describes s t S T ds) :
    ∀ d ∈ ds, t ≤ d.tracking ∧ curEnd d ≤ t + T.length := by
  induction h with
  | done => simp
  | diff s t c d S T ds e1 e2 e3 ih =>
    intro d' hd'
    rcases List.mem_cons.1 hd' with rfl | hd'
    · simp [curEnd]; omega
    · have := ih d' hd'
      simp; omega

theorem Spec.Describes.sorted {s t S T ds} (h : Describes s t S T ds) :
    ds.Pairwise (fun d d' => curEnd d ≤ d'.tracking) := by
  induction h with
  | done => exact List.Pairwise.nil
  | diff s t c d S T ds e1 e2 e3 ih =>
    refine List.Pairwise.cons ?_ ih
    intro d' hd'
    have := (e3.bounds d' hd').1
    unfold curEnd; omega

end KompareDiff2
