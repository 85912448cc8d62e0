import Verif.Proofs.Inline
import Verif.Proofs.Describes
/-
The loop of `linesChanged` that turns marker lists into differences.
-/
namespace KompareDiff2
open Spec

theorem atR_ok {α} {l : List α} {i : Nat} (h : i < l.length) : atR l (i : Int) = Res.ok l[i] := by
  unfold atR
  rw [if_neg (by omega)]
  simp [h]

theorem sliceN_ok {α} (l : List α) (n lo : Nat) (h : lo + n ≤ l.length) :
    sliceN l n (lo : Int) = Res.ok ((l.drop lo).take n) := by
  induction n generalizing lo with
  | zero => simp [sliceN]
  | succ n ih =>
    unfold sliceN
    rw [atR_ok (by omega : lo < l.length)]
    have := ih (lo + 1) (by omega)
    rw [show ((lo : Int) + 1) = ((lo + 1 : Nat) : Int) by omega, this]
    simp only [Res.bind_ok]
    rw [List.drop_eq_getElem_cons (by omega : lo < l.length), List.take_succ_cons]

theorem sliceR_ok {α} (l : List α) (lo hi : Nat) (h1 : lo ≤ hi) (h : hi ≤ l.length) :
    sliceR l (lo : Int) (hi : Int) = Res.ok ((l.drop lo).take (hi - lo)) := by
  unfold sliceR
  rw [show ((hi : Int) - lo).toNat = hi - lo by omega]
  exact sliceN_ok l _ _ (by omega)

theorem sliceR_empty {α} (l : List α) (lo hi : Int) (h : hi ≤ lo) : sliceR l lo hi = Res.ok [] := by
  unfold sliceR
  rw [show (hi - lo).toNat = 0 by omega]
  rfl

theorem markersOf_cons (s e : Nat) (R) : markersOf ((s, e) :: R) = ⟨.Start, s⟩ :: ⟨.End, e⟩ :: markersOf R := by
  simp [markersOf]

theorem markersOf_nil_iff (R : List (Nat × Nat)) : markersOf R = [] ↔ R = [] := by
  cases R with
  | nil => simp [markersOf]
  | cons p R => obtain ⟨s, e⟩ := p; simp [markersOf_cons]

theorem unmarkedFrom_none {α} (m : Nat → Bool) (k : Nat) (l l' : List α)
    (h : ∀ i, k ≤ i → i < k + l.length → m i = false) :
    unmarkedFrom m k (l ++ l') = l ++ unmarkedFrom m (k + l.length) l' := by
  induction l generalizing k with
  | nil => simp
  | cons x l ih =>
    simp only [List.cons_append, unmarkedFrom]
    rw [h k (Nat.le_refl _) (by simp)]
    simp only [Bool.false_eq_true, if_false]
    rw [ih (k + 1) (fun i h1 h2 => h i (by omega) (by simp; omega))]
    rw [show k + 1 + l.length = k + (x :: l).length by simp; omega]

/-- Start of the next range, or the given bound if there is none. -/
def nextStart (R : List (Nat × Nat)) (bound : Nat) : Nat :=
  match R with
  | [] => bound
  | (s, _) :: _ => s

/-- The part of an iteration that deals with one side. -/
theorem sidePart (lines : List Str) (R : List (Nat × Nat)) (pos bound : Nat)
    (hR : RangesFrom lines.length pos R) (hpos : pos ≤ lines.length) (hb : lines.length < bound) :
    ∃ sl R' pos',
      lcSide lines (markersOf R) (nextStart R bound : Int) (pos : Int) = Res.ok (sl, markersOf R', ((pos' : Nat) : Int)) ∧
      lines.drop pos = sl ++ lines.drop pos' ∧ pos' = pos + sl.length ∧ pos' ≤ lines.length ∧
      RangesFrom lines.length (pos' + 1) R' ∧
      unmarkedFrom (covered R) pos (lines.drop pos) = unmarkedFrom (covered R') pos' (lines.drop pos') ∧
      rangesSize R = sl.length + rangesSize R' ∧ R'.length ≤ R.length ∧
      (nextStart R bound = pos → sl ≠ [] ∧ R'.length < R.length) := by
  unfold lcSide
  cases R with
  | nil =>
    refine ⟨[], [], pos, ?_, by simp, by simp, hpos, trivial, rfl, by simp [rangesSize], by simp, ?_⟩
    · have hN : nextStart [] bound = bound := rfl
      rw [if_neg (by rw [hN]; omega)]
    · intro h
      have hN : nextStart [] bound = bound := rfl
      omega
  | cons p R =>
    obtain ⟨s, e⟩ := p
    simp only [RangesFrom] at hR
    obtain ⟨h1, h2, h3, h4⟩ := hR
    have hN : nextStart ((s, e) :: R) bound = s := rfl
    by_cases hs : s = pos
    · subst hs
      have hslice : lines.drop s = (lines.drop s).take (e - s) ++ lines.drop e := by
        conv => lhs; rw [← List.take_append_drop (e - s) (lines.drop s)]
        rw [List.drop_drop, show s + (e - s) = e by omega]
      have hlen : ((lines.drop s).take (e - s)).length = e - s := by simp; omega
      refine ⟨(lines.drop s).take (e - s), R, e, ?_, hslice, by omega, h3, h4, ?_, ?_, by simp, ?_⟩
      · rw [if_pos (by rw [hN]), markersOf_cons]
        simp only [processStartMarker]
        rw [sliceR_ok lines s e (by omega) h3]
        rfl
      · conv => lhs; rw [hslice]
        rw [unmarkedFrom_all]
        · rw [hlen, show s + (e - s) = e by omega]
          apply unmarkedFrom_congr
          intro i hi
          simp [covered]; omega
        · intro i hi1 hi2
          simp [covered]; left; omega
      · simp [rangesSize]; omega
      · intro _
        refine ⟨?_, by simp⟩
        intro hnil
        rw [hnil] at hlen; simp at hlen; omega
    · rw [if_neg (by rw [hN]; omega)]
      refine ⟨[], (s, e) :: R, pos, rfl, by simp, by simp, hpos, ⟨by omega, h2, h3, h4⟩, rfl, by simp, by simp, ?_⟩
      intro h; rw [hN] at h; exact absurd h hs

theorem unmarkedFrom_length_le {α} (m : Nat → Bool) (k : Nat) (l : List α) : (unmarkedFrom m k l).length ≤ l.length := by
  induction l generalizing k with
  | nil => simp [unmarkedFrom]
  | cons x l ih =>
    simp only [unmarkedFrom]
    have := ih (k + 1)
    split <;> simp <;> omega

/-- Skipping the common lines before the next range on either side. -/
theorem skipPart (src dst : List Str) (R1 R2 : List (Nat × Nat)) (cs cd k bound : Nat)
    (h1 : RangesFrom src.length (cs + k) R1) (h2 : RangesFrom dst.length (cd + k) R2)
    (hcs : cs ≤ src.length) (hcd : cd ≤ dst.length) (hbound : bound = src.length + dst.length + 1)
    (hne : R1 ≠ [] ∨ R2 ≠ [])
    (hkept : unmarkedFrom (covered R1) cs (src.drop cs) = unmarkedFrom (covered R2) cd (dst.drop cd)) :
    ∃ g, k ≤ g ∧ min ((nextStart R2 bound : Int) - cd) ((nextStart R1 bound : Int) - cs) = (g : Int) ∧
      cs + g ≤ src.length ∧ cd + g ≤ dst.length ∧
      (nextStart R1 bound = cs + g ∨ nextStart R2 bound = cd + g) ∧
      RangesFrom src.length (cs + g) R1 ∧ RangesFrom dst.length (cd + g) R2 ∧
      (src.drop cs).take g = (dst.drop cd).take g ∧
      unmarkedFrom (covered R1) (cs + g) (src.drop (cs + g)) = unmarkedFrom (covered R2) (cd + g) (dst.drop (cd + g)) := by
  -- facts about one side
  have side : ∀ (l : List Str) (R : List (Nat × Nat)) (c g : Nat), RangesFrom l.length (c + k) R → c ≤ l.length →
      c + g ≤ nextStart R bound → c + g ≤ l.length →
      RangesFrom l.length (c + g) R ∧
      unmarkedFrom (covered R) c (l.drop c) = (l.drop c).take g ++ unmarkedFrom (covered R) (c + g) (l.drop (c + g)) := by
    intro l R c g hR hc hg hgl
    have hR' : RangesFrom l.length (c + g) R := by
      cases R with
      | nil => trivial
      | cons p R =>
        obtain ⟨s, e⟩ := p
        simp only [RangesFrom, nextStart] at *
        exact ⟨hg, hR.2⟩
    refine ⟨hR', ?_⟩
    have hsp : l.drop c = (l.drop c).take g ++ l.drop (c + g) := by
      conv => lhs; rw [← List.take_append_drop g (l.drop c)]
      rw [List.drop_drop]
    have hlen : ((l.drop c).take g).length = g := by simp; omega
    conv => lhs; rw [hsp]
    rw [unmarkedFrom_none]
    · rw [hlen]
    · intro i hi1 hi2
      exact covered_below R hR' (by omega)
  -- the two gaps
  have nb1 : R1 ≠ [] → nextStart R1 bound < src.length ∧ cs + k ≤ nextStart R1 bound := by
    intro h
    cases R1 with
    | nil => exact absurd rfl h
    | cons p R => obtain ⟨s, e⟩ := p; simp only [RangesFrom, nextStart] at *; omega
  have nb2 : R2 ≠ [] → nextStart R2 bound < dst.length ∧ cd + k ≤ nextStart R2 bound := by
    intro h
    cases R2 with
    | nil => exact absurd rfl h
    | cons p R => obtain ⟨s, e⟩ := p; simp only [RangesFrom, nextStart] at *; omega
  -- an exhausted side has enough lines left
  have ex1 : R2 ≠ [] → R1 = [] → cs + (nextStart R2 bound - cd) ≤ src.length := by
    intro hn hnil
    obtain ⟨a, b⟩ := nb2 hn
    have := (side dst R2 cd (nextStart R2 bound - cd) h2 hcd (by omega) (by omega)).2
    rw [this] at hkept
    have hl := congrArg List.length hkept
    have hle := unmarkedFrom_length_le (covered R1) cs (src.drop cs)
    simp only [List.length_append, List.length_take, List.length_drop] at hl hle
    omega
  have ex2 : R1 ≠ [] → R2 = [] → cd + (nextStart R1 bound - cs) ≤ dst.length := by
    intro hn hnil
    obtain ⟨a, b⟩ := nb1 hn
    have := (side src R1 cs (nextStart R1 bound - cs) h1 hcs (by omega) (by omega)).2
    rw [this] at hkept
    have hl := congrArg List.length hkept
    have hle := unmarkedFrom_length_le (covered R2) cd (dst.drop cd)
    simp only [List.length_append, List.length_take, List.length_drop] at hl hle
    omega
  have e1 : R1 = [] → nextStart R1 bound = bound := by intro h; rw [h]; rfl
  have e2 : R2 = [] → nextStart R2 bound = bound := by intro h; rw [h]; rfl
  have main : ∃ g, k ≤ g ∧ min ((nextStart R2 bound : Int) - cd) ((nextStart R1 bound : Int) - cs) = (g : Int) ∧
      cs + g ≤ src.length ∧ cd + g ≤ dst.length ∧ cs + g ≤ nextStart R1 bound ∧ cd + g ≤ nextStart R2 bound ∧
      (nextStart R1 bound = cs + g ∨ nextStart R2 bound = cd + g) := by
    by_cases n1 : R1 = [] <;> by_cases n2 : R2 = []
    · rcases hne with h | h
      · exact absurd n1 h
      · exact absurd n2 h
    · obtain ⟨a, b⟩ := nb2 n2
      have := ex1 n2 n1
      have := e1 n1
      exact ⟨nextStart R2 bound - cd, by omega, by omega, by omega, by omega, by omega, by omega, by omega⟩
    · obtain ⟨a, b⟩ := nb1 n1
      have := ex2 n1 n2
      have := e2 n2
      exact ⟨nextStart R1 bound - cs, by omega, by omega, by omega, by omega, by omega, by omega, by omega⟩
    · obtain ⟨a, b⟩ := nb1 n1
      obtain ⟨c, d⟩ := nb2 n2
      by_cases hle : nextStart R1 bound - cs ≤ nextStart R2 bound - cd
      · exact ⟨nextStart R1 bound - cs, by omega, by omega, by omega, by omega, by omega, by omega, by omega⟩
      · exact ⟨nextStart R2 bound - cd, by omega, by omega, by omega, by omega, by omega, by omega, by omega⟩
  obtain ⟨g, m1, m2, m3, m4, m5, m6, m7⟩ := main
  obtain ⟨s1, s2⟩ := side src R1 cs g h1 hcs m5 m3
  obtain ⟨d1, d2⟩ := side dst R2 cd g h2 hcd m6 m4
  rw [s2, d2] at hkept
  have hl : ((src.drop cs).take g).length = ((dst.drop cd).take g).length := by simp; omega
  obtain ⟨q1, q2⟩ := List.append_inj hkept hl
  exact ⟨g, m1, m2, m3, m4, m7, s1, d1, q1, q2⟩

/-- What `linesChanged` guarantees for each difference it creates. -/
structure Created (d : Diff) : Prop where
  applied : d.applied = true
  unsaved : d.unsaved = true
  tracking : d.destLineNo = d.tracking
  type : d.type = if d.slc > 0 ∧ d.dlc > 0 then .Change else if d.slc > 0 then .Delete else .Insert
  nonempty : 0 < d.slc + d.dlc
  noConflict : d.conflicts = false

theorem markerLoop_ok (src dst : List Str) (sNo dNo : Int) (hS : ∀ l ∈ src, ShortLine l) (hD : ∀ l ∈ dst, ShortLine l)
    (fuel : Nat) (R1 R2 : List (Nat × Nat)) (cs cd k : Nat) (hfuel : R1.length + R2.length < fuel)
    (h1 : RangesFrom src.length (cs + k) R1) (h2 : RangesFrom dst.length (cd + k) R2)
    (hcs : cs ≤ src.length) (hcd : cd ≤ dst.length)
    (hkept : unmarkedFrom (covered R1) cs (src.drop cs) = unmarkedFrom (covered R2) cd (dst.drop cd)) :
    ∃ ds, lcMarkerLoop src dst sNo dNo fuel (markersOf R1) (markersOf R2) (cs : Int) (cd : Int) = Res.ok ds ∧
      Describes (sNo + cs) (dNo + cd) (src.drop cs) (dst.drop cd) ds ∧ (∀ d ∈ ds, Created d) ∧ Apart ds ∧
      (∀ d, ds.head? = some d → sNo + cs + k ≤ d.sourceLineNo) ∧
      (ds.map Diff.slc).sum = rangesSize R1 ∧ (ds.map Diff.dlc).sum = rangesSize R2 := by
  induction fuel generalizing R1 R2 cs cd k with
  | zero => omega
  | succ fuel ih =>
    unfold lcMarkerLoop
    by_cases hnil : R1 = [] ∧ R2 = []
    · obtain ⟨rfl, rfl⟩ := hnil
      refine ⟨[], by simp [markersOf], ?_, by simp, trivial, by simp, by simp [rangesSize], by simp [rangesSize]⟩
      have hid : ∀ (c : Nat) (l : List Str), unmarkedFrom (covered []) c l = l := by
        intro c l
        induction l generalizing c with
        | nil => rfl
        | cons x l ih => simp [unmarkedFrom, covered] at *; exact ih _
      rw [hid, hid] at hkept
      rw [hkept]
      exact .done _ _ _
    · rw [if_neg (by rw [markersOf_nil_iff, markersOf_nil_iff]; exact hnil)]
      generalize hbd : src.length + dst.length + 1 = bound
      obtain ⟨g, g1, g2, g3, g4, g5, g6, g7, g8, g9⟩ := skipPart src dst R1 R2 cs cd k bound h1 h2 hcs hcd hbd.symm
        (by
          by_cases h : R1 = []
          · right; intro h'; exact hnil ⟨h, h'⟩
          · left; exact h) hkept
      have hnS : nextOffset (markersOf R1) ((src.length : Int) + dst.length + 1) = (nextStart R1 bound : Int) := by
        cases R1 with
        | nil => show (src.length : Int) + dst.length + 1 = (bound : Int); omega
        | cons p R => obtain ⟨s, e⟩ := p; rw [markersOf_cons]; rfl
      have hnD : nextOffset (markersOf R2) ((src.length : Int) + dst.length + 1) = (nextStart R2 bound : Int) := by
        cases R2 with
        | nil => show (src.length : Int) + dst.length + 1 = (bound : Int); omega
        | cons p R => obtain ⟨s, e⟩ := p; rw [markersOf_cons]; rfl
      simp only [hnS, hnD, g2]
      obtain ⟨sl, R1', cs', a1, a2, a3, a4, a5, a6, a7, a8, a9⟩ := sidePart src R1 (cs + g) bound g6 g3 (by omega)
      obtain ⟨dl, R2', cd', b1, b2, b3, b4, b5, b6, b7, b8, b9⟩ := sidePart dst R2 (cd + g) bound g7 g4 (by omega)
      rw [show ((cs : Int) + g) = ((cs + g : Nat) : Int) by omega, show ((cd : Int) + g) = ((cd + g : Nat) : Int) by omega]
      rw [a1, b1]
      simp only [Res.bind_ok]
      rw [foldl_addSource, foldl_addDest]
      have hsl : ∀ l ∈ sl, ShortLine l := fun l hl => hS l (by
        apply List.mem_of_mem_drop (i := cs + g); rw [a2]; simp [hl])
      have hdl : ∀ l ∈ dl, ShortLine l := fun l hl => hD l (by
        apply List.mem_of_mem_drop (i := cd + g); rw [b2]; simp [hl])
      generalize hd0 : ({ ({ Diff.new (sNo + ((cs + g : Nat) : Int)) (dNo + ((cd + g : Nat) : Int)) with
        source := (Diff.new (sNo + ((cs + g : Nat) : Int)) (dNo + ((cd + g : Nat) : Int))).source ++ sl.map (fun l => DStr.ofStr l) } : Diff) with
        dest := ({ Diff.new (sNo + ((cs + g : Nat) : Int)) (dNo + ((cd + g : Nat) : Int)) with
        source := (Diff.new (sNo + ((cs + g : Nat) : Int)) (dNo + ((cd + g : Nat) : Int))).source ++ sl.map (fun l => DStr.ofStr l) } : Diff).dest ++ dl.map (fun l => DStr.ofStr l) } : Diff) = d0
      have fsrc : d0.source = sl.map (fun l => DStr.ofStr l) := by rw [← hd0]; simp [Diff.new]
      have fdst : d0.dest = dl.map (fun l => DStr.ofStr l) := by rw [← hd0]; simp [Diff.new]
      have fsn : d0.sourceLineNo = sNo + ((cs + g : Nat) : Int) := by rw [← hd0]; rfl
      have fdn : d0.destLineNo = dNo + ((cd + g : Nat) : Int) := by rw [← hd0]; rfl
      have fap : d0.applied = false := by rw [← hd0]; rfl
      have fun' : d0.unsaved = false := by rw [← hd0]; rfl
      have fcf : d0.conflicts = false := by rw [← hd0]; rfl
      have hfresh : d0.Fresh := by
        rw [Diff.Fresh, fsrc, fdst]
        exact ⟨freshLines_ofStr sl hsl, freshLines_ofStr dl hdl⟩
      obtain ⟨d1, c1, c2⟩ := computeDiffStats_ok hfresh
      have x1 : d1.sourceLineNo = sNo + ((cs + g : Nat) : Int) := by have := congrArg Diff.sourceLineNo c2; simpa [Diff.bare, fsn] using this
      have x2 : d1.destLineNo = dNo + ((cd + g : Nat) : Int) := by have := congrArg Diff.destLineNo c2; simpa [Diff.bare, fdn] using this
      have x3 : d1.applied = false := by have := congrArg Diff.applied c2; simpa [Diff.bare, fap] using this
      have x4 : d1.unsaved = false := by have := congrArg Diff.unsaved c2; simpa [Diff.bare, fun'] using this
      have x5 : d1.conflicts = false := by have := congrArg Diff.conflicts c2; simpa [Diff.bare, fcf] using this
      have x6 : d1.type = typeOf d0 := by have := congrArg Diff.type c2; simpa [Diff.bare] using this
      have x7 : d1.srcText = sl := by rw [bare_srcText c2]; simp only [Diff.srcText, fsrc, map_string_ofStr]
      have x8 : d1.dstText = dl := by rw [bare_dstText c2]; simp only [Diff.dstText, fdst, map_string_ofStr]
      rw [c1]
      simp only [Res.bind_ok]
      -- recursive call
      have hlen' : R1'.length + R2'.length < fuel := by
        rcases g5 with h | h
        · have := (a9 h).2; omega
        · have := (b9 h).2; omega
      obtain ⟨ds, r1, r2, r3, r4, r5, r6, r7⟩ := ih R1' R2' cs' cd' 1 hlen' a5 b5 a4 b4 (by rw [← a6, ← b6, g9])
      rw [r1]
      simp only [Res.bind_ok]
      refine ⟨_, rfl, ?_⟩
      generalize hdf : ({ d1.applyQuietly true with tracking := (d1.applyQuietly true).destLineNo } : Diff) = df
      have haq : d1.applyQuietly true = { d1 with unsaved := !d1.unsaved, applied := true } := by
        simp [Diff.applyQuietly, x3]
      rw [haq] at hdf
      have y1 : df.sourceLineNo = sNo + ((cs + g : Nat) : Int) := by rw [← hdf]; exact x1
      have y2 : df.destLineNo = dNo + ((cd + g : Nat) : Int) := by rw [← hdf]; exact x2
      have y3 : df.applied = true := by rw [← hdf]
      have y4 : df.unsaved = true := by rw [← hdf]; simp [x4]
      have y5 : df.tracking = df.destLineNo := by rw [← hdf]
      have y6 : df.type = typeOf d0 := by rw [← hdf]; exact x6
      have y7 : df.srcText = sl := by rw [← hdf]; exact x7
      have y8 : df.dstText = dl := by rw [← hdf]; exact x8
      have y9 : df.conflicts = false := by rw [← hdf]; exact x5
      have z1 : df.slc = sl.length := by rw [← y7]; simp [Diff.slc, Diff.srcText]
      have z2 : df.dlc = dl.length := by rw [← y8]; simp [Diff.dlc, Diff.dstText]
      have z3 : d0.slc = sl.length := by simp [Diff.slc, fsrc]
      have z4 : d0.dlc = dl.length := by simp [Diff.dlc, fdst]
      have hne : 0 < sl.length + dl.length := by
        rcases g5 with h | h
        · have := List.length_pos_iff.2 (a9 h).1; omega
        · have := List.length_pos_iff.2 (b9 h).1; omega
      have hcur : current df = dl := by simp [current, y3, y8]
      refine ⟨?_, ?_, ?_, ?_, ?_, ?_⟩
      · -- Describes
        have key := Describes.diff (sNo + cs) (dNo + cd) ((src.drop cs).take g) df (src.drop cs') (dst.drop cd') ds
          (by rw [y1]; simp; omega) (by rw [y5, y2]; simp; omega)
          (r2.cast (by rw [y7]; simp; omega) (by rw [hcur]; simp; omega) rfl rfl)
        refine key.cast rfl rfl ?_ ?_
        · rw [y7, ← a2, ← List.drop_drop, List.take_append_drop]
        · rw [hcur, ← b2, g8, ← List.drop_drop, List.take_append_drop]
      · intro d hd
        rcases List.mem_cons.1 hd with rfl | hd
        · refine ⟨y3, y4, y5.symm, ?_, by omega, y9⟩
          rw [y6]; unfold typeOf
          rw [z1, z2, z3, z4]
          by_cases q1 : sl.length > 0 <;> by_cases q2 : dl.length > 0
          · simp [q1, q2]
          · simp [q1, q2]
          · simp [q1, q2]
          · omega
        · exact r3 d hd
      · cases ds with
        | nil => trivial
        | cons d' ds' =>
          refine ⟨fun _ _ => ?_, r4⟩
          have := r5 d' rfl
          simp only [Diff.sourceEnd, y1, z1]
          omega
      · intro d hd
        simp at hd; rw [← hd, y1]; omega
      · simp only [List.map_cons, List.sum_cons, r6, z1, a7]
      · simp only [List.map_cons, List.sum_cons, r7, z2, b7]

end KompareDiff2
