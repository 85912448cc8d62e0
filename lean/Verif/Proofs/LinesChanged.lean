import Verif.Proofs.MarkerLoop
/-
`linesChanged` keeps the description of the current text correct.
-/
namespace KompareDiff2
open Spec

theorem length_markersOf (R : List (Nat × Nat)) : (markersOf R).length = 2 * R.length := by
  induction R with
  | nil => rfl
  | cons p R ih => obtain ⟨s, e⟩ := p; rw [markersOf_cons]; simp [ih]; omega

/-- The differences created for a pair of blocks describe the blocks, with the least number of lines. -/
theorem lcInserted_ok (hash : Str → Nat) (src dst : List Str) (sNo dNo : Int)
    (hS : ∀ l ∈ src, ShortLine l) (hD : ∀ l ∈ dst, ShortLine l)
    (hsz : (src.length + 1) * (dst.length + 1) ≤ 2 ^ 24) :
    ∃ ds, lcInserted hash src dst sNo dNo = Res.ok ds ∧ Describes sNo dNo src dst ds ∧ (∀ d ∈ ds, Created d) ∧
      Apart ds ∧ IsDistance false src dst ((ds.map Diff.slc).sum + (ds.map Diff.dlc).sum) := by
  obtain ⟨t', h, hf⟩ := createTable_filled LTable.init_valid (stringListPair_of hash (hash []) src dst) hsz
  obtain ⟨R1, R2, hm, r1, r2, r3, r4⟩ := lineMarkers (p := stringListPair hash (hash []) src dst) hf rfl (fun _ => rfl) rfl rfl
  unfold lcInserted
  simp only [h, Res.bind_ok, hm]
  obtain ⟨ds, q1, q2, q3, q4, _, q6, q7⟩ := markerLoop_ok src dst sNo dNo hS hD
    ((markersOf R1).length + (markersOf R2).length + 1) R1 R2 0 0 0
    (by rw [length_markersOf, length_markersOf]; omega) r1 r2 (by omega) (by omega) r3
  refine ⟨ds, q1, ?_, q3, q4, ?_⟩
  · simpa using q2
  · rw [q6, q7, r4]; exact isDistance_D false src dst

/-! ### further lemmas about `Describes` -/

theorem Spec.Describes.dissolveMid {a b c : List Diff} {s t S T} (h : Describes s t S T (a ++ (b ++ c))) :
    Describes s t S T (a ++ (b.filter Diff.applied ++ c)) := by
  induction a generalizing s t S T with
  | nil =>
    rw [List.nil_append] at h ⊢
    induction b generalizing s t S T with
    | nil => simpa using h
    | cons d b ih =>
      rw [List.cons_append] at h
      cases h with
      | diff _ _ g _ S T ds e1 e2 e3 =>
        by_cases ha : d.applied = true
        · rw [List.filter_cons_of_pos ha, List.cons_append]
          exact .diff s t g d S T _ e1 e2 (ih e3)
        · rw [List.filter_cons_of_neg ha]
          have hc : current d = d.srcText := by simp [current, ha]
          have := ih e3
          rw [hc] at this ⊢
          have := Describes.common (s := s) (t := t) (g ++ d.srcText) (this.cast (by simp; omega) (by simp; omega) rfl rfl)
          simpa using this
  | cons d a ih =>
    rw [List.cons_append] at h ⊢
    cases h with
    | diff _ _ g _ S T ds e1 e2 e3 => exact .diff s t g d S T _ e1 e2 (ih e3)

theorem Spec.Describes.srcBounds {s t S T ds} (h : Describes s t S T ds) :
    ∀ d ∈ ds, s ≤ d.sourceLineNo ∧ d.sourceEnd ≤ s + S.length := by
  induction h with
  | done => simp
  | diff s t c d S T ds e1 e2 e3 ih =>
    intro d' hd'
    have hl : d.srcText.length = d.slc := by simp [Diff.srcText, Diff.slc]
    rcases List.mem_cons.1 hd' with rfl | hd'
    · simp [Diff.sourceEnd, hl]; omega
    · have := ih d' hd'
      simp; omega

/-- Where the lines of a difference are in the current text. -/
theorem Spec.Describes.locate {s t S T ds d} (h : Describes s t S T ds) (hd : d ∈ ds) :
    ∃ U V, T = U ++ (current d ++ V) ∧ d.tracking = t + U.length := by
  induction h with
  | done => cases hd
  | diff s t c d' S T ds e1 e2 e3 ih =>
    rcases List.mem_cons.1 hd with rfl | hd
    · exact ⟨c, T, rfl, e2⟩
    · obtain ⟨U, V, h1, h2⟩ := ih hd
      exact ⟨c ++ (current d' ++ U), V, by rw [h1]; simp, by rw [h2]; simp; omega⟩

/-- The last difference's end and the offset behind it. -/
theorem Spec.Describes.lastOffset {s t S T l} {ds : List Diff} (h : Describes s t S T (ds ++ [l])) :
    l.sourceEnd - curEnd l = s - t + netDelta (ds ++ [l]) := by
  have := h.offset
  rw [netDelta_append]
  simp only [netDelta]
  have hl : l.srcText.length = l.slc := by simp [Diff.srcText, Diff.slc]
  unfold Diff.sourceEnd curEnd
  omega

theorem curEnd_fair {d : Diff} (h : Fair d) : curEnd d = d.trackingEnd := by
  unfold curEnd Diff.trackingEnd current
  by_cases ha : d.applied = true
  · simp [ha, Diff.dstText, Diff.dlc]
  · simp only [ha]
    have := h.2 (by simpa using ha)
    have hl : d.srcText.length = d.slc := by simp [Diff.srcText, Diff.slc]
    simp; omega

/-! ### `Apart` -/

theorem apart_append (a b : List Diff) :
    Apart (a ++ b) ↔ Apart a ∧ Apart b ∧ ∀ x y, a.getLast? = some x → b.head? = some y →
      x.applied = true → y.applied = true → x.sourceEnd < y.sourceLineNo := by
  induction a with
  | nil => simp [Apart]
  | cons x a ih =>
    cases a with
    | nil =>
      cases b with
      | nil => simp [Apart]
      | cons y b => simp [Apart]; exact And.comm
    | cons x' a =>
      simp only [List.cons_append, Apart] at ih ⊢
      rw [ih]
      simp only [List.getLast?_cons_cons]
      constructor
      · rintro ⟨h1, h2, h3, h4⟩; exact ⟨⟨h1, h2⟩, h3, h4⟩
      · rintro ⟨⟨h1, h2⟩, h3, h4⟩; exact ⟨h1, h2, h3, h4⟩

/-! ### blocks -/

/-- Reading lines of the old text through `oldLines`. -/
theorem old_window {X1 old X2 : List Str} {p k : Nat} (hp : X1.length ≤ p) (hk : p + k ≤ X1.length + old.length) :
    ((X1 ++ old ++ X2).drop p).take k = (old.drop (p - X1.length)).take k := by
  rw [List.append_assoc, List.drop_append, List.drop_eq_nil_of_le hp, List.nil_append]
  rw [List.drop_append, List.take_append_of_le_length]
  simp; omega

theorem sourceLoop_ok (X1 old X2 : List Str) (e E Bs : Int) (hE : E = e + old.length) (hX1 : (X1.length : Int) = e - Bs)
    (A : List Diff) (d : Diff) (s p : Int) (S' T' : List Str)
    (hd : d.applied = true) (hpd : d.trackingEnd = p) (hA : ∀ a ∈ A, a.applied = true)
    (hdesc : Describes s p S' T' A) (hp : e ≤ p)
    (htr : ∀ a ∈ A, a.tracking ≤ E)
    (hT' : T' = (X1 ++ old ++ X2).drop (p - Bs).toNat)
    (hend : p + T'.length = max E ((d :: A).getLast (by simp)).trackingEnd) :
    lcSourceLoop old e E (d :: A) = Res.ok (d.srcText ++ S') := by
  induction A generalizing d s p S' T' with
  | nil =>
    cases hdesc with
    | done =>
      simp only [lcSourceLoop, hd, if_true, hpd, Res.bind_ok]
      simp only [List.getLast_singleton, hpd] at hend
      by_cases hEp : E ≤ p
      · rw [sliceR_empty _ _ _ (by omega)]
        have hlen : S'.length = 0 := by omega
        have : S' = [] := List.length_eq_zero_iff.1 hlen
        subst this; simp
      · have h1 : (p - e) = (((p - e).toNat : Nat) : Int) := by omega
        have h2 : (E - e) = ((old.length : Nat) : Int) := by omega
        rw [h1, h2, sliceR_ok _ _ _ (by omega) (Nat.le_refl _)]
        have hw := old_window (X1 := X1) (old := old) (X2 := X2) (p := (p - Bs).toNat) (k := old.length - (p - e).toNat)
          (by omega) (by omega)
        rw [show (p - Bs).toNat - X1.length = (p - e).toNat by omega] at hw
        rw [← hw, ← hT', List.take_of_length_le (by omega)]
        simp
  | cons n A ih =>
    cases hdesc with
    | diff _ _ g _ S'' T'' _ e1 e2 e3 =>
      have hn := hA n (by simp)
      have hcur : current n = n.dstText := by simp [current, hn]
      have hpn : n.trackingEnd = p + g.length + (current n).length := by
        rw [Diff.trackingEnd, e2, hcur]; simp [Diff.dlc, Diff.dstText]
      unfold lcSourceLoop
      simp only [hd, if_true, hpd]
      have hnE := htr n (by simp)
      have h1 : (p - e) = (((p - e).toNat : Nat) : Int) := by omega
      have h2 : (n.tracking - e) = ((((p - e).toNat + g.length : Nat)) : Int) := by omega
      rw [h1, h2, sliceR_ok _ _ _ (by omega) (by omega)]
      have hw := old_window (X1 := X1) (old := old) (X2 := X2) (p := (p - Bs).toNat) (k := g.length)
        (by omega) (by omega)
      rw [show (p - Bs).toNat - X1.length = (p - e).toNat by omega] at hw
      rw [show (p - e).toNat + g.length - (p - e).toNat = g.length by omega, ← hw, ← hT']
      rw [List.take_left]
      have hrec := ih n (s + g.length + n.srcText.length) (p + g.length + (current n).length) S'' T'' hn hpn
        (fun a ha => hA a (by simp [ha])) e3 (by omega) (fun a ha => htr a (by simp [ha]))
        (by
          rw [show (p + g.length + (current n).length - Bs).toNat = (p - Bs).toNat + (g.length + (current n).length) by omega]
          rw [← List.drop_drop, ← hT', ← List.append_assoc, show g.length + (current n).length = (g ++ current n).length by simp]
          rw [List.drop_left])
        (by
          rw [List.getLast_cons (by simp : n :: A ≠ [])] at hend
          rw [← hend]; simp; omega)
      rw [hrec]
      simp

theorem append_split_left {T1 Tm P R : List Str} (h : T1 ++ Tm = P ++ R) (hl : T1.length ≤ P.length) :
    ∃ X, P = T1 ++ X ∧ Tm = X ++ R := by
  rcases List.append_eq_append_iff.1 h with ⟨X, h1, h2⟩ | ⟨X, h1, h2⟩
  · exact ⟨X, h1, h2⟩
  · have : X = [] := by
      apply List.length_eq_zero_iff.1
      rw [h1] at hl; simp at hl; omega
    subst this
    exact ⟨[], by simpa using h1.symm, by simpa using h2.symm⟩

/-! ### the three parts -/

/-- Cutting the description at the two ends of the block. -/
theorem cut3 {b : Int} {S P old Q : List Str} {pre A post : List Diff} {e E Bs Be : Int}
    (h : Describes b b S (P ++ old ++ Q) (pre ++ (A ++ post)))
    (he : e = b + P.length) (hE : E = e + old.length)
    (hBs : Bs ≤ e) (hBs' : b ≤ Bs) (hBe : E ≤ Be) (hBe' : Be ≤ b + (P ++ old ++ Q).length)
    (f1 : ∀ d ∈ pre, curEnd d ≤ Bs) (f2 : ∀ d ∈ A ++ post, Bs ≤ d.tracking)
    (f3 : ∀ d ∈ A, curEnd d ≤ Be) (f4 : ∀ d ∈ post, Be ≤ d.tracking) :
    ∃ S1 Sm S3 T1 X1 X2 T3, S = S1 ++ (Sm ++ S3) ∧ P = T1 ++ X1 ∧ Q = X2 ++ T3 ∧
      (T1.length : Int) = Bs - b ∧ (X1.length : Int) = e - Bs ∧ (X2.length : Int) = Be - E ∧
      Describes b b S1 T1 pre ∧ Describes (b + S1.length) Bs Sm (X1 ++ old ++ X2) A ∧
      Describes (b + S1.length + Sm.length) Be S3 T3 post := by
  obtain ⟨S1, S2, T1, T2, k1, k2, k3, k4, k5⟩ := h.split pre (A ++ post) Bs hBs' (by simp at hBe' ⊢; omega) f1
    (fun d hd => f2 d (List.mem_of_head? hd))
  have hT2 : (T2.length : Int) = b + (P ++ old ++ Q).length - Bs := by
    rw [k2]; simp; omega
  obtain ⟨Sm, S3, Tm, T3, m1, m2, m3, m4, m5⟩ := k5.split A post Be (by omega) (by rw [k3, hT2]; omega) f3
    (fun d hd => f4 d (List.mem_of_head? hd))
  rw [m2, List.append_assoc] at k2
  obtain ⟨X1, x1, x2⟩ := append_split_left k2.symm (by omega)
  have hQ := append_split_left (T1 := X1 ++ old) (Tm := Q) (P := Tm) (R := T3) (by rw [List.append_assoc, ← x2]) (by
    have := congrArg List.length x1
    simp at this ⊢; omega)
  obtain ⟨X2, y1, y2⟩ := hQ
  have l1 : P.length = T1.length + X1.length := by rw [x1]; simp
  have l2 : Tm.length = X1.length + old.length + X2.length := by rw [y1]; simp; omega
  refine ⟨S1, Sm, S3, T1, X1, X2, T3, by rw [k1, m1], x1, y2, k3, by omega, by omega, k4, ?_, ?_⟩
  · rw [← y1]; exact m4.cast rfl (by omega) rfl rfl
  · exact m5.cast rfl (by omega) rfl rfl

/-- Putting the parts together after the middle one was computed anew. -/
theorem join3 {b : Int} {S1 Sm S3 T1 X1 old new X2 T3 : List Str} {pre ins post : List Diff} {Bs Be : Int}
    (hBs : Bs = b + T1.length) (hBe : Be = Bs + (X1 ++ old ++ X2).length)
    (h1 : Describes b b S1 T1 pre) (h2 : Describes (b + S1.length) Bs Sm (X1 ++ new ++ X2) ins)
    (h3 : Describes (b + S1.length + Sm.length) Be S3 T3 post) :
    Describes b b (S1 ++ (Sm ++ S3)) ((T1 ++ X1) ++ new ++ (X2 ++ T3))
      (pre ++ ins ++ post.map (shiftBy ((new.length : Int) - old.length))) := by
  have h3' := h3.shift ((new.length : Int) - old.length)
  have := h1.append ((h2.append (h3'.cast rfl (by rw [hBe]; simp; omega) rfl rfl)).cast rfl hBs rfl rfl)
  simpa using this

/-- The applied differences an edit of the lines `e .. E` of the current text touches. -/
theorem map_sum_mem {A : List Diff} {f : Diff → Nat} {a : Diff} (h : a ∈ A) : f a ≤ (A.map f).sum := by
  induction A with
  | nil => cases h
  | cons x A ih =>
    simp only [List.map_cons, List.sum_cons]
    rcases List.mem_cons.1 h with rfl | h
    · omega
    · have := ih h; omega

theorem apart_shift (k : Int) (ds : List Diff) : Apart (ds.map (shiftBy k)) ↔ Apart ds := by
  induction ds with
  | nil => simp [Apart]
  | cons d ds ih =>
    cases ds with
    | nil => simp [Apart]
    | cons d' ds =>
      simp only [List.map_cons, Apart] at ih ⊢
      rw [ih]; rfl

/-- What the search for the affected differences yields. -/
structure Found (ds pre mid post : List Diff) (e E : Int) : Prop where
  all : ds = pre ++ (mid ++ post)
  pre_lt : ∀ d ∈ pre, d.trackingEnd ≤ e ∧ (d.trackingEnd = e → d.applied = false ∧ d.tracking ≠ e)
  mid_le : ∀ d ∈ mid, d.tracking ≤ E ∧ (d.applied = false → d.tracking < E)
  post_ge : ∀ d, post.head? = some d → E ≤ d.tracking ∧ (d.tracking = E → d.applied = false)
  rest_ge : ∀ d, (mid ++ post).head? = some d → e ≤ d.trackingEnd ∧ (d.trackingEnd = e → d.applied = true ∨ d.tracking = e)

theorem takeWhile_all {α} (p : α → Bool) (l : List α) : ∀ x ∈ l.takeWhile p, p x = true := by
  intro x hx
  induction l with
  | nil => cases hx
  | cons y l ih =>
    rw [List.takeWhile_cons] at hx
    split at hx
    · rcases List.mem_cons.1 hx with rfl | hx
      · assumption
      · exact ih hx
    · cases hx

theorem dropWhile_head {α} (p : α → Bool) (l : List α) : ∀ x, (l.dropWhile p).head? = some x → p x = false := by
  intro x hx
  induction l with
  | nil => cases hx
  | cons y l ih =>
    rw [List.dropWhile_cons] at hx
    split at hx
    · exact ih hx
    · rename_i hy; simp at hx; subst hx; simpa using hy

theorem found (ds : List Diff) (e E : Int) :
    Found ds (ds.takeWhile (lcBefore e)) ((ds.dropWhile (lcBefore e)).takeWhile (lcInside E))
      ((ds.dropWhile (lcBefore e)).dropWhile (lcInside E)) e E := by
  refine ⟨?_, ?_, ?_, ?_, ?_⟩
  · rw [List.takeWhile_append_dropWhile, List.takeWhile_append_dropWhile]
  · intro d hd
    have := takeWhile_all _ _ d hd
    simp [lcBefore] at this
    refine ⟨this.1, fun h => ?_⟩
    rcases this.2 with h1 | h1
    · exact absurd h h1
    · exact h1
  · intro d hd
    have := takeWhile_all _ _ d hd
    simp [lcInside] at this
    refine ⟨this.1, fun h => ?_⟩
    have := this.2
    rcases this with h' | h'
    · rw [h] at h'; cases h'
    · omega
  · intro d hd
    have := dropWhile_head _ _ d hd
    simp [lcInside] at this
    by_cases h : E < d.tracking
    · exact ⟨by omega, fun h' => by omega⟩
    · have := this (by omega)
      exact ⟨by omega, fun _ => this.1⟩
  · intro d hd
    rw [List.takeWhile_append_dropWhile] at hd
    have := dropWhile_head _ _ d hd
    simp [lcBefore] at this
    by_cases h : e < d.trackingEnd
    · exact ⟨by omega, fun h' => by omega⟩
    · have := this (by omega)
      refine ⟨by omega, fun _ => ?_⟩
      by_cases ha : d.applied = true
      · exact Or.inl ha
      · exact Or.inr (this.2 (by simpa using ha))

/-! ### line numbers -/

theorem netDelta_eq (A : List Diff) (h : ∀ d ∈ A, d.applied = true) :
    netDelta A = ((A.map Diff.slc).sum : Int) - ((A.map Diff.dlc).sum : Int) := by
  induction A with
  | nil => rfl
  | cons a A ih =>
    have ha := h a (by simp)
    simp only [netDelta, List.map_cons, List.sum_cons, ih (fun d hd => h d (by simp [hd])), current, ha, if_true]
    simp [Diff.srcText, Diff.slc, Diff.dstText, Diff.dlc]; omega

/-- Where the block starts. -/
def blockStart (A : List Diff) (e : Int) : Int := match A with | [] => e | a :: _ => min e a.tracking
/-- Where the block ends. -/
def blockEnd (A : List Diff) (E : Int) : Int := match A.getLast? with | none => E | some a => max E a.trackingEnd

theorem Found.rest_all {ds pre mid post e E} (f : Found ds pre mid post e E) {s t S T} (h : Describes s t S T ds)
    (hfair : ∀ d ∈ ds, Fair d) : ∀ d ∈ mid ++ post, e ≤ d.trackingEnd := by
  rw [f.all] at h
  have hs := (List.pairwise_append.1 h.sorted).2.1
  intro d hd
  have hr := f.rest_ge
  have hf : ∀ d ∈ mid ++ post, Fair d := fun d hd => hfair d (by rw [f.all]; exact List.mem_append_right _ hd)
  generalize mid ++ post = r at *
  cases r with
  | nil => cases hd
  | cons r rs =>
    have h1 := (hr r rfl).1
    rcases List.mem_cons.1 hd with rfl | hd
    · exact h1
    · have := (List.pairwise_cons.1 hs).1 d hd
      rw [curEnd_fair (hf r (by simp))] at this
      have : d.tracking ≤ d.trackingEnd := by unfold Diff.trackingEnd; omega
      omega

theorem Found.post_all {ds pre mid post e E} (f : Found ds pre mid post e E) {s t S T} (h : Describes s t S T ds) :
    ∀ d ∈ post, E ≤ d.tracking := by
  rw [f.all] at h
  have hs := (List.pairwise_append.1 (List.pairwise_append.1 h.sorted).2.1).2.1
  intro d hd
  have hr := f.post_ge
  cases post with
  | nil => cases hd
  | cons r rs =>
    have h1 := (hr r rfl).1
    rcases List.mem_cons.1 hd with rfl | hd
    · exact h1
    · have := (List.pairwise_cons.1 hs).1 d hd
      unfold curEnd at this
      omega

/-- If an applied difference starts before the edit, it is the first affected one. -/
theorem Found.first {ds pre mid post e E a A} (f : Found ds pre mid post e E) {s t S T} (h : Describes s t S T ds)
    (hfair : ∀ d ∈ ds, Fair d) (hA : mid.filter Diff.applied = a :: A) (ha : a.tracking < e) :
    ∃ mid', mid = a :: mid' := by
  cases mid with
  | nil => cases hA
  | cons d mid' =>
    by_cases hd : d.applied = true
    · rw [List.filter_cons_of_pos hd] at hA
      exact ⟨mid', by rw [(List.cons.inj hA).1]⟩
    · rw [List.filter_cons_of_neg hd] at hA
      have hmem : a ∈ mid' := by
        have : a ∈ mid'.filter Diff.applied := by rw [hA]; simp
        exact (List.mem_filter.1 this).1
      rw [f.all] at h
      have hs := (List.pairwise_append.1 (List.pairwise_append.1 h.sorted).2.1).1
      have := (List.pairwise_cons.1 hs).1 a hmem
      rw [curEnd_fair (hfair d (by rw [f.all]; simp))] at this
      have := (f.rest_ge d rfl).1
      omega

/-- If an applied difference ends behind the edit, it is the last affected one. -/
theorem Found.last {ds pre mid post e E a} (f : Found ds pre mid post e E) {s t S T} (h : Describes s t S T ds)
    (hfair : ∀ d ∈ ds, Fair d) (hA : (mid.filter Diff.applied).getLast? = some a) (ha : E < a.trackingEnd) :
    mid.getLast? = some a := by
  rw [f.all] at h
  have hs := (List.pairwise_append.1 (List.pairwise_append.1 h.sorted).2.1).1
  rcases List.eq_nil_or_concat mid with rfl | ⟨m, l, rfl⟩
  · cases hA
  · rw [List.concat_eq_append] at *
    by_cases hl : l.applied = true
    · rw [List.filter_append, List.filter_cons_of_pos hl] at hA
      simpa using hA
    · rw [List.filter_append, List.filter_cons_of_neg hl, List.filter_nil, List.append_nil] at hA
      have hmem : a ∈ m := by
        have : a ∈ m.filter Diff.applied := List.mem_of_getLast? hA
        exact (List.mem_filter.1 this).1
      have h1 := (List.pairwise_append.1 hs).2.2 a hmem l (by simp)
      rw [curEnd_fair (hfair a (by rw [f.all]; simp [hmem]))] at h1
      have h2 := (f.mid_le l (by simp)).2 (by simpa using hl)
      omega

theorem lcLineNumbers_ok {b S T} {ds pre mid post : List Diff} {e E : Int} (f : Found ds pre mid post e E)
    (h : Describes b b S T ds) (hfair : ∀ d ∈ ds, Fair d) (hE : e ≤ E) {S1 T1 : List Str} (h1 : Describes b b S1 T1 pre)
    (hT1 : (T1.length : Int) = blockStart (mid.filter Diff.applied) e - b) :
    lcLineNumbers ds (mid ++ post) e = (b + S1.length, blockStart (mid.filter Diff.applied) e) := by
  have hl := h1.length
  cases hr : mid ++ post with
  | nil =>
    obtain ⟨rfl, rfl⟩ := List.append_eq_nil_iff.1 hr
    have hall := f.all
    simp at hall
    subst hall
    simp only [lcLineNumbers]
    have hB : blockStart ([].filter Diff.applied) e = e := rfl
    rw [hB] at hT1 ⊢
    rcases List.eq_nil_or_concat ds with rfl | ⟨m, l, rfl⟩
    · simp [netDelta] at hl
      simp; omega
    · rw [List.concat_eq_append] at *
      simp only [List.getLast?_concat]
      have := h1.lastOffset
      rw [curEnd_fair (hfair l (by simp))] at this
      simp; omega
  | cons d r =>
    have hall := f.all
    rw [hr] at hall
    rw [hall] at h
    have ho := h.offset
    simp only [lcLineNumbers]
    have hrest := f.rest_ge d (by rw [hr]; rfl)
    by_cases hd : d.applied = true
    · by_cases ht : d.tracking ≥ e
      · rw [if_pos (Or.inr ht)]
        have hB : blockStart (mid.filter Diff.applied) e = e := by
          cases hA : mid.filter Diff.applied with
          | nil => rfl
          | cons a A =>
            simp only [blockStart]
            by_cases hae : a.tracking < e
            · obtain ⟨m', rfl⟩ := f.first (S := S) (T := T) (hall ▸ h) hfair hA hae
              rw [List.cons_append] at hr
              have := (List.cons.inj hr).1
              subst this; omega
            · omega
        rw [hB] at hT1 ⊢
        simp; omega
      · rw [if_neg (by rintro (h' | h'); · rw [hd] at h'; cases h'
                       · exact ht h')]
        have hB : blockStart (mid.filter Diff.applied) e = d.tracking := by
          cases mid with
          | nil =>
            rw [List.nil_append] at hr
            have := f.post_ge d (by rw [hr]; rfl)
            omega
          | cons d' m =>
            rw [List.cons_append] at hr
            have := (List.cons.inj hr).1
            subst this
            rw [List.filter_cons_of_pos hd]
            simp only [blockStart]; omega
        rw [hB] at hT1 ⊢
        simp; omega
    · rw [if_pos (Or.inl (by simpa using hd))]
      have hB : blockStart (mid.filter Diff.applied) e = e := by
        cases hA : mid.filter Diff.applied with
        | nil => rfl
        | cons a A =>
          simp only [blockStart]
          by_cases hae : a.tracking < e
          · obtain ⟨m', rfl⟩ := f.first (S := S) (T := T) (hall ▸ h) hfair hA hae
            rw [List.cons_append] at hr
            have := (List.cons.inj hr).1
            subst this
            have : a ∈ (a :: m').filter Diff.applied := by rw [hA]; simp
            exact absurd (List.mem_filter.1 this).2 hd
          · omega
      rw [hB] at hT1 ⊢
      simp; omega

/-! ### the two blocks -/

theorem lcBlocks_ok {X1 old X2 new Sm : List Str} {A : List Diff} {s e E Bs Be : Int} (hE : E = e + old.length)
    (hBs : Bs = blockStart A e) (hBe : Be = blockEnd A E)
    (hX1 : (X1.length : Int) = e - Bs) (hX2 : (X2.length : Int) = Be - E)
    (h : Describes s Bs Sm (X1 ++ old ++ X2) A) (hA : ∀ a ∈ A, a.applied = true)
    (hge : ∀ a ∈ A, e ≤ a.trackingEnd) (hle : ∀ a ∈ A, a.tracking ≤ E) :
    lcBlocks A old new e E = Res.ok (Sm, X1 ++ new ++ X2) := by
  cases A with
  | nil =>
    simp only [blockStart, blockEnd, List.getLast?_nil] at hBs hBe
    have e1 : X1 = [] := List.length_eq_zero_iff.1 (by omega)
    have e2 : X2 = [] := List.length_eq_zero_iff.1 (by omega)
    subst e1 e2
    generalize hW : [] ++ old ++ [] = W at h
    cases h
    simp only [List.nil_append, List.append_nil] at hW
    simp [lcBlocks, hW]
  | cons a A =>
    have ha := hA a (by simp)
    have haE := hle a (by simp)
    have hae := hge a (by simp)
    generalize hl : (a :: A).getLast (by simp) = l
    have hlmem : l ∈ a :: A := by rw [← hl]; exact List.getLast_mem _
    have hla := hA l hlmem
    have hlE := hle l hlmem
    have hBe' : Be = max E l.trackingEnd := by
      rw [hBe, blockEnd, List.getLast?_eq_some_getLast (by simp), hl]
    simp only [blockStart] at hBs
    have hlen := congrArg List.length (rfl : X1 ++ old ++ X2 = X1 ++ old ++ X2)
    -- last
    obtain ⟨U, V, v1, v2⟩ := h.locate hlmem
    have hlc : current l = l.dstText := by simp [current, hla]
    rw [hlc] at v1
    have hVlen := congrArg List.length v1
    have hldl : l.dstText.length = l.dlc := by simp [Diff.dstText, Diff.dlc]
    have htel : l.trackingEnd = l.tracking + l.dlc := rfl
    have hlast : sliceR l.dstText (E - l.tracking) (l.trackingEnd - l.tracking) = Res.ok X2 := by
      by_cases hq : l.trackingEnd ≤ E
      · rw [sliceR_empty _ _ _ (by omega), List.length_eq_zero_iff.1 (by omega : X2.length = 0)]
      · simp only [List.length_append] at hVlen
        have hV : V = [] := List.length_eq_zero_iff.1 (by omega)
        subst hV
        rw [List.append_nil] at v1
        rw [show E - l.tracking = (((E - l.tracking).toNat : Nat) : Int) by omega,
          show l.trackingEnd - l.tracking = ((l.dstText.length : Nat) : Int) by omega, sliceR_ok _ _ _ (by omega) (Nat.le_refl _)]
        have := congrArg (List.drop (X1 ++ old).length) v1
        rw [List.drop_left, List.drop_append, List.drop_eq_nil_of_le (by simp; omega), List.nil_append] at this
        rw [List.take_of_length_le (by simp), this]
        congr 2; simp; omega
    -- first
    generalize hT : X1 ++ old ++ X2 = W at h
    cases h with
    | diff _ _ c _ S' T' _ e1 e2 e3 =>
      have hac : current a = a.dstText := by simp [current, ha]
      rw [hac] at e3 hT
      have hadl : a.dstText.length = a.dlc := by simp [Diff.dstText, Diff.dlc]
      have htea : a.trackingEnd = a.tracking + a.dlc := rfl
      have hTlen := congrArg List.length hT
      simp only [List.length_append] at hTlen
      have hfirst : sliceR a.dstText (a.tracking - a.tracking) (e - a.tracking) = Res.ok X1 := by
        by_cases hq : e ≤ a.tracking
        · rw [sliceR_empty _ _ _ (by omega), List.length_eq_zero_iff.1 (by omega : X1.length = 0)]
        · have hc : c = [] := List.length_eq_zero_iff.1 (by omega)
          subst hc
          rw [List.nil_append] at hT
          rw [show a.tracking - a.tracking = ((0 : Nat) : Int) by omega,
            show e - a.tracking = ((X1.length : Nat) : Int) by omega, sliceR_ok _ _ _ (by omega) (by omega)]
          have := congrArg (List.take X1.length) hT
          rw [List.append_assoc, List.take_left, List.take_append_of_le_length (by omega)] at this
          rw [List.drop_zero, Nat.sub_zero, ← this]
      have hpre : (if a.tracking ≥ e then sliceR old (e - e) (a.tracking - e) else Res.ok []) = Res.ok c := by
        by_cases hq : a.tracking ≥ e
        · have hx : X1 = [] := List.length_eq_zero_iff.1 (by omega)
          subst hx
          rw [if_pos hq, show e - e = ((0 : Nat) : Int) by omega,
            show a.tracking - e = ((c.length : Nat) : Int) by omega, sliceR_ok _ _ _ (by omega) (by omega)]
          have := congrArg (List.take c.length) hT
          rw [List.nil_append, List.take_left, List.take_append_of_le_length (by omega)] at this
          simp [this]
        · rw [if_neg hq, List.length_eq_zero_iff.1 (by omega : c.length = 0)]
      have hsrc := sourceLoop_ok X1 old X2 e E Bs hE hX1 A a _ a.trackingEnd S' T' ha rfl (fun x hx => hA x (by simp [hx]))
        (e3.cast rfl (by omega) rfl rfl) hae (fun x hx => hle x (by simp [hx]))
        (by
          rw [hT, ← List.append_assoc, show (a.trackingEnd - Bs).toNat = (c ++ a.dstText).length by simp; omega, List.drop_left])
        (by rw [hl]; omega)
      unfold lcBlocks lcDestLines
      simp only [hl, hfirst, hlast, Res.bind_ok]
      split
      · rename_i hq
        rw [if_pos hq] at hpre
        rw [hpre, hsrc]; simp
      · rename_i hq
        rw [if_neg hq] at hpre
        rw [hsrc]
        have := Res.ok.inj hpre
        simp [← this]

/-- The lines of the block that surround the edited ones belong to affected differences. -/
theorem surround_le {A : List Diff} {e E : Int} (heE : e ≤ E) (hs : A.Pairwise (fun d d' => d.trackingEnd ≤ d'.tracking))
    (hge : ∀ a ∈ A, e ≤ a.trackingEnd) (hle : ∀ a ∈ A, a.tracking ≤ E) :
    (e - blockStart A e) + (blockEnd A E - E) ≤ ((A.map Diff.dlc).sum : Int) := by
  cases A with
  | nil => simp [blockStart, blockEnd]
  | cons a A =>
    have h1 := hge a (by simp)
    have h1' := hle a (by simp)
    rw [blockEnd, List.getLast?_eq_some_getLast (by simp)]
    rcases List.eq_nil_or_concat A with rfl | ⟨m, l, rfl⟩
    · simp [blockStart, Diff.trackingEnd] at *; omega
    · rw [List.concat_eq_append] at *
      have h2 := hge l (by simp)
      have h2' := hle l (by simp)
      have hlast : ∀ h, (a :: (m ++ [l])).getLast h = l := fun h => by
        rw [List.getLast_cons (by simp)]; exact List.getLast_concat
      simp only [hlast, blockStart, List.map_cons, List.map_append, List.sum_cons, List.sum_append, List.map_nil,
        List.sum_nil, Diff.trackingEnd] at *
      omega

theorem Found.touched {ds pre mid post e E} (f : Found ds pre mid post e E) {s t S T} (h : Describes s t S T ds)
    (hfair : ∀ d ∈ ds, Fair d) : ds.filter (Spec.touched e E) = mid.filter Diff.applied := by
  have hrest := f.rest_all h hfair
  have hpost := f.post_all h
  have hp : pre.filter (Spec.touched e E) = [] := by
    rw [List.filter_eq_nil_iff]
    intro d hd
    have := f.pre_lt d hd
    simp only [Spec.touched]
    intro hc
    simp at hc
    have := this.2 (by omega)
    rw [hc.1.1] at this
    exact absurd this.1 (by simp)
  have hq : post.filter (Spec.touched e E) = [] := by
    rw [List.filter_eq_nil_iff]
    intro d hd hc
    simp [Spec.touched] at hc
    have h1 := hpost d hd
    cases post with
    | nil => cases hd
    | cons r rs =>
      have hr := f.post_ge r rfl
      have hsorted := h.sorted
      rw [f.all] at hsorted
      have hs := (List.pairwise_append.1 (List.pairwise_append.1 hsorted).2.1).2.1
      rcases List.mem_cons.1 hd with rfl | hd'
      · have := hr.2 (by omega); rw [hc.1.1] at this; cases this
      · have h2 := (List.pairwise_cons.1 hs).1 d hd'
        have hfr : Fair r := hfair r (by rw [f.all]; simp)
        have h3 : r.tracking = E := by unfold curEnd at h2; omega
        have h4 := hr.2 h3
        have h5 := hfr.1
        have h6 := hfr.2 h4
        rw [curEnd_fair hfr] at h2
        unfold Diff.trackingEnd at h2
        omega
  have hm : mid.filter (Spec.touched e E) = mid.filter Diff.applied := by
    apply List.filter_congr
    intro d hd
    have h1 := (f.mid_le d hd).1
    have h2 := hrest d (List.mem_append_left _ hd)
    simp [Spec.touched, h1, h2]
  rw [f.all, List.filter_append, List.filter_append, hp, hq, hm]
  simp

/-- The main theorem on values, with the blocks that are compared. -/
theorem linesChanged_parts (hash : Str → Nat) (b : Int) (S P old Q new : List Str) (ds : List Diff) (e : Int)
    (hdesc : Describes b b S (P ++ old ++ Q) ds) (hapart : Apart ds) (hfair : ∀ d ∈ ds, Fair d)
    (he : e = b + P.length) (hne : ¬ (old = [] ∧ new = []))
    (hshortS : ∀ l ∈ S, ShortLine l) (hshortT : ∀ l ∈ P ++ new ++ Q, ShortLine l)
    (hsz : (old.length + ((ds.filter (Spec.touched e (e + old.length))).map Diff.slc).sum + 1) *
      (new.length + ((ds.filter (Spec.touched e (e + old.length))).map Diff.dlc).sum + 1) ≤ 2 ^ 24) :
    ∃ r, linesChanged hash ds old new e = Res.ok r ∧
      Describes b b S (P ++ new ++ Q) r.list ∧ Apart r.list ∧ (∀ d ∈ r.list, Fair d) ∧
      (∀ d ∈ r.inserted, Created d) ∧
      (∃ mid post, ds = r.pre ++ (mid ++ post) ∧ r.removed = mid ∧
        r.post = post.map (shiftBy ((new.length : Int) - old.length)) ∧
        (∀ d ∈ r.pre, d.trackingEnd ≤ e) ∧ (∀ d ∈ mid, e ≤ d.trackingEnd ∧ d.tracking ≤ e + old.length) ∧
        (∀ d ∈ post, e + old.length ≤ d.tracking)) ∧
      ∃ S1 Sm S3 T1 Tm T3, S = S1 ++ (Sm ++ S3) ∧ P ++ new ++ Q = T1 ++ (Tm ++ T3) ∧
        Describes b b S1 T1 r.pre ∧
        Describes (b + S1.length) (b + T1.length) Sm Tm r.inserted ∧
        Describes (b + S1.length + Sm.length) (b + T1.length + Tm.length) S3 T3 r.post ∧
        T1.length ≤ P.length ∧ T3.length ≤ Q.length ∧
        IsDistance false Sm Tm ((r.inserted.map Diff.slc).sum + (r.inserted.map Diff.dlc).sum) ∧
        lcLineNumbers ds (ds.dropWhile (lcBefore e)) e = (b + S1.length, b + T1.length) ∧
        lcBlocks (((ds.dropWhile (lcBefore e)).takeWhile (lcInside (e + old.length))).filter Diff.applied) old new e (e + old.length) = Res.ok (Sm, Tm) ∧
        lcInserted hash Sm Tm (b + S1.length) (b + T1.length) = Res.ok r.inserted ∧
        (Sm.length + 1) * (Tm.length + 1) ≤ 2 ^ 24 := by
  generalize hE : e + (old.length : Int) = E at *
  have f := found ds e E
  unfold linesChanged
  rw [if_neg hne]
  simp only [hE]
  generalize hpre : ds.takeWhile (lcBefore e) = pre at f
  generalize hmid : (ds.dropWhile (lcBefore e)).takeWhile (lcInside E) = mid at f
  generalize hpost : (ds.dropWhile (lcBefore e)).dropWhile (lcInside E) = post at f
  have hrest : ds.dropWhile (lcBefore e) = mid ++ post := by rw [← hmid, ← hpost, List.takeWhile_append_dropWhile]
  rw [hrest]
  have htouch := f.touched hdesc hfair
  rw [htouch] at hsz
  have hrest_all := f.rest_all hdesc hfair
  have hpost_all := f.post_all hdesc
  have hpre_all : ∀ d ∈ pre, d.trackingEnd ≤ e := fun d hd => (f.pre_lt d hd).1
  have hfpre : ∀ d ∈ pre, Fair d := fun d hd => hfair d (by rw [f.all]; simp [hd])
  have hfmid : ∀ d ∈ mid, Fair d := fun d hd => hfair d (by rw [f.all]; simp [hd])
  have hfpost : ∀ d ∈ post, Fair d := fun d hd => hfair d (by rw [f.all]; simp [hd])
  have hd2 : Describes b b S (P ++ old ++ Q) (pre ++ (mid.filter Diff.applied ++ post)) := by
    have := hdesc; rw [f.all] at this; exact this.dissolveMid
  have hAmem : ∀ d ∈ mid.filter Diff.applied, d ∈ mid ∧ d.applied = true := fun d hd => by
    have := List.mem_filter.1 hd; exact this
  have hs2 := List.pairwise_append.1 hd2.sorted
  have hs3 := List.pairwise_append.1 hs2.2.1
  have hbd := hd2.bounds
  have hfirst := fun a A => f.first (a := a) (A := A) hdesc hfair
  have hlast := fun a => f.last (a := a) hdesc hfair
  generalize hA : mid.filter Diff.applied = A at *
  have hAa : ∀ a ∈ A, a.applied = true := fun a ha => (hAmem a ha).2
  have hAge : ∀ a ∈ A, e ≤ a.trackingEnd := fun a ha => hrest_all a (List.mem_append_left _ (hAmem a ha).1)
  have hAle : ∀ a ∈ A, a.tracking ≤ E := fun a ha => (f.mid_le a (hAmem a ha).1).1
  have hAf : ∀ a ∈ A, curEnd a = a.trackingEnd := fun a ha => curEnd_fair (hfmid a (hAmem a ha).1)
  have heE : e ≤ E := by omega
  -- the block
  have hBs1 : blockStart A e ≤ e := by
    cases A with
    | nil => simp [blockStart]
    | cons a A => simp only [blockStart]; omega
  have hBs2 : b ≤ blockStart A e := by
    cases A with
    | nil => simp only [blockStart]; omega
    | cons a A => have := hbd a (by simp); simp only [blockStart]; omega
  have hBs3 : ∀ a ∈ A, blockStart A e ≤ a.tracking := by
    intro a ha
    cases A with
    | nil => cases ha
    | cons a' A =>
      simp only [blockStart]
      rcases List.mem_cons.1 ha with rfl | ha'
      · omega
      · have h1 := (List.pairwise_cons.1 hs3.1).1 a ha'
        unfold curEnd at h1; omega
  have hBs4 : ∀ d ∈ pre, curEnd d ≤ blockStart A e := by
    intro d hd
    have h1 := hpre_all d hd
    rw [← curEnd_fair (hfpre d hd)] at h1
    cases A with
    | nil => simp only [blockStart]; omega
    | cons a' A =>
      have := hs2.2.2 d hd a' (by simp)
      simp only [blockStart]; omega
  have hBe1 : E ≤ blockEnd A E := by
    unfold blockEnd; split <;> omega
  have hBe2 : blockEnd A E ≤ b + (P ++ old ++ Q).length := by
    unfold blockEnd; split
    · simp; omega
    · rename_i l hl
      have hlm := List.mem_of_getLast? hl
      have := (hbd l (by simp [hlm])).2
      rw [hAf l hlm] at this
      have : E ≤ b + (P ++ old ++ Q).length := by simp; omega
      omega
  have hBe3 : ∀ a ∈ A, curEnd a ≤ blockEnd A E := by
    intro a ha
    rw [hAf a ha]
    rcases List.eq_nil_or_concat A with rfl | ⟨m, l, rfl⟩
    · cases ha
    · rw [List.concat_eq_append] at *
      simp only [blockEnd, List.getLast?_concat]
      rcases List.mem_append.1 ha with ha' | ha'
      · have := (List.pairwise_append.1 hs3.1).2.2 a ha' l (by simp)
        rw [hAf a ha] at this
        have : l.tracking ≤ l.trackingEnd := by unfold Diff.trackingEnd; omega
        omega
      · simp at ha'; subst ha'; omega
  have hBe4 : ∀ d ∈ post, blockEnd A E ≤ d.tracking := by
    intro d hd
    have h1 := hpost_all d hd
    unfold blockEnd; split
    · exact h1
    · rename_i l hl
      have hlm := List.mem_of_getLast? hl
      have := hs3.2.2 l hlm d hd
      rw [hAf l hlm] at this
      omega
  obtain ⟨S1, Sm, S3, T1, X1, X2, T3, c1, c2, c3, c4, c5, c6, c7, c8, c9⟩ := cut3 hd2 he hE.symm hBs1 hBs2 hBe1 hBe2 hBs4
    (by
      intro d hd
      rcases List.mem_append.1 hd with h | h
      · exact hBs3 d h
      · have := hpost_all d h; omega) hBe3 hBe4
  have hno := lcLineNumbers_ok f hdesc hfair heE c7 (by rw [hA]; exact c4)
  rw [hA] at hno
  have hblk := lcBlocks_ok (new := new) hE.symm rfl rfl c5 c6 c8 hAa hAge hAle
  -- sizes
  have hsur := surround_le heE (hs3.1.imp_of_mem (fun {a c} ha _ hac => by rw [← hAf a ha]; exact hac)) hAge hAle
  have hSm := c8.length
  rw [netDelta_eq A hAa] at hSm
  simp only [List.length_append] at hSm
  have hszS : Sm.length ≤ old.length + (A.map Diff.slc).sum := by omega
  have hszT : (X1 ++ new ++ X2).length ≤ new.length + (A.map Diff.dlc).sum := by simp; omega
  obtain ⟨ins, i1, i2, i3, i4, i5⟩ := lcInserted_ok hash Sm (X1 ++ new ++ X2) (b + S1.length) (blockStart A e)
    (fun l hl => hshortS l (by rw [c1]; simp [hl]))
    (fun l hl => hshortT l (by
      rw [c2, c3]
      simp only [List.mem_append] at hl ⊢
      rcases hl with (h | h) | h
      · exact Or.inl (Or.inl (Or.inr h))
      · exact Or.inl (Or.inr h)
      · exact Or.inr (Or.inl h)))
    (Nat.le_trans (Nat.mul_le_mul (by omega) (by omega)) hsz)
  have hsmall : (Sm.length + 1) * ((X1 ++ new ++ X2).length + 1) ≤ 2 ^ 24 := Nat.le_trans (Nat.mul_le_mul (by omega) (by omega)) hsz
  rw [hblk]
  simp only [Res.bind_ok, hno, i1]
  refine ⟨_, rfl, ?_, ?_, ?_, i3, ⟨mid, post, f.all, rfl, rfl, hpre_all, ?_, hpost_all⟩, ?_⟩
  · -- Describes
    simp only [LCResult.list]
    have hd3 := join3 (b := b) (S1 := S1) (Sm := Sm) (S3 := S3) (T1 := T1) (X1 := X1) (old := old) (new := new) (X2 := X2)
      (T3 := T3) (pre := pre) (ins := ins) (post := post) (Bs := blockStart A e) (Be := blockEnd A E) (by omega) (by simp; omega)
      c7 i2 c9
    exact hd3.cast rfl rfl c1.symm (by rw [c2, c3])
  · -- Apart
    change Apart (pre ++ ins ++ post.map (shiftBy ((new.length : Int) - old.length)))
    have ha := hapart
    rw [f.all, apart_append, apart_append] at ha
    obtain ⟨ap1, ⟨ap2, ap3, ap4⟩, ap5⟩ := ha
    have hlo : ∀ x, pre.getLast? = some x → x.applied = true → x.sourceEnd < b + S1.length := by
      intro x hx hxa
      have hxm := List.mem_of_getLast? hx
      have hxe : curEnd x < e := by
        rw [curEnd_fair (hfpre x hxm)]
        have h1 := f.pre_lt x hxm
        rcases Int.lt_or_eq_of_le h1.1 with h | h
        · exact h
        · have := (h1.2 h).1; rw [hxa] at this; cases this
      have hoff : x.sourceEnd - curEnd x = (b + S1.length) - blockStart A e := by
        rcases List.eq_nil_or_concat pre with rfl | ⟨m, l, rfl⟩
        · cases hx
        · rw [List.concat_eq_append] at *
          simp only [List.getLast?_concat] at hx
          cases hx
          have h1 := c7.lastOffset
          have h2 := c7.length
          omega
      cases A with
      | nil => simp only [blockStart] at hoff; omega
      | cons a A' =>
        by_cases hae : a.tracking < e
        · obtain ⟨m', rfl⟩ := hfirst a A' rfl hae
          have h1 := ap5 x a hx rfl hxa (hAa a (by simp))
          have h2 := c8.offset (pre := [])
          simp only [netDelta] at h2
          have hB : blockStart (a :: A') e = a.tracking := by simp only [blockStart]; omega
          omega
        · have hB : blockStart (a :: A') e = e := by simp only [blockStart]; omega
          omega
    have hhi : ∀ y, post.head? = some y → y.applied = true → b + S1.length + Sm.length < y.sourceLineNo := by
      intro y hy hya
      have hyE : E < y.tracking := by
        have h1 := f.post_ge y hy
        rcases Int.lt_or_eq_of_le h1.1 with h | h
        · exact h
        · have := h1.2 h.symm; rw [hya] at this; cases this
      have hoff : y.sourceLineNo - y.tracking = (b + S1.length + Sm.length) - blockEnd A E := by
        cases post with
        | nil => cases hy
        | cons y' post =>
          simp at hy; subst hy
          have := c9.offset (pre := [])
          simp only [netDelta] at this
          omega
      rcases List.eq_nil_or_concat A with rfl | ⟨m, l, rfl⟩
      · simp only [blockEnd, List.getLast?_nil] at hoff; omega
      · rw [List.concat_eq_append] at *
        simp only [blockEnd, List.getLast?_concat] at hoff c6 hsur
        by_cases hle : E < l.trackingEnd
        · have h1 := hlast l (by simp) hle
          have h2 := ap4 l y h1 hy (hAa l (by simp)) hya
          have h3 := c8.lastOffset
          have h4 := c8.length
          rw [hAf l (by simp)] at h3
          simp only [List.length_append] at h4
          omega
        · omega
    have hsb := i2.srcBounds
    rw [apart_append, apart_append, apart_shift]
    refine ⟨⟨ap1, i4, ?_⟩, ap3, ?_⟩
    · intro x y hx hy hxa hya
      have h1 := hlo x hx hxa
      have h2 := (hsb y (List.mem_of_head? hy)).1
      omega
    · intro x y hx hy hxa hya
      rw [List.head?_map] at hy
      cases hp : post.head? with
      | none => rw [hp] at hy; cases hy
      | some y' =>
        rw [hp] at hy; simp at hy; subst hy
        have h1 := hhi y' hp hya
        show x.sourceEnd < y'.sourceLineNo
        cases hins : ins.getLast? with
        | none =>
          rw [List.getLast?_append, hins] at hx
          have h2 := hlo x (by simpa using hx) hxa
          omega
        | some z =>
          rw [List.getLast?_append, hins] at hx
          simp at hx; subst hx
          have h2 := (hsb z (List.mem_of_getLast? hins)).2
          omega
  · intro d hd
    simp only [LCResult.list, List.mem_append, List.mem_map] at hd
    rcases hd with (h | h) | ⟨d', h, rfl⟩
    · exact hfpre d h
    · have := i3 d h
      exact ⟨this.nonempty, fun hc => by rw [this.applied] at hc; cases hc⟩
    · exact hfpost d' h
  · intro d hd
    exact ⟨hrest_all d (List.mem_append_left _ hd), (f.mid_le d hd).1⟩
  · refine ⟨S1, Sm, S3, T1, X1 ++ new ++ X2, T3, c1, by rw [c2, c3]; simp, c7, ?_, ?_, ?_, ?_, i5, ?_, rfl, ?_, hsmall⟩
    · exact i2.cast rfl (by omega) rfl rfl
    · exact (c9.shift ((new.length : Int) - old.length)).cast rfl (by simp; omega) rfl rfl
    · rw [c2]; simp
    · rw [c3]; simp
    · rw [show blockStart A e = b + T1.length by omega]
    · rw [← show blockStart A e = b + T1.length by omega]; exact i1

/-- The main theorem on values. -/
theorem linesChanged_ok (hash : Str → Nat) (b : Int) (S P old Q new : List Str) (ds : List Diff) (e : Int)
    (hdesc : Describes b b S (P ++ old ++ Q) ds) (hapart : Apart ds) (hfair : ∀ d ∈ ds, Fair d)
    (he : e = b + P.length) (hne : ¬ (old = [] ∧ new = []))
    (hshortS : ∀ l ∈ S, ShortLine l) (hshortT : ∀ l ∈ P ++ new ++ Q, ShortLine l)
    (hsz : (old.length + ((ds.filter (Spec.touched e (e + old.length))).map Diff.slc).sum + 1) *
      (new.length + ((ds.filter (Spec.touched e (e + old.length))).map Diff.dlc).sum + 1) ≤ 2 ^ 24) :
    ∃ r, linesChanged hash ds old new e = Res.ok r ∧
      Describes b b S (P ++ new ++ Q) r.list ∧ Apart r.list ∧ (∀ d ∈ r.list, Fair d) ∧
      (∀ d ∈ r.inserted, Created d) ∧
      (∃ mid post, ds = r.pre ++ (mid ++ post) ∧ r.removed = mid ∧
        r.post = post.map (shiftBy ((new.length : Int) - old.length)) ∧
        (∀ d ∈ r.pre, d.trackingEnd ≤ e) ∧ (∀ d ∈ mid, e ≤ d.trackingEnd ∧ d.tracking ≤ e + old.length) ∧
        (∀ d ∈ post, e + old.length ≤ d.tracking)) ∧
      ∃ S1 Sm S3 T1 Tm T3, S = S1 ++ (Sm ++ S3) ∧ P ++ new ++ Q = T1 ++ (Tm ++ T3) ∧
        Describes b b S1 T1 r.pre ∧
        Describes (b + S1.length) (b + T1.length) Sm Tm r.inserted ∧
        Describes (b + S1.length + Sm.length) (b + T1.length + Tm.length) S3 T3 r.post ∧
        T1.length ≤ P.length ∧ T3.length ≤ Q.length ∧
        IsDistance false Sm Tm ((r.inserted.map Diff.slc).sum + (r.inserted.map Diff.dlc).sum) := by
  obtain ⟨r, h1, h2, h3, h4, h5, h6, S1, Sm, S3, T1, Tm, T3, k1, k2, k3, k4, k5, k6, k7, k8, _⟩ :=
    linesChanged_parts hash b S P old Q new ds e hdesc hapart hfair he hne hshortS hshortT hsz
  exact ⟨r, h1, h2, h3, h4, h5, h6, S1, Sm, S3, T1, Tm, T3, k1, k2, k3, k4, k5, k6, k7, k8⟩

end KompareDiff2
