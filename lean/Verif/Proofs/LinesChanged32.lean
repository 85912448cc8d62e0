import Verif.Model.LinesChanged32
import Verif.Proofs.LinesChanged
import Verif.Proofs.HeapEdit
import Verif.Proofs.Int32
import Verif.Proofs.Structure
/-
With all line numbers in range, `linesChanged32` computes what `linesChanged` computes.
-/
namespace KompareDiff2
open Spec

theorem narrow32_ok {x : Int} (h1 : -2147483648 ≤ x) (h2 : x ≤ maxInt) : narrow32 x = x := by
  unfold maxInt at h2
  unfold narrow32
  rw [Int.bmod_def]
  split <;> omega

/-- All numbers of a difference are natural `int`s. -/
structure InInt (d : Diff) : Prop where
  source : 0 ≤ d.sourceLineNo
  sourceEnd : d.sourceEnd ≤ maxInt
  tracking : 0 ≤ d.tracking
  trackingEnd : d.trackingEnd ≤ maxInt

theorem InInt.sourceEnd32 {d : Diff} (h : InInt d) : d.sourceEnd32 = d.sourceEnd := by
  have := h.source; have := h.sourceEnd
  unfold Diff.sourceEnd at *
  exact narrow32_ok (by omega) this

theorem InInt.trackingEnd32 {d : Diff} (h : InInt d) : d.trackingEnd32 = d.trackingEnd := by
  have := h.tracking; have := h.trackingEnd
  unfold Diff.trackingEnd at *
  exact narrow32_ok (by omega) this

theorem InInt.slc {d : Diff} (h : InInt d) : narrow32 d.slc = d.slc := by
  have := h.source; have := h.sourceEnd
  unfold Diff.sourceEnd at *
  exact narrow32_ok (by omega) (by omega)

theorem sliceN32_eq {α} (l : List α) (base : Int) (n : Nat) (i : Int) (hb : 0 ≤ base) (hb' : base ≤ maxInt) (hi : 0 ≤ i)
    (h : i + n ≤ maxInt) : sliceN32 l base n i = sliceN l n (i - base) := by
  unfold maxInt at *
  induction n generalizing i with
  | zero => rfl
  | succ n ih =>
    unfold sliceN32 sliceN
    rw [int32_ok (by omega) (by unfold maxInt; omega), Res.bind_ok]
    congr 1
    funext x
    rw [int32_ok (by omega) (by unfold maxInt; omega), Res.bind_ok, ih (i + 1) (by omega) (by push_cast at h; omega)]
    rw [show i + 1 - base = i - base + 1 by omega]

theorem sliceR32_eq {α} (l : List α) (base lo hi : Int) (hb : 0 ≤ base) (hb' : base ≤ maxInt) (hl : 0 ≤ lo) (hh : hi ≤ maxInt) :
    sliceR32 l base lo hi = sliceR l (lo - base) (hi - base) := by
  unfold sliceR32 sliceR
  rw [show hi - base - (lo - base) = hi - lo by omega]
  by_cases hlt : lo ≤ hi
  · exact sliceN32_eq l base _ lo hb hb' hl (by omega)
  · rw [show (hi - lo).toNat = 0 by omega]; rfl

theorem lcBefore32_eq {d : Diff} (h : InInt d) (e : Int) : lcBefore32 e d = lcBefore e d := by
  unfold lcBefore32 lcBefore
  rw [h.trackingEnd32]

theorem takeWhile_congr {α} {p q : α → Bool} {l : List α} (h : ∀ x ∈ l, p x = q x) : l.takeWhile p = l.takeWhile q := by
  induction l with
  | nil => rfl
  | cons x xs ih =>
    rw [List.takeWhile_cons, List.takeWhile_cons, h x (List.mem_cons_self ..), ih (fun y hy => h y (List.mem_cons_of_mem _ hy))]

theorem dropWhile_congr {α} {p q : α → Bool} {l : List α} (h : ∀ x ∈ l, p x = q x) : l.dropWhile p = l.dropWhile q := by
  induction l with
  | nil => rfl
  | cons x xs ih =>
    rw [List.dropWhile_cons, List.dropWhile_cons, h x (List.mem_cons_self ..), ih (fun y hy => h y (List.mem_cons_of_mem _ hy))]

theorem lcLineNumbers32_eq {all rest : List Diff} {e : Int} (ha : ∀ d ∈ all, InInt d) (hr : ∀ d ∈ rest, InInt d) (h0 : 0 ≤ e) (h1 : e ≤ maxInt)
    (lo : 0 ≤ (lcLineNumbers all rest e).1) (hi : (lcLineNumbers all rest e).1 ≤ maxInt) :
    lcLineNumbers32 all rest e = Res.ok (lcLineNumbers all rest e) := by
  unfold lcLineNumbers32
  unfold lcLineNumbers at *
  cases rest with
  | nil =>
    cases hl : all.getLast? with
    | none => rfl
    | some l =>
      simp only [hl] at lo hi ⊢
      have k := ha l (List.mem_of_getLast? hl)
      have k1 := k.trackingEnd; have k2 := k.tracking
      rw [k.trackingEnd32, k.sourceEnd32]
      unfold Diff.trackingEnd at *
      rw [int32_ok (by unfold maxInt at *; omega) (by unfold maxInt at *; omega), Res.bind_ok, int32_ok (by omega) hi, Res.bind_ok]
  | cons d ds =>
    have k := hr d (List.mem_cons_self ..)
    have k1 := k.trackingEnd; have k2 := k.tracking
    unfold Diff.trackingEnd at k1
    dsimp only at lo hi ⊢
    split at lo <;> rename_i hc
    · rw [if_pos hc] at hi ⊢
      dsimp only at lo hi
      rw [int32_ok (by unfold maxInt at *; omega) (by unfold maxInt at *; omega), Res.bind_ok, int32_ok (by omega) hi, Res.bind_ok, if_pos hc]
    · rw [if_neg hc, if_neg hc]

theorem lcDestLines32_eq {first last : Diff} (hf : InInt first) (hl : InInt last) (new : List Str) {e E : Int} (h0 : 0 ≤ e) (hE : e ≤ E) (hM : E ≤ maxInt) :
    lcDestLines32 first last new e E = lcDestLines first last new e E := by
  have a := hf.tracking; have b := hf.trackingEnd; have c := hl.tracking; have d := hl.trackingEnd
  unfold lcDestLines32 lcDestLines
  rw [hl.trackingEnd32]
  unfold Diff.trackingEnd at *
  rw [sliceR32_eq _ _ _ _ a (by omega) a (by omega), sliceR32_eq _ _ _ _ c (by omega) (by omega) d]

theorem sliceR_all {α} (l : List α) : sliceR l 0 (l.length : Int) = Res.ok l := by
  have := sliceR_ok l 0 l.length (by omega) (by omega)
  simpa using this

theorem lcSourceLoop32_eq (old : List Str) {e E : Int} (h0 : 0 ≤ e) (hE : e ≤ E) (hM : E ≤ maxInt) (ds : List Diff) (h : ∀ d ∈ ds, InInt d) :
    lcSourceLoop32 old e E ds = lcSourceLoop old e E ds := by
  induction ds with
  | nil => rfl
  | cons d ds ih =>
    have k := h d (List.mem_cons_self ..)
    have a := k.tracking; have b := k.trackingEnd; have c := k.source; have c' := k.sourceEnd
    unfold lcSourceLoop32 lcSourceLoop
    have own : ownLines32 d = Res.ok (if d.applied = true then d.srcText else []) := by
      unfold ownLines32
      split
      · rw [k.slc, sliceR32_eq _ _ _ _ (Int.le_refl _) (by unfold maxInt; omega) (Int.le_refl _)
          (by unfold Diff.sourceEnd at c'; omega)]
        have : d.slc = d.srcText.length := by unfold Diff.slc Diff.srcText; simp
        rw [this]
        simpa using sliceR_all d.srcText
      · rfl
    rw [k.trackingEnd32]
    dsimp only
    rw [own, Res.bind_ok]
    have lo : 0 ≤ (if d.applied = true then d.trackingEnd else if d.tracking < e then e else d.tracking) := by
      unfold Diff.trackingEnd; split
      · omega
      · split <;> omega
    have key : ∀ (hi : Int), hi ≤ maxInt → sliceR32 old e (if d.applied = true then d.trackingEnd else if d.tracking < e then e else d.tracking) hi =
        sliceR old ((if d.applied = true then d.trackingEnd else if d.tracking < e then e else d.tracking) - e) (hi - e) :=
      fun hi hh => sliceR32_eq _ _ _ _ h0 (by omega) lo hh
    have again := ih (fun x hx => h x (List.mem_cons_of_mem _ hx))
    cases ds with
    | nil => dsimp only; rw [key E hM, again]
    | cons n ns =>
      have q := h n (by simp)
      have q1 := q.trackingEnd
      unfold Diff.trackingEnd at q1
      dsimp only
      rw [key n.tracking (by omega), again]

theorem lcBlocks32_eq {A : List Diff} (old new : List Str) {e E : Int} (h0 : 0 ≤ e) (hE : e ≤ E) (hM : E ≤ maxInt) (h : ∀ d ∈ A, InInt d) :
    lcBlocks32 A old new e E = lcBlocks A old new e E := by
  unfold lcBlocks32 lcBlocks
  cases A with
  | nil => rfl
  | cons a A =>
    have k := h a (List.mem_cons_self ..)
    have k1 := k.trackingEnd
    unfold Diff.trackingEnd at k1
    dsimp only
    rw [lcDestLines32_eq k (h _ (List.getLast_mem _)) new h0 hE hM, lcSourceLoop32_eq old h0 hE hM _ h,
      sliceR32_eq _ _ _ _ h0 (by omega) h0 (by omega)]

theorem computeDiffStats32_eq {d : Diff} (h1 : (d.slc : Int) ≤ maxInt) (h2 : (d.dlc : Int) ≤ maxInt) : computeDiffStats32 d = computeDiffStats d := by
  unfold computeDiffStats32 computeDiffStats
  rw [narrow32_ok (by omega) h1, narrow32_ok (by omega) h2]
  simp only [gt_iff_lt, Int.natCast_pos]

theorem computeDiffStats_view {d d' : Diff} (h : computeDiffStats d = Res.ok d') :
    d'.sourceLineNo = d.sourceLineNo ∧ d'.destLineNo = d.destLineNo ∧ d'.slc = d.slc ∧ d'.dlc = d.dlc := by
  unfold computeDiffStats at h
  dsimp only at h
  have v := determineInline_view h
  have e1 := congrArg DView.srcLine v
  have e2 := congrArg DView.dstLine v
  have e3 := congrArg (fun v => v.src.length) v
  have e4 := congrArg (fun v => v.dst.length) v
  simp only [view_slc, view_dlc] at e3 e4
  refine ⟨e1.trans ?_, e2.trans ?_, e3.trans ?_, e4.trans ?_⟩ <;> (split; rfl; split; rfl; split <;> rfl)

theorem nextOffset32_eq {ms : List Marker} {B : Nat} (hB : (B : Int) ≤ maxInt) (h : ∀ m ∈ ms, m.offset ≤ B) {x : Int} :
    nextOffset32 ms x = nextOffset ms x := by
  cases ms with
  | nil => rfl
  | cons m ms =>
    have := h m (List.mem_cons_self ..)
    exact narrow32_ok (by omega) (by omega)

theorem nextOffset_bounds {ms : List Marker} {B : Nat} (h : ∀ m ∈ ms, m.offset ≤ B) : 0 ≤ nextOffset ms B ∧ nextOffset ms B ≤ B := by
  cases ms with
  | nil => exact ⟨Int.natCast_nonneg B, Int.le_refl _⟩
  | cons m ms =>
    have := h m (List.mem_cons_self ..)
    show 0 ≤ (m.offset : Int) ∧ (m.offset : Int) ≤ B
    omega

/-- One side: the same result, and the new current line is in range again. -/
theorem lcSide32_eq {lines : List Str} {ms : List Marker} {B : Nat} (hB : (B : Int) ≤ maxInt) (h : ∀ m ∈ ms, m.offset ≤ B) {next cur : Int}
    (h0 : 0 ≤ cur) (h1 : cur ≤ B) {l : List Str} {ms' : List Marker} {cur' : Int} (hs : lcSide lines ms next cur = Res.ok (l, ms', cur')) :
    lcSide32 lines ms next cur = Res.ok (l, ms', cur') ∧ (∀ m ∈ ms', m.offset ≤ B) ∧ 0 ≤ cur' ∧ cur' ≤ B := by
  unfold lcSide32
  unfold lcSide at hs
  by_cases hc : next = cur
  · rw [if_pos hc] at hs ⊢
    unfold processStartMarker32
    unfold processStartMarker at hs
    match ms, h, hs with
    | s :: e :: r, h, hs =>
      have he := h e (by simp)
      dsimp only at hs ⊢
      obtain ⟨x, hx, hs⟩ := Res.bind_eq_ok.1 hs
      have q := Res.ok.inj hs
      simp only [Prod.mk.injEq] at q
      obtain ⟨rfl, rfl, rfl⟩ := q
      rw [narrow32_ok (by omega) (by omega), sliceR32_eq _ _ _ _ (Int.le_refl _) (by unfold maxInt; omega) h0 (by omega)]
      simp only [Int.sub_zero]
      rw [hx, Res.bind_ok]
      exact ⟨rfl, fun m hm => h m (by simp [hm]), by omega, by omega⟩
    | [_], _, hs => cases hs
    | [], _, hs => cases hs
  · rw [if_neg hc] at hs ⊢
    have q := Res.ok.inj hs
    simp only [Prod.mk.injEq] at q
    obtain ⟨rfl, rfl, rfl⟩ := q
    exact ⟨rfl, h, h0, h1⟩

theorem lcMarkerLoop32_eq (src dst : List Str) (sNo dNo : Int) (h0 : 0 ≤ sNo) (h0' : 0 ≤ dNo) (B : Nat) (hB : B = src.length + dst.length + 1) (hM : (B : Int) ≤ maxInt) (fuel : Nat)
    (sm dm : List Marker) (cs cd : Int) (hs : ∀ m ∈ sm, m.offset ≤ B) (hd : ∀ m ∈ dm, m.offset ≤ B) (c1 : 0 ≤ cs) (c2 : cs ≤ B)
    (c3 : 0 ≤ cd) (c4 : cd ≤ B) {l : List Diff} (h : lcMarkerLoop src dst sNo dNo fuel sm dm cs cd = Res.ok l)
    (hl : ∀ d ∈ l, sNo ≤ d.sourceLineNo ∧ d.sourceLineNo + d.slc ≤ maxInt ∧ dNo ≤ d.destLineNo ∧ d.destLineNo + d.dlc ≤ maxInt) :
    lcMarkerLoop32 src dst sNo dNo fuel sm dm cs cd = Res.ok l := by
  induction fuel generalizing sm dm cs cd l with
  | zero => cases h
  | succ fuel ih =>
    unfold lcMarkerLoop at h
    unfold lcMarkerLoop32
    by_cases hn : sm = [] ∧ dm = []
    · rw [if_pos hn] at h ⊢; exact h
    · rw [if_neg hn] at h ⊢
      dsimp only at h ⊢
      have eB : ((src.length : Int) + dst.length + 1) = (B : Int) := by omega
      rw [eB] at h ⊢
      rw [narrow32_ok (by omega) hM, nextOffset32_eq hM hs, nextOffset32_eq hM hd]
      obtain ⟨s1, s2⟩ := nextOffset_bounds hs
      obtain ⟨d1, d2⟩ := nextOffset_bounds hd
      generalize nextOffset sm B = nS at *
      generalize nextOffset dm B = nD at *
      obtain ⟨⟨sl, sm', cs'⟩, e1, h⟩ := Res.bind_eq_ok.1 h
      dsimp only at h
      obtain ⟨⟨dl, dm', cd'⟩, e2, h⟩ := Res.bind_eq_ok.1 h
      dsimp only at h
      obtain ⟨df, e3, h⟩ := Res.bind_eq_ok.1 h
      obtain ⟨rest, e4, h⟩ := Res.bind_eq_ok.1 h
      have hh := Res.ok.inj h
      subst hh
      obtain ⟨v1, v2, v3, v4⟩ := computeDiffStats_view e3
      rw [foldl_addSource, foldl_addDest] at v1 v2 v3 v4
      have bnd := hl _ (List.mem_cons_self ..)
      have q1 : ∀ d : Diff, (d.applyQuietly true).sourceLineNo = d.sourceLineNo ∧ (d.applyQuietly true).destLineNo = d.destLineNo ∧
          (d.applyQuietly true).slc = d.slc ∧ (d.applyQuietly true).dlc = d.dlc := by
        intro d; unfold Diff.applyQuietly; split <;> exact ⟨rfl, rfl, rfl, rfl⟩
      obtain ⟨w1, w2, w3, w4⟩ := q1 df
      have f1 : sNo ≤ df.sourceLineNo ∧ df.sourceLineNo + df.slc ≤ maxInt ∧ dNo ≤ df.destLineNo ∧ df.destLineNo + df.dlc ≤ maxInt := by
        rw [← w1, ← w2, ← w3, ← w4]; exact bnd
      simp only [Diff.new] at v1 v2
      unfold maxInt at hM f1
      have m1 : min (nD - cd) (nS - cs) ≤ nD - cd := Int.min_le_left ..
      have m2 : min (nD - cd) (nS - cs) ≤ nS - cs := Int.min_le_right ..
      generalize hsk : min (nD - cd) (nS - cs) = skip at *
      rw [int32_ok (by omega) (by unfold maxInt; omega), Res.bind_ok, int32_ok (by omega) (by unfold maxInt; omega), Res.bind_ok]
      rw [hsk, int32_ok (by omega) (by unfold maxInt; omega), Res.bind_ok, int32_ok (by omega) (by unfold maxInt; omega), Res.bind_ok,
        int32_ok (by omega) (by unfold maxInt; omega), Res.bind_ok, int32_ok (by omega) (by unfold maxInt; omega), Res.bind_ok]
      obtain ⟨a1, a2, a3, a4⟩ := lcSide32_eq (by unfold maxInt; omega) hs (by omega) (by omega) e1
      obtain ⟨b1, b2, b3, b4⟩ := lcSide32_eq (by unfold maxInt; omega) hd (by omega) (by omega) e2
      rw [a1, Res.bind_ok]
      dsimp only
      rw [b1, Res.bind_ok]
      dsimp only
      rw [computeDiffStats32_eq (by rw [foldl_addSource, foldl_addDest, ← v3]; unfold maxInt; omega)
        (by rw [foldl_addSource, foldl_addDest, ← v4]; unfold maxInt; omega), e3, Res.bind_ok,
        ih sm' dm' cs' cd' a2 b2 a3 a4 b3 b4 e4 (fun d hd => hl d (List.mem_cons_of_mem _ hd)), Res.bind_ok]

theorem ranges_offsets {len lo : Nat} {R : List (Nat × Nat)} (h : RangesFrom len lo R) : ∀ m ∈ markersOf R, m.offset ≤ len := by
  induction R generalizing lo with
  | nil => intro m hm; cases hm
  | cons p R ih =>
    obtain ⟨s, e⟩ := p
    obtain ⟨h1, h2, h3, h4⟩ := h
    intro m hm
    rw [markersOf_cons] at hm
    rcases List.mem_cons.1 hm with rfl | hm
    · show s ≤ len; omega
    · rcases List.mem_cons.1 hm with rfl | hm
      · exact h3
      · exact ih h4 m hm

/-- The differences created for a pair of blocks. -/
theorem lcInserted32_eq (hash : Str → Nat) (src dst : List Str) (sNo dNo : Int) (h0 : 0 ≤ sNo) (h0' : 0 ≤ dNo)
    (hsz : (src.length + 1) * (dst.length + 1) ≤ 2 ^ 24) {l : List Diff} (h : lcInserted hash src dst sNo dNo = Res.ok l)
    (hl : ∀ d ∈ l, sNo ≤ d.sourceLineNo ∧ d.sourceLineNo + d.slc ≤ maxInt ∧ dNo ≤ d.destLineNo ∧ d.destLineNo + d.dlc ≤ maxInt) :
    lcInserted32 hash src dst sNo dNo = Res.ok l := by
  obtain ⟨t', ht, hf⟩ := createTable_filled LTable.init_valid (stringListPair_of hash (hash []) src dst) hsz
  obtain ⟨R1, R2, hm, r1, r2, r3, r4⟩ := lineMarkers (p := stringListPair hash (hash []) src dst) hf rfl (fun _ => rfl) rfl rfl
  unfold lcInserted at h
  unfold lcInserted32
  simp only [ht, Res.bind_ok, hm] at h ⊢
  have b1 : src.length + dst.length + 1 ≤ 2 ^ 24 := by
    refine Nat.le_trans ?_ hsz
    rw [Nat.mul_add, Nat.add_mul]
    have : 0 ≤ src.length * dst.length := Nat.zero_le _
    omega
  refine lcMarkerLoop32_eq src dst sNo dNo h0 h0' (src.length + dst.length + 1) rfl (by unfold maxInt; omega) _ _ _ _ _ ?_ ?_ (Int.le_refl _) (by omega)
    (Int.le_refl _) (by omega) h hl
  · intro m hm; have := ranges_offsets r1 m hm; omega
  · intro m hm; have := ranges_offsets r2 m hm; omega

theorem Spec.Describes.inInt {s t S T ds} (h : Describes s t S T ds) (hf : ∀ d ∈ ds, Fair d) (hs : 0 ≤ s) (ht : 0 ≤ t)
    (hS : s + S.length ≤ maxInt) (hT : t + T.length ≤ maxInt) : ∀ d ∈ ds, InInt d := by
  intro d hd
  have a := h.srcBounds d hd
  have b := h.bounds d hd
  rw [curEnd_fair (hf d hd)] at b
  exact ⟨by omega, by omega, by omega, by omega⟩

/-- When the texts before and after the edit and the source text end within `int`, the edit computes the unbounded result. -/
theorem linesChanged32_ok (hash : Str → Nat) (b : Int) (S P old Q new : List Str) (ds : List Diff) (e : Int)
    (hdesc : Describes b b S (P ++ old ++ Q) ds) (hapart : Apart ds) (hfair : ∀ d ∈ ds, Fair d) (he : e = b + P.length)
    (hshortS : ∀ l ∈ S, ShortLine l) (hshortT : ∀ l ∈ P ++ new ++ Q, ShortLine l)
    (hsz : (old.length + ((ds.filter (Spec.touched e (e + old.length))).map Diff.slc).sum + 1) *
      (new.length + ((ds.filter (Spec.touched e (e + old.length))).map Diff.dlc).sum + 1) ≤ 2 ^ 24)
    (h0 : 0 ≤ b) (h1 : b + S.length ≤ maxInt) (h2 : b + (P ++ old ++ Q).length ≤ maxInt) (h3 : b + (P ++ new ++ Q).length ≤ maxInt) :
    linesChanged32 hash ds old new e = linesChanged hash ds old new e ∧
      ∀ d ∈ ds, e + old.length ≤ d.tracking → retrack32 old new d = { d with tracking := d.tracking + ((new.length : Int) - old.length) } := by
  have hin := hdesc.inInt hfair h0 h0 h1 h2
  have back : ∀ d ∈ ds, e + old.length ≤ d.tracking → retrack32 old new d = { d with tracking := d.tracking + ((new.length : Int) - old.length) } := by
    intro d hd ht
    have k := hdesc.bounds d hd
    have k1 := (hin d hd)
    have k2 := k1.trackingEnd
    rw [curEnd_fair (hfair d hd)] at k
    unfold Diff.trackingEnd at k k2
    unfold retrack32
    simp only [List.length_append] at h2 h3 k
    have q1 := k1.tracking
    rw [narrow32_ok (by omega) (by omega)]
  refine ⟨?_, back⟩
  by_cases hne : old = [] ∧ new = []
  · unfold linesChanged32 linesChanged
    rw [if_pos hne, if_pos hne]
  · obtain ⟨r, r1, r2, r3, r4, r5, ⟨mid, post, p1, p2, p3, p4, p5, p6⟩, S1, Sm, S3, T1, Tm, T3, k1, k2, k3, k4, k5, k6, k7, k8, k9, k10, k11, k12⟩ :=
      linesChanged_parts hash b S P old Q new ds e hdesc hapart hfair he hne hshortS hshortT hsz
    unfold linesChanged32 linesChanged
    rw [if_neg hne, if_neg hne]
    have hlen : e + old.length ≤ maxInt := by simp only [List.length_append] at h2; omega
    dsimp only
    rw [narrow32_ok (by omega) hlen, takeWhile_congr (fun d hd => lcBefore32_eq (hin d hd) e), dropWhile_congr (fun d hd => lcBefore32_eq (hin d hd) e)]
    have hrest : ∀ d ∈ ds.dropWhile (lcBefore e), InInt d := fun d hd => hin d ((List.dropWhile_suffix _).subset hd)
    have lS : (S.length : Int) = S1.length + (Sm.length + S3.length) := by rw [k1]; simp
    have lT : ((P ++ new ++ Q).length : Int) = T1.length + (Tm.length + T3.length) := by rw [k2]; simp
    rw [lcLineNumbers32_eq hin hrest (by omega) (by omega) (by rw [k9]; dsimp only; omega) (by rw [k9]; dsimp only; omega), Res.bind_ok,
      lcBlocks32_eq old new (by omega) (by omega) hlen
        (fun d hd => hrest d ((List.takeWhile_prefix _).subset (List.mem_filter.1 hd).1)), k10, Res.bind_ok, Res.bind_ok]
    dsimp only
    have hins : lcInserted32 hash Sm Tm (b + S1.length) (b + T1.length) = Res.ok r.inserted := by
      refine lcInserted32_eq hash Sm Tm _ _ (by omega) (by omega) k12 k11 (fun d hd => ?_)
      have c := r5 d hd
      have f1 : Fair d := ⟨c.nonempty, fun q => by rw [c.applied] at q; cases q⟩
      have a1 := k4.srcBounds d hd
      have a2 := k4.bounds d hd
      rw [curEnd_fair f1] at a2
      unfold Diff.sourceEnd at a1
      unfold Diff.trackingEnd at a2
      rw [c.tracking]
      omega
    rw [k9]
    dsimp only
    rw [hins, k11, Res.bind_ok, Res.bind_ok]
    congr 2
    refine List.map_congr_left (fun d hd => back d ((List.dropWhile_suffix _).subset ((List.dropWhile_suffix _).subset hd)) ?_)
    have f := found ds e (e + old.length)
    exact f.post_all hdesc d hd

theorem Heap.modifyAll_congr (f g : Diff → Diff) (ids : List Nat) (h : Heap) (hn : ids.Nodup) (hfg : ∀ i ∈ ids, f (h.cell i) = g (h.cell i)) :
    h.modifyAll f ids = h.modifyAll g ids := by
  induction ids generalizing h with
  | nil => rfl
  | cons i is ih =>
    obtain ⟨n1, n2⟩ := List.nodup_cons.1 hn
    have e : h.modify i f = h.modify i g := by unfold Heap.modify; rw [hfg i (List.mem_cons_self ..)]
    simp only [Heap.modifyAll]
    rw [e]
    refine ih _ n2 (fun j hj => ?_)
    have : j ≠ i := fun q => n1 (q ▸ hj)
    have e2 : (h.modify i g).cell j = h.cell j := by simp [Heap.modify, this]
    rw [e2]
    exact hfg j (List.mem_cons_of_mem _ hj)

end KompareDiff2
