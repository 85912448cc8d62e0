import Verif.Proofs.InlineMarkers
import Verif.Proofs.TableSafety
/-
C01–C06: the edit-distance table and its marker lists.
-/
namespace KompareDiff2
open Spec

/-- The table objects a program can hold: a fresh one, or one on which `createTable` has returned
(any number of times, for any sequences). -/
inductive LTable.Reach : LTable → Prop where
  | init : LTable.Reach LTable.init
  | step {t p r t'} : LTable.Reach t → t.createTable p = Res.ok (r, t') → LTable.Reach t'

theorem LTable.Reach.valid {t : LTable} (h : t.Reach) : t.Valid := by
  induction h with
  | init =>
    refine ⟨?_, by decide⟩
    rw [LTable.init, List.length_replicate]
  | step _ h ih => exact LTable.createTable_valid ih h

/-- Two strings used in the examples. -/
def exKitten : List Char := ['k', 'i', 't', 't', 'e', 'n']
def exSitting : List Char := ['s', 'i', 't', 't', 'i', 'n', 'g']

/-- **C01.** The distance returned for two strings is the least cost of any edit script with insertion,
deletion and replacement at cost 1, whatever the table was used for before. -/
theorem C01_inline_distance_exact {α : Type} [DecidableEq α] (t : LTable) (ht : t.Reach)
    (pad : α) (a b : List α) (mf ms : List Marker)
    (hsz : (a.length + 1) * (b.length + 1) ≤ 2 ^ 24) :
    ∃ d t', t.createTable (differenceStringPair pad a b mf ms) = Res.ok (d, t') ∧ IsDistance true a b d := by
  obtain ⟨t', h, _⟩ := createTable_filled ht.valid (differenceStringPair_of pad a b mf ms) hsz
  exact ⟨_, t', h, isDistance_D true a b⟩

example : ∃ d t', LTable.init.createTable (differenceStringPair ' ' exKitten exSitting [] []) = Res.ok (d, t') ∧
    IsDistance true exKitten exSitting d :=
  C01_inline_distance_exact _ .init _ _ _ _ _ (by decide)

/-- The distance in the example really is 3. -/
example : IsDistance true exKitten exSitting 3 := by
  have := isDistance_D true exKitten exSitting
  have h : D true exKitten exSitting exKitten.length exSitting.length = 3 := by simp [D, mis, exKitten, exSitting]
  rwa [h] at this

/-- **C02.** The distance returned for two line lists is the least number of line insertions and deletions. -/
theorem C02_line_distance_exact {α : Type} [DecidableEq α] (t : LTable) (ht : t.Reach)
    (hash : α → Nat) (h0 : Nat) (a b : List α)
    (hsz : (a.length + 1) * (b.length + 1) ≤ 2 ^ 24) :
    ∃ d t', t.createTable (stringListPair hash h0 a b) = Res.ok (d, t') ∧ IsDistance false a b d := by
  obtain ⟨t', h, _⟩ := createTable_filled ht.valid (stringListPair_of hash h0 a b) hsz
  exact ⟨_, t', h, isDistance_D false a b⟩

example : IsDistance false exKitten exSitting 5 := by
  have := isDistance_D false exKitten exSitting
  have h : D false exKitten exSitting exKitten.length exSitting.length = 5 := by simp [D, mis, exKitten, exSitting]
  rwa [h] at this

/-- What a caller does: build the table for two line lists, then ask for the marker lists. -/
def lineMarkerRun {α : Type} [DecidableEq α] (t : LTable) (hash : α → Nat) (h0 : Nat) (a b : List α) :
    Res (List Marker × List Marker) := do
  let p := stringListPair hash h0 a b
  let r ← t.createTable p
  r.2.createListsOfMarkers p

theorem lineMarkerRun_ok {α : Type} [DecidableEq α] (t : LTable) (ht : t.Reach)
    (hash : α → Nat) (h0 : Nat) (a b : List α) (hsz : (a.length + 1) * (b.length + 1) ≤ 2 ^ 24) :
    ∃ R1 R2, lineMarkerRun t hash h0 a b = Res.ok (markersOf R1, markersOf R2) ∧
      RangesFrom a.length 0 R1 ∧ RangesFrom b.length 0 R2 ∧ outside R1 a = outside R2 b ∧
      rangesSize R1 + rangesSize R2 = D false a b a.length b.length := by
  obtain ⟨t', h, hf⟩ := createTable_filled ht.valid (stringListPair_of hash h0 a b) hsz
  unfold lineMarkerRun
  simp only [h, Res.bind_ok]
  exact lineMarkers hf rfl (fun _ => rfl) rfl rfl

/-- **C03.** The marker lists of two line lists are well formed: each is `Start, End, Start, End, …` with
`start < end ≤ length`, and successive ranges are separated by at least one unmarked line. -/
theorem C03_line_markers_wellformed {α : Type} [DecidableEq α] (t : LTable) (ht : t.Reach)
    (hash : α → Nat) (h0 : Nat) (a b : List α) (hsz : (a.length + 1) * (b.length + 1) ≤ 2 ^ 24) :
    ∃ R1 R2, lineMarkerRun t hash h0 a b = Res.ok (markersOf R1, markersOf R2) ∧
      RangesFrom a.length 0 R1 ∧ RangesFrom b.length 0 R2 := by
  obtain ⟨R1, R2, h, h1, h2, _⟩ := lineMarkerRun_ok t ht hash h0 a b hsz
  exact ⟨R1, R2, h, h1, h2⟩

example : ∃ R1 R2, lineMarkerRun LTable.init (fun c : Char => c.toNat) 0 exKitten exSitting =
    Res.ok (markersOf R1, markersOf R2) ∧ RangesFrom 6 0 R1 ∧ RangesFrom 7 0 R2 :=
  C03_line_markers_wellformed _ .init _ _ exKitten exSitting (by decide)

/-- **C04.** The lines outside of the marked ranges are the same on both sides, and the number of marked
lines is the least number of insertions and deletions. -/
theorem C04_line_markers_shortest {α : Type} [DecidableEq α] (t : LTable) (ht : t.Reach)
    (hash : α → Nat) (h0 : Nat) (a b : List α) (hsz : (a.length + 1) * (b.length + 1) ≤ 2 ^ 24) :
    ∃ R1 R2, lineMarkerRun t hash h0 a b = Res.ok (markersOf R1, markersOf R2) ∧
      outside R1 a = outside R2 b ∧ IsDistance false a b (rangesSize R1 + rangesSize R2) := by
  obtain ⟨R1, R2, h, _, _, h3, h4⟩ := lineMarkerRun_ok t ht hash h0 a b hsz
  refine ⟨R1, R2, h, h3, ?_⟩
  rw [h4]; exact isDistance_D false a b

/-- A caller of the inline comparison (`Difference::determineInlineDifferences`, difference.cpp:225-231) for one pair of
lines that carry no markers yet. -/
def inlineMarkerRun {α : Type} [DecidableEq α] (t : LTable) (pad : α) (a b : List α) :
    Res (Nat × List Marker × List Marker) := do
  let p := differenceStringPair pad a b [] []
  let r ← t.createTable p
  let m ← r.2.createListsOfMarkers p
  Res.ok (r.1, m)

/-- **C05.** Reading the two marker lists (`changedAt`), the unchanged characters of both strings form the same
sequence, and on neither side are more characters marked than the edit distance, when the distance is at most half
of the longer (padded) length; otherwise both strings are marked as changed in full. -/
theorem C05_inline_markers_isolate_changes {α : Type} [DecidableEq α] (t : LTable) (ht : t.Reach)
    (pad : α) (a b : List α) (hsz : (a.length + 1) * (b.length + 1) ≤ 2 ^ 24) :
    ∃ d m1 m2, inlineMarkerRun t pad a b = Res.ok (d, m1, m2) ∧ IsDistance true a b d ∧
      (d ≤ max (a.length + 1) (b.length + 1) / 2 →
        unmarkedFrom (changedAt m1) 0 a = unmarkedFrom (changedAt m2) 0 b ∧
        markedFrom (changedAt m1) 0 a ≤ d ∧ markedFrom (changedAt m2) 0 b ≤ d) ∧
      (¬ d ≤ max (a.length + 1) (b.length + 1) / 2 →
        m1 = markersOf [(0, a.length)] ∧ m2 = markersOf [(0, b.length)]) := by
  obtain ⟨t', h, hf⟩ := createTable_filled ht.valid (differenceStringPair_of pad a b [] []) hsz
  unfold inlineMarkerRun
  simp only [h, Res.bind_ok]
  obtain ⟨m1, m2, hm, hcoarse, hfine⟩ := inlineMarkers (p := differenceStringPair pad a b [] []) hf rfl rfl rfl
  refine ⟨_, m1, m2, by rw [hm]; rfl, isDistance_D true a b, ?_, ?_⟩
  · intro hd
    exact hfine (by simp only [differenceStringPair, decide_eq_true_eq]; exact hd)
  · intro hd
    exact hcoarse (by simp only [differenceStringPair, decide_eq_false_iff_not]; exact hd)

example : ∃ d m1 m2, inlineMarkerRun LTable.init ' ' exKitten exSitting = Res.ok (d, m1, m2) ∧
    unmarkedFrom (changedAt m1) 0 exKitten = unmarkedFrom (changedAt m2) 0 exSitting := by
  obtain ⟨d, m1, m2, h, hd, hfine, _⟩ :=
    C05_inline_markers_isolate_changes _ .init ' ' exKitten exSitting (by decide)
  have h3 : IsDistance true exKitten exSitting 3 := by
    have := isDistance_D true exKitten exSitting
    have h : D true exKitten exSitting exKitten.length exSitting.length = 3 := by
      simp [D, mis, exKitten, exSitting]
    rwa [h] at this
  have : d ≤ 3 := hd.2 3 h3.1
  exact ⟨d, m1, m2, h, (hfine (by simp [exKitten, exSitting]; omega)).1⟩

/-- **C06.** Exact memory behaviour of `createTable` for sequences whose padded lengths fit `unsigned int`:
* product at most 2^24: no out-of-bounds access (it returns);
* product (mod 2^32) above 2^24: returns 0 and the table object is unchanged;
* product at least 2^32 that wraps to at most 2^24: undefined behaviour. -/
theorem C06_table_memory {α : Type} [DecidableEq α] (t : LTable) (ht : t.Reach) (p : SeqPair) (a b : List α)
    (hp : p.Of a b) (ha : a.length + 1 < 2 ^ 32) (hb : b.length + 1 < 2 ^ 32) :
    ((a.length + 1) * (b.length + 1) ≤ 2 ^ 24 → ∃ r, t.createTable p = Res.ok r) ∧
    (((a.length + 1) * (b.length + 1)) % 2 ^ 32 > 2 ^ 24 → t.createTable p = Res.ok (0, t)) ∧
    ((a.length + 1) * (b.length + 1) ≥ 2 ^ 32 → ((a.length + 1) * (b.length + 1)) % 2 ^ 32 ≤ 2 ^ 24 →
      t.createTable p = Res.ub) := by
  refine ⟨?_, ?_, ?_⟩
  · intro h
    obtain ⟨t', h', _⟩ := createTable_filled ht.valid hp h
    exact ⟨_, h'⟩
  · intro h
    unfold LTable.createTable LTable.setSize
    rw [hp.lenF, hp.lenS]
    have hu : uintMod = 2 ^ 32 := rfl
    have h24 : (2:Nat)^24 = 256*256*256 := by decide
    rw [if_pos (by rw [hu]; omega)]
  · intro h1 h2
    apply LTable.createTable_wrap ht.valid <;> simp only [hp.lenF, hp.lenS] <;> assumption

/-- Undefined behaviour occurs exactly for the wrapping products. -/
theorem C06_table_ub_iff {α : Type} [DecidableEq α] (t : LTable) (ht : t.Reach) (p : SeqPair) (a b : List α)
    (hp : p.Of a b) (ha : a.length + 1 < 2 ^ 32) (hb : b.length + 1 < 2 ^ 32) :
    t.createTable p = Res.ub ↔
      (a.length + 1) * (b.length + 1) ≥ 2 ^ 32 ∧ ((a.length + 1) * (b.length + 1)) % 2 ^ 32 ≤ 2 ^ 24 := by
  obtain ⟨h1, h2, h3⟩ := C06_table_memory t ht p a b hp ha hb
  constructor
  · intro h
    by_cases hbig : ((a.length + 1) * (b.length + 1)) % 2 ^ 32 > 2 ^ 24
    · rw [h2 hbig] at h; cases h
    · refine ⟨?_, by omega⟩
      by_cases hge : (a.length + 1) * (b.length + 1) ≥ 2 ^ 32
      · exact hge
      · rw [Nat.mod_eq_of_lt (by omega)] at hbig
        obtain ⟨r, hr⟩ := h1 (by omega)
        rw [hr] at h; cases h
  · rintro ⟨k1, k2⟩; exact h3 k1 k2

/-- Two strings of 65535 characters each are such a case. -/
theorem C06_wraparound_counterexample (t : LTable) (ht : t.Reach) (c d : Char) :
    t.createTable (differenceStringPair ' ' (List.replicate 65535 c) (List.replicate 65535 d) [] []) = Res.ub := by
  refine (C06_table_ub_iff t ht _ _ _ (differenceStringPair_of _ _ _ _ _) ?_ ?_).2 ⟨?_, ?_⟩ <;>
    simp only [List.length_replicate] <;> decide

end KompareDiff2
