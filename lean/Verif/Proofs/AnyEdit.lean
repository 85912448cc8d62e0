import Verif.Props.LinesChanged
import Verif.Proofs.LinesChanged32
import Verif.Proofs.TableSafety
/-
What `linesChanged` inserts, for every model and every edit on which it returns.
-/
namespace KompareDiff2
open Spec

theorem sliceN_length {α} (l : List α) : ∀ (n : Nat) (lo : Int) (r : List α), sliceN l n lo = Res.ok r → r.length = n := by
  intro n
  induction n with
  | zero => intro lo r h; simp only [sliceN] at h; cases h; rfl
  | succ n ih =>
    intro lo r h
    simp only [sliceN, Res.bind_eq_ok] at h
    obtain ⟨x, _, xs, h2, h3⟩ := h
    cases h3
    simp [ih _ _ h2]

/-- Every range contains a line. -/
def Solid (R : List (Nat × Nat)) : Prop := ∀ p ∈ R, p.1 < p.2

theorem solid_of_ranges {len : Nat} : ∀ {R : List (Nat × Nat)} {lo : Nat}, RangesFrom len lo R → Solid R := by
  intro R
  induction R with
  | nil => intro lo _ p hp; cases hp
  | cons q R ih =>
    obtain ⟨s, e⟩ := q
    intro lo h p hp
    simp only [RangesFrom] at h
    rcases List.mem_cons.1 hp with rfl | hp
    · exact h.2.1
    · exact ih h.2.2.2 p hp

theorem lcSide_solid {lines : List Str} {R : List (Nat × Nat)} (hR : Solid R) {term cur : Int} {l : List Str} {ms : List Marker} {cur' : Int}
    (h : lcSide lines (markersOf R) (nextOffset (markersOf R) term) cur = Res.ok (l, ms, cur')) :
    ∃ R', ms = markersOf R' ∧ Solid R' ∧ (nextOffset (markersOf R) term = cur → 0 < l.length) := by
  unfold lcSide at h
  split at h
  · rename_i hc
    cases R with
    | nil => simp [markersOf, processStartMarker] at h
    | cons q R =>
      obtain ⟨s, e⟩ := q
      rw [markersOf_cons] at h hc
      simp only [processStartMarker, Res.bind_eq_ok] at h
      obtain ⟨x, hx, h⟩ := h
      cases h
      refine ⟨R, rfl, fun p hp => hR p (List.mem_cons_of_mem _ hp), fun _ => ?_⟩
      have := sliceN_length _ _ _ _ hx
      have hse := hR (s, e) (List.mem_cons_self ..)
      simp only [nextOffset] at hc
      simp only at hse
      omega
  · rename_i hc
    cases h
    exact ⟨R, rfl, hR, fun h => absurd h hc⟩

theorem addSource_fold (ls : List Str) : ∀ d : Diff, (ls.foldl Diff.addSource d).slc = d.slc + ls.length ∧
    (ls.foldl Diff.addSource d).dlc = d.dlc ∧ (ls.foldl Diff.addSource d).applied = d.applied ∧
    (ls.foldl Diff.addSource d).unsaved = d.unsaved ∧ (ls.foldl Diff.addSource d).conflicts = d.conflicts := by
  induction ls with
  | nil => intro d; exact ⟨rfl, rfl, rfl, rfl, rfl⟩
  | cons x ls ih =>
    intro d
    obtain ⟨h1, h2, h3, h4, h5⟩ := ih (d.addSource x)
    simp only [List.foldl_cons, List.length_cons]
    refine ⟨?_, h2, h3, h4, h5⟩
    rw [h1]; simp [Diff.addSource, Diff.slc]; omega

theorem addDest_fold (ls : List Str) : ∀ d : Diff, (ls.foldl Diff.addDest d).dlc = d.dlc + ls.length ∧
    (ls.foldl Diff.addDest d).slc = d.slc ∧ (ls.foldl Diff.addDest d).applied = d.applied ∧
    (ls.foldl Diff.addDest d).unsaved = d.unsaved ∧ (ls.foldl Diff.addDest d).conflicts = d.conflicts := by
  induction ls with
  | nil => intro d; exact ⟨rfl, rfl, rfl, rfl, rfl⟩
  | cons x ls ih =>
    intro d
    obtain ⟨h1, h2, h3, h4, h5⟩ := ih (d.addDest x)
    simp only [List.foldl_cons, List.length_cons]
    refine ⟨?_, h2, h3, h4, h5⟩
    rw [h1]; simp [Diff.addDest, Diff.dlc]; omega

theorem computeDiffStats_created {d d' : Diff} (h : computeDiffStats d = Res.ok d') (hn : 0 < d.slc + d.dlc) :
    d'.slc = d.slc ∧ d'.dlc = d.dlc ∧ d'.applied = d.applied ∧ d'.unsaved = d.unsaved ∧ d'.conflicts = d.conflicts ∧
    d'.type = if d.slc > 0 ∧ d.dlc > 0 then .Change else if d.slc > 0 then .Delete else .Insert := by
  have v := computeDiffStats_view h
  unfold computeDiffStats at h
  dsimp only at h
  have w := determineInline_view h
  have e1 := congrArg DView.applied w
  have e2 := congrArg DView.unsaved w
  have e3 := congrArg DView.conflicts w
  have e4 := congrArg DView.type w
  refine ⟨v.2.2.1, v.2.2.2, e1.trans ?_, e2.trans ?_, e3.trans ?_, e4.trans ?_⟩
  · split; rfl; split; rfl; split <;> rfl
  · split; rfl; split; rfl; split <;> rfl
  · split; rfl; split; rfl; split <;> rfl
  · split
    · rfl
    · split
      · rfl
      · rw [if_pos (by omega)]; rfl

theorem markerLoop_created (src dst : List Str) (sNo dNo : Int) (fuel : Nat) : ∀ (R1 R2 : List (Nat × Nat)) (cs cd : Int) (ds : List Diff),
    Solid R1 → Solid R2 → lcMarkerLoop src dst sNo dNo fuel (markersOf R1) (markersOf R2) cs cd = Res.ok ds → ∀ d ∈ ds, Created d := by
  induction fuel with
  | zero => intro R1 R2 cs cd ds _ _ h; simp [lcMarkerLoop] at h
  | succ fuel ih =>
    intro R1 R2 cs cd ds h1 h2 h
    unfold lcMarkerLoop at h
    split at h
    · cases h; intro d hd; cases hd
    · simp only [Res.bind_eq_ok] at h
      obtain ⟨⟨sl, sm', cs'⟩, hs, ⟨dl, dm', cd'⟩, hd, d1, hc, rest, hrest, h⟩ := h
      obtain ⟨R1', e1, k1, n1⟩ := lcSide_solid h1 hs
      obtain ⟨R2', e2, k2, n2⟩ := lcSide_solid h2 hd
      simp only at hc hrest
      subst e1 e2
      cases h
      intro d hdm
      rcases List.mem_cons.1 hdm with rfl | hdm
      · have a := addSource_fold sl (Diff.new (sNo + (cs + min (nextOffset (markersOf R2) (↑src.length + ↑dst.length + 1) - cd)
          (nextOffset (markersOf R1) (↑src.length + ↑dst.length + 1) - cs)))
          (dNo + (cd + min (nextOffset (markersOf R2) (↑src.length + ↑dst.length + 1) - cd)
          (nextOffset (markersOf R1) (↑src.length + ↑dst.length + 1) - cs))))
        revert a hc
        generalize sl.foldl Diff.addSource _ = x
        intro hc a
        have b := addDest_fold dl x
        revert b hc
        generalize dl.foldl Diff.addDest x = y
        intro hc b
        have hpos : 0 < sl.length + dl.length := by
          by_cases hle : nextOffset (markersOf R2) (↑src.length + ↑dst.length + 1) - cd ≤
              nextOffset (markersOf R1) (↑src.length + ↑dst.length + 1) - cs
          · have := n2 (by rw [Int.min_eq_left hle]; omega)
            omega
          · have := n1 (by rw [Int.min_eq_right (by omega)]; omega)
            omega
        simp only [Diff.new, Diff.slc, Diff.dlc, List.length_nil] at a
        obtain ⟨a1, a2, a3, a4, a5⟩ := a
        obtain ⟨b1, b2, b3, b4, b5⟩ := b
        have hy : 0 < y.slc + y.dlc := by
          rw [b1, b2]; unfold Diff.slc Diff.dlc; omega
        obtain ⟨c1, c2, c3, c4, c5, c6⟩ := computeDiffStats_created hc hy
        have ha : d1.applied = false := by rw [c3, b3, a3]
        have hu : d1.unsaved = false := by rw [c4, b4, a4]
        have hq : d1.applyQuietly true = { d1 with applied := true, unsaved := true } := by
          unfold Diff.applyQuietly; rw [ha, hu]; rfl
        rw [hq]
        refine ⟨rfl, rfl, rfl, ?_, ?_, ?_⟩
        · show d1.type = if d1.slc > 0 ∧ d1.dlc > 0 then _ else if d1.slc > 0 then _ else _
          rw [c6, c1, c2]
        · show 0 < d1.slc + d1.dlc
          rw [c1, c2]; exact hy
        · show d1.conflicts = false
          rw [c5, b5, a5]
      · exact ih R1' R2' cs' cd' rest k1 k2 hrest d hdm

theorem lcInserted_created {hash : Str → Nat} {src dst : List Str} {sNo dNo : Int} {ds : List Diff}
    (h : lcInserted hash src dst sNo dNo = Res.ok ds) : ∀ d ∈ ds, Created d := by
  by_cases hsz : (src.length + 1) * (dst.length + 1) ≤ 2 ^ 24
  · obtain ⟨t', ht, hf⟩ := createTable_filled LTable.init_valid (stringListPair_of hash (hash []) src dst) hsz
    obtain ⟨R1, R2, hm, r1, r2, _⟩ := lineMarkers (p := stringListPair hash (hash []) src dst) hf rfl (fun _ => rfl) rfl rfl
    unfold lcInserted at h
    simp only [ht, Res.bind_ok, hm] at h
    exact markerLoop_created src dst sNo dNo _ R1 R2 0 0 ds (solid_of_ranges r1) (solid_of_ranges r2) h
  · by_cases hw : ((src.length + 1) * (dst.length + 1)) % 2 ^ 32 > 2 ^ 24
    · have hct : LTable.init.createTable (stringListPair hash (hash []) src dst) = Res.ok (0, LTable.init) := by
        have : LTable.init.setSize (src.length + 1) (dst.length + 1) = (false, LTable.init) := by
          unfold LTable.setSize
          rw [if_pos]
          unfold uintMod; omega
        unfold LTable.createTable
        have e1 : (stringListPair hash (hash []) src dst).lengthFirst = src.length + 1 := rfl
        have e2 : (stringListPair hash (hash []) src dst).lengthSecond = dst.length + 1 := rfl
        rw [e1, e2, this]
      have hlm := markers_zero LTable.init rfl rfl LTable.init_get hash (hash []) src dst
      rw [lcInserted_none hash src dst sNo dNo hct hlm] at h
      cases h
      intro d hd; cases hd
    · have hub : LTable.init.createTable (stringListPair hash (hash []) src dst) = Res.ub := by
        refine LTable.createTable_wrap LTable.init_valid ?_ ?_
        · show 2 ^ 32 ≤ (src.length + 1) * (dst.length + 1)
          by_cases hlt : (src.length + 1) * (dst.length + 1) < 2 ^ 32
          · rw [Nat.mod_eq_of_lt hlt] at hw; omega
          · omega
        · show ((src.length + 1) * (dst.length + 1)) % 2 ^ 32 ≤ 2 ^ 24
          omega
      unfold lcInserted at h
      simp only [hub] at h
      cases h

theorem linesChanged_created {hash : Str → Nat} {ds : List Diff} {old new : List Str} {e : Int} {r : LCResult}
    (h : linesChanged hash ds old new e = Res.ok r) : ∀ d ∈ r.inserted, Created d := by
  unfold linesChanged at h
  split at h
  · cases h; intro d hd; cases hd
  · simp only [Res.bind_eq_ok] at h
    obtain ⟨b, _, ins, hi, h⟩ := h
    cases h
    exact lcInserted_created hi

end KompareDiff2
