import Verif.Proofs.Own
/-
Ownership: every call that follows the rules is defined and keeps the invariant.
-/
namespace KompareDiff2
open Spec

theorem put_isSome {α : Type} {f : Nat → Option α} {i x : Nat} {v : α} (h : (f x).isSome) : (put f i (some v) x).isSome := by
  by_cases e : x = i
  · rw [e, put_at_same]; rfl
  · rw [put_ne _ _ e]; exact h

theorem put_fresh {α : Type} {f : Nat → Option α} {n i : Nat} {v : Option α} (h : ∀ x, n ≤ x → f x = none) (hi : n ≤ i) :
    ∀ x, i + 1 ≤ x → put f i v x = none := by
  intro x hx
  rw [put_ne _ _ (by omega)]
  exact h x (by omega)

theorem live_lt {α : Type} {f : Nat → Option α} {n x : Nat} (h : ∀ x, n ≤ x → f x = none) (hx : (f x).isSome) : x < n := by
  rcases Nat.lt_or_ge x n with k | k
  · exact k
  · rw [h x k] at hx; cases hx

theorem free_marks {s : Objs} {m : Nat} (h : FreeMarker s m) (o : Nat) : m ∉ marksOf s o := by
  unfold marksOf
  cases e : s.string o with
  | none => simp
  | some v => simpa using h.2 o v e

theorem free_lines {s : Objs} {i : Nat} (h : FreeString s i) (d : Nat) : i ∉ linesOf s d := by
  unfold linesOf
  cases e : s.diff d with
  | none => simp
  | some v => simpa using h.2 d v e

theorem free_diffs {s : Objs} {i : Nat} (h : FreeDiff s i) (m : Nat) : i ∉ diffsOf s m := by
  unfold diffsOf
  cases e : s.model m with
  | none => simp
  | some v => simpa using h.2 m v e

theorem free_hunks {s : Objs} {i : Nat} (h : FreeHunk s i) (m : Nat) : i ∉ hunksOf s m := by
  unfold hunksOf
  cases e : s.model m with
  | none => simp
  | some v => simpa using h.2 m v e

theorem Layer.mono {own : Nat → List Nat} {live live' : Nat → Prop} (h : Layer own live) (hl : ∀ x, live x → live' x) : Layer own live' :=
  ⟨h.nodup, fun o x hx => hl x (h.live o x hx), h.uniq⟩

theorem sane_newMarker {s : Objs} (h : Sane s) (v : Marker) : Sane (s.newMarker v) := by
  refine ⟨h.marks.mono (fun x hx => put_isSome hx), h.lines, h.hunks, h.diffs, h.shown, put_fresh h.freshM (Nat.le_refl _), ?_, ?_, ?_, ?_⟩
  · exact fun i hi => h.freshS i (Nat.le_of_succ_le hi)
  · exact fun i hi => h.freshD i (Nat.le_of_succ_le hi)
  · exact fun i hi => h.freshH i (Nat.le_of_succ_le hi)
  · exact fun i hi => h.freshO i (Nat.le_of_succ_le hi)

theorem sane_allocString {s : Objs} (h : Sane s) (o : OStr) (hn : o.markers.Nodup) (hm : ∀ m ∈ o.markers, FreeMarker s m) :
    Sane (s.allocString o) := by
  refine ⟨?_, h.lines.mono (fun x hx => put_isSome hx), h.hunks, h.diffs, h.shown, ?_, put_fresh h.freshS (Nat.le_refl _), ?_, ?_, ?_⟩
  · refine h.marks.set (i := s.next) (l := o.markers) ?_ ?_ hn (fun m hm' => (hm m hm').1) (fun m hm' p _ => free_marks (hm m hm') p) (fun _ hx => hx)
    · exact marksOf_some (put_at_same _ _ _)
    · intro p hp
      show ((put s.string s.next (some o) p).map OStr.markers).getD [] = _
      rw [put_ne _ _ hp]
      rfl
  · exact fun i hi => h.freshM i (Nat.le_of_succ_le hi)
  · exact fun i hi => h.freshD i (Nat.le_of_succ_le hi)
  · exact fun i hi => h.freshH i (Nat.le_of_succ_le hi)
  · exact fun i hi => h.freshO i (Nat.le_of_succ_le hi)

theorem sane_newDiff {s : Objs} (h : Sane s) (a b : Int) (ty : DiffType) : Sane (s.newDiff a b ty) := by
  refine ⟨h.marks, ?_, h.hunks, h.diffs.mono (fun x hx => put_isSome hx), fun k o e d hd => put_isSome (h.shown k o e d hd), ?_, ?_,
    put_fresh h.freshD (Nat.le_refl _), ?_, ?_⟩
  · refine h.lines.set (i := s.next) (l := []) ?_ ?_ List.nodup_nil (fun _ hx => by simp at hx) (fun _ hx => by simp at hx) (fun _ hx => hx)
    · show ((put s.diff s.next _ s.next).map _).getD [] = _
      rw [put_at_same]
      rfl
    · intro p hp
      show ((put s.diff s.next _ p).map _).getD [] = _
      rw [put_ne _ _ hp]
      rfl
  · exact fun i hi => h.freshM i (Nat.le_of_succ_le hi)
  · exact fun i hi => h.freshS i (Nat.le_of_succ_le hi)
  · exact fun i hi => h.freshH i (Nat.le_of_succ_le hi)
  · exact fun i hi => h.freshO i (Nat.le_of_succ_le hi)

theorem sane_newHunk {s : Objs} (h : Sane s) : Sane s.newHunk := by
  refine ⟨h.marks, h.lines, h.hunks.mono (fun x hx => put_isSome hx), h.diffs, ?_, ?_, ?_, ?_, put_fresh h.freshH (Nat.le_refl _), ?_⟩
  · intro k o e d hd
    by_cases hk : k = s.next
    · have : (some {} : Option OHunk) = some o := by rw [← e, hk]; exact (put_at_same _ _ _).symm
      cases this
      simp at hd
    · exact h.shown k o (by rw [← e]; exact (put_ne _ _ hk).symm) d hd
  · exact fun i hi => h.freshM i (Nat.le_of_succ_le hi)
  · exact fun i hi => h.freshS i (Nat.le_of_succ_le hi)
  · exact fun i hi => h.freshD i (Nat.le_of_succ_le hi)
  · exact fun i hi => h.freshO i (Nat.le_of_succ_le hi)

theorem sane_newModel {s : Objs} (h : Sane s) : Sane s.newModel := by
  refine ⟨h.marks, h.lines, ?_, ?_, h.shown, ?_, ?_, ?_, ?_, put_fresh h.freshO (Nat.le_refl _)⟩
  · refine h.hunks.set (i := s.next) (l := []) ?_ ?_ List.nodup_nil (fun _ hx => by simp at hx) (fun _ hx => by simp at hx) (fun _ hx => hx)
    · show ((put s.model s.next _ s.next).map _).getD [] = _
      rw [put_at_same]
      rfl
    · intro p hp
      show ((put s.model s.next _ p).map _).getD [] = _
      rw [put_ne _ _ hp]
      rfl
  · refine h.diffs.set (i := s.next) (l := []) ?_ ?_ List.nodup_nil (fun _ hx => by simp at hx) (fun _ hx => by simp at hx) (fun _ hx => hx)
    · show ((put s.model s.next _ s.next).map _).getD [] = _
      rw [put_at_same]
      rfl
    · intro p hp
      show ((put s.model s.next _ p).map _).getD [] = _
      rw [put_ne _ _ hp]
      rfl
  · exact fun i hi => h.freshM i (Nat.le_of_succ_le hi)
  · exact fun i hi => h.freshS i (Nat.le_of_succ_le hi)
  · exact fun i hi => h.freshD i (Nat.le_of_succ_le hi)
  · exact fun i hi => h.freshH i (Nat.le_of_succ_le hi)

theorem put_keep {α : Type} {f : Nat → Option α} {n i : Nat} {v : α} (h : ∀ x, n ≤ x → f x = none) (hi : (f i).isSome) :
    ∀ x, n ≤ x → put f i (some v) x = none := by
  intro x hx
  have := live_lt h hi
  rw [put_ne _ _ (by omega)]
  exact h x hx

theorem sane_setMarker {s : Objs} (h : Sane s) {i : Nat} (hi : (s.marker i).isSome) (v : Marker) :
    s.setMarker i v = Res.ok { s with marker := put s.marker i (some v) } ∧ Sane { s with marker := put s.marker i (some v) } := by
  obtain ⟨w, _, hd⟩ := deref_isSome hi
  refine ⟨by simp only [Objs.setMarker, hd, Res.bind_ok], ?_⟩
  exact ⟨h.marks.mono (fun x hx => put_isSome hx), h.lines, h.hunks, h.diffs, h.shown, put_keep h.freshM hi, h.freshS, h.freshD, h.freshH, h.freshO⟩

theorem sane_onString {s : Objs} (h : Sane s) {i : Nat} {o : OStr} (hi : s.string i = some o) (f : OStr → OStr) (hn : (f o).markers.Nodup)
    (hm : ∀ m ∈ (f o).markers, (s.marker m).isSome ∧ ∀ p, p ≠ i → m ∉ marksOf s p) :
    s.onString i f = Res.ok { s with string := put s.string i (some (f o)) } ∧ Sane { s with string := put s.string i (some (f o)) } := by
  have his : (s.string i).isSome := by rw [hi]; rfl
  refine ⟨by simp only [Objs.onString, deref_some hi, Res.bind_ok], ?_⟩
  refine ⟨?_, h.lines.mono (fun x hx => put_isSome hx), h.hunks, h.diffs, h.shown, h.freshM, put_keep h.freshS his, h.freshD, h.freshH, h.freshO⟩
  refine h.marks.set (i := i) (l := (f o).markers) ?_ ?_ hn (fun m hm' => (hm m hm').1) (fun m hm' => (hm m hm').2) (fun _ hx => hx)
  · exact marksOf_some (put_at_same _ _ _)
  · intro p hp
    show ((put s.string i _ p).map _).getD [] = _
    rw [put_ne _ _ hp]
    rfl

theorem sane_onDiff {s : Objs} (h : Sane s) {i : Nat} {o : ODiff} (hi : s.diff i = some o) (f : ODiff → ODiff)
    (hn : ((f o).source ++ (f o).dest).Nodup) (hm : ∀ m ∈ (f o).source ++ (f o).dest, (s.string m).isSome ∧ ∀ p, p ≠ i → m ∉ linesOf s p) :
    s.onDiff i f = Res.ok { s with diff := put s.diff i (some (f o)) } ∧ Sane { s with diff := put s.diff i (some (f o)) } := by
  have his : (s.diff i).isSome := by rw [hi]; rfl
  refine ⟨by simp only [Objs.onDiff, deref_some hi, Res.bind_ok], ?_⟩
  refine ⟨h.marks, ?_, h.hunks, h.diffs.mono (fun x hx => put_isSome hx), fun k o e d hd => put_isSome (h.shown k o e d hd), h.freshM, h.freshS,
    put_keep h.freshD his, h.freshH, h.freshO⟩
  refine h.lines.set (i := i) (l := (f o).source ++ (f o).dest) ?_ ?_ hn (fun m hm' => (hm m hm').1) (fun m hm' => (hm m hm').2) (fun _ hx => hx)
  · exact linesOf_some (put_at_same _ _ _)
  · intro p hp
    show ((put s.diff i _ p).map _).getD [] = _
    rw [put_ne _ _ hp]
    rfl

theorem sane_lines {s : Objs} (h : Sane s) {i : Nat} {o : ODiff} (hi : s.diff i = some o) : (o.source ++ o.dest).Nodup ∧
    ∀ m ∈ o.source ++ o.dest, (s.string m).isSome ∧ ∀ p, p ≠ i → m ∉ linesOf s p := by
  have e := linesOf_some hi
  refine ⟨by rw [← e]; exact h.lines.nodup i, fun m hm => ?_⟩
  rw [← e] at hm
  exact ⟨h.lines.live i m hm, fun p hp hm' => hp (h.lines.uniq p i m hm' hm)⟩

theorem sane_setType {s : Objs} (h : Sane s) {i : Nat} {o : ODiff} (hi : s.diff i = some o) (ty : DiffType) :
    s.setType i ty = Res.ok { s with diff := put s.diff i (some { o with type := ty }) } ∧
      Sane { s with diff := put s.diff i (some { o with type := ty }) } :=
  sane_onDiff h hi (fun o => { o with type := ty }) (sane_lines h hi).1 (sane_lines h hi).2

/-- The memory after a line was added to a difference. -/
def Objs.withLine (s : Objs) (i : Nat) (l : Str) (o : ODiff) : Objs :=
  { s with string := put s.string s.next (some { string := l, hash := calculateHash l }), diff := put s.diff i (some o), next := s.next + 1 }

theorem sane_addLine {s : Objs} (h : Sane s) {i : Nat} {o : ODiff} (hi : s.diff i = some o) (l : Str) (f : ODiff → ODiff)
    (hp : List.Perm ((f o).source ++ (f o).dest) (s.next :: (o.source ++ o.dest))) :
    (s.newString l []).onDiff i f = Res.ok (s.withLine i l (f o)) ∧ Sane (s.withLine i l (f o)) := by
  have h1 : Sane (s.newString l []) := sane_allocString h _ List.nodup_nil (fun _ hm => by simp at hm)
  have hl := sane_lines h hi
  have hlt : ∀ m, (s.string m).isSome → m ≠ s.next := fun m hm e => by
    have := live_lt h.freshS hm
    omega
  have hi1 : (s.newString l []).diff i = some o := hi
  refine sane_onDiff h1 hi1 f ?_ ?_
  · rw [hp.nodup_iff, List.nodup_cons]
    exact ⟨fun hm => hlt _ (hl.2 _ hm).1 rfl, hl.1⟩
  · intro m hm
    rw [hp.mem_iff, List.mem_cons] at hm
    rcases hm with rfl | hm
    · refine ⟨by rw [show (s.newString l []).string s.next = _ from put_at_same _ _ _]; rfl, fun p _ hm => ?_⟩
      have hm : s.next ∈ linesOf s p := hm
      exact hlt _ (h.lines.live p _ hm) rfl
    · exact ⟨put_isSome (hl.2 m hm).1, (hl.2 m hm).2⟩

theorem perm_source (a b : List Nat) (x : Nat) : List.Perm ((a ++ [x]) ++ b) (x :: (a ++ b)) := by
  rw [List.append_assoc]
  exact List.perm_middle

theorem perm_dest (a b : List Nat) (x : Nat) : List.Perm (a ++ (b ++ [x])) (x :: (a ++ b)) := by
  rw [← List.append_assoc]
  exact List.perm_append_comm

theorem sane_addSource {s : Objs} (h : Sane s) {i : Nat} {o : ODiff} (hi : s.diff i = some o) (l : Str) :
    s.addSource i l = Res.ok (s.withLine i l { o with source := o.source ++ [s.next] }) ∧
      Sane (s.withLine i l { o with source := o.source ++ [s.next] }) := by
  obtain ⟨h1, h2⟩ := sane_addLine h hi l (fun o => { o with source := o.source ++ [s.next] }) (perm_source _ _ _)
  exact ⟨by simp only [Objs.addSource, deref_some hi, Res.bind_ok]; exact h1, h2⟩

theorem sane_addDest {s : Objs} (h : Sane s) {i : Nat} {o : ODiff} (hi : s.diff i = some o) (l : Str) :
    s.addDest i l = Res.ok (s.withLine i l { o with dest := o.dest ++ [s.next] }) ∧
      Sane (s.withLine i l { o with dest := o.dest ++ [s.next] }) := by
  obtain ⟨h1, h2⟩ := sane_addLine h hi l (fun o => { o with dest := o.dest ++ [s.next] }) (perm_dest _ _ _)
  exact ⟨by simp only [Objs.addDest, deref_some hi, Res.bind_ok]; exact h1, h2⟩

theorem sane_hunkAdd {s : Objs} (h : Sane s) {i d : Nat} {o : OHunk} (hi : s.hunk i = some o) (hd : (s.diff d).isSome) :
    s.hunkAdd i d = Res.ok { s with hunk := put s.hunk i (some { o with diffs := o.diffs ++ [d] }) } ∧
      Sane { s with hunk := put s.hunk i (some { o with diffs := o.diffs ++ [d] }) } := by
  refine ⟨by simp only [Objs.hunkAdd, deref_some hi, Res.bind_ok], ?_⟩
  refine ⟨h.marks, h.lines, h.hunks.mono (fun x hx => put_isSome hx), h.diffs, ?_, h.freshM, h.freshS, h.freshD,
    put_keep h.freshH (by rw [hi]; rfl), h.freshO⟩
  intro k p e x hx
  by_cases hk : k = i
  · have : (some { o with diffs := o.diffs ++ [d] } : Option OHunk) = some p := by rw [← e, hk]; exact (put_at_same _ _ _).symm
    cases this
    rcases List.mem_append.1 hx with hx | hx
    · exact h.shown i o hi x hx
    · rw [List.mem_singleton] at hx; subst hx; exact hd
  · exact h.shown k p (by rw [← e]; exact (put_ne _ _ hk).symm) x hx

theorem nodup_snoc {l : List Nat} {x : Nat} (h : l.Nodup) (hx : x ∉ l) : (l ++ [x]).Nodup := by
  rw [List.nodup_append]
  refine ⟨h, by simp, ?_⟩
  intro a ha b hb e
  rw [List.mem_singleton] at hb
  exact hx (hb ▸ e ▸ ha)

theorem sane_addHunk {s : Objs} (h : Sane s) {i k : Nat} {o : OModel} (hi : s.model i = some o) (hk : FreeHunk s k) :
    s.addHunk i k = Res.ok { s with model := put s.model i (some { o with hunks := o.hunks ++ [k] }) } ∧
      Sane { s with model := put s.model i (some { o with hunks := o.hunks ++ [k] }) } := by
  refine ⟨by simp only [Objs.addHunk, deref_some hi, Res.bind_ok], ?_⟩
  refine ⟨h.marks, h.lines, ?_, ?_, h.shown, h.freshM, h.freshS, h.freshD, h.freshH, put_keep h.freshO (by rw [hi]; rfl)⟩
  · refine h.hunks.set (i := i) (l := o.hunks ++ [k]) ?_ ?_ ?_ ?_ ?_ (fun _ hx => hx)
    · show ((put s.model i _ i).map _).getD [] = _
      rw [put_at_same]
      rfl
    · intro p hp
      show ((put s.model i _ p).map _).getD [] = _
      rw [put_ne _ _ hp]
      rfl
    · exact nodup_snoc (hunksOf_some hi ▸ h.hunks.nodup i) (hunksOf_some hi ▸ free_hunks hk i)
    · intro x hx
      rcases List.mem_append.1 hx with hx | hx
      · exact h.hunks.live i x (by rw [hunksOf_some hi]; exact hx)
      · rw [List.mem_singleton] at hx; subst hx; exact hk.1
    · intro x hx p hp hx'
      rcases List.mem_append.1 hx with hx | hx
      · exact hp (h.hunks.uniq p i x hx' (by rw [hunksOf_some hi]; exact hx))
      · rw [List.mem_singleton] at hx; subst hx; exact free_hunks hk p hx'
  · refine h.diffs.set (i := i) (l := o.differences) ?_ ?_ ?_ ?_ ?_ (fun _ hx => hx)
    · show ((put s.model i _ i).map _).getD [] = _
      rw [put_at_same]
      rfl
    · intro p hp
      show ((put s.model i _ p).map _).getD [] = _
      rw [put_ne _ _ hp]
      rfl
    · rw [← diffsOf_some hi]; exact h.diffs.nodup i
    · rw [← diffsOf_some hi]; exact fun x hx => h.diffs.live i x hx
    · rw [← diffsOf_some hi]; exact fun x hx p hp hx' => hp (h.diffs.uniq p i x hx' hx)

theorem sane_addDiff {s : Objs} (h : Sane s) {i k : Nat} {o : OModel} (hi : s.model i = some o) (hk : FreeDiff s k) :
    s.addDiff i k = Res.ok { s with model := put s.model i (some { o with differences := o.differences ++ [k] }) } ∧
      Sane { s with model := put s.model i (some { o with differences := o.differences ++ [k] }) } := by
  obtain ⟨w, _, hd⟩ := deref_isSome hk.1
  refine ⟨by simp only [Objs.addDiff, deref_some hi, hd, Res.bind_ok], ?_⟩
  refine ⟨h.marks, h.lines, ?_, ?_, h.shown, h.freshM, h.freshS, h.freshD, h.freshH, put_keep h.freshO (by rw [hi]; rfl)⟩
  · refine h.hunks.set (i := i) (l := o.hunks) ?_ ?_ ?_ ?_ ?_ (fun _ hx => hx)
    · show ((put s.model i _ i).map _).getD [] = _
      rw [put_at_same]
      rfl
    · intro p hp
      show ((put s.model i _ p).map _).getD [] = _
      rw [put_ne _ _ hp]
      rfl
    · rw [← hunksOf_some hi]; exact h.hunks.nodup i
    · rw [← hunksOf_some hi]; exact fun x hx => h.hunks.live i x hx
    · rw [← hunksOf_some hi]; exact fun x hx p hp hx' => hp (h.hunks.uniq p i x hx' hx)
  · refine h.diffs.set (i := i) (l := o.differences ++ [k]) ?_ ?_ ?_ ?_ ?_ (fun _ hx => hx)
    · show ((put s.model i _ i).map _).getD [] = _
      rw [put_at_same]
      rfl
    · intro p hp
      show ((put s.model i _ p).map _).getD [] = _
      rw [put_ne _ _ hp]
      rfl
    · exact nodup_snoc (diffsOf_some hi ▸ h.diffs.nodup i) (diffsOf_some hi ▸ free_diffs hk i)
    · intro x hx
      rcases List.mem_append.1 hx with hx | hx
      · exact h.diffs.live i x (by rw [diffsOf_some hi]; exact hx)
      · rw [List.mem_singleton] at hx; subst hx; exact hk.1
    · intro x hx p hp hx'
      rcases List.mem_append.1 hx with hx | hx
      · exact hp (h.diffs.uniq p i x hx' (by rw [diffsOf_some hi]; exact hx))
      · rw [List.mem_singleton] at hx; subst hx; exact free_diffs hk p hx'

/-! ### Destroying -/

theorem wipe_fresh {α : Type} {f : Nat → Option α} {n : Nat} {l : List Nat} (h : ∀ x, n ≤ x → f x = none) : ∀ x, n ≤ x → wipe f l x = none := by
  intro x hx
  unfold wipe
  split
  · rfl
  · exact h x hx

/-- Taking objects out together with everything they own. -/
def Objs.without (s : Objs) (d : Destroyed) : Objs :=
  { s with marker := wipe s.marker d.markers, string := wipe s.string d.strings, diff := wipe s.diff d.diffs, hunk := wipe s.hunk d.hunks,
           model := wipe s.model d.models }

theorem gone_without (s : Objs) (d : Destroyed) : GoneAre s (s.without d) d :=
  ⟨fun _ h => wipe_isSome h, fun _ h => wipe_isSome h, fun _ h => wipe_isSome h, fun _ h => wipe_isSome h, fun _ h => wipe_isSome h⟩

theorem own_wipe {α : Type} (f : Nat → Option α) (g : α → List Nat) (l : List Nat) (o : Nat) :
    (((wipe f l o).map g).getD [] = ((f o).map g).getD [] ∧ o ∉ l) ∨ ((wipe f l o).map g).getD [] = [] := by
  by_cases h : o ∈ l
  · right; rw [wipe_in h]; rfl
  · left; exact ⟨by rw [wipe_out h], h⟩

theorem layer_without {α β : Type} {f : Nat → Option α} {g : α → List Nat} {live : Nat → Option β} {l k : List Nat}
    (h : Layer (fun o => ((f o).map g).getD []) (fun x => (live x).isSome))
    (hk : ∀ o x, o ∉ l → x ∈ ((f o).map g).getD [] → x ∉ k) :
    Layer (fun o => ((wipe f l o).map g).getD []) (fun x => (wipe live k x).isSome) := by
  refine h.sub (fun o => ?_) (fun o x hx => ?_)
  · rcases own_wipe f g l o with e | e
    · exact .inl e.1
    · exact .inr e
  · rcases own_wipe f g l o with e | e
    · have hx : x ∈ ((wipe f l o).map g).getD [] := hx
      rw [e.1] at hx
      show (wipe live k x).isSome
      rw [wipe_out (hk o x e.2 hx)]
      exact h.live o x hx
    · have hx : x ∈ ((wipe f l o).map g).getD [] := hx
      rw [e] at hx; simp at hx

/-- What is taken out is not referred to by what stays. -/
structure Closed (s : Objs) (d : Destroyed) : Prop where
  marks : ∀ o x, o ∉ d.strings → x ∈ marksOf s o → x ∉ d.markers
  lines : ∀ o x, o ∉ d.diffs → x ∈ linesOf s o → x ∉ d.strings
  hunks : ∀ o x, o ∉ d.models → x ∈ hunksOf s o → x ∉ d.hunks
  diffs : ∀ o x, o ∉ d.models → x ∈ diffsOf s o → x ∉ d.diffs
  shown : ∀ h k, s.hunk h = some k → h ∉ d.hunks → ∀ x ∈ k.diffs, x ∉ d.diffs

theorem sane_without {s : Objs} (h : Sane s) {d : Destroyed} (hc : Closed s d) : Sane (s.without d) := by
  refine ⟨layer_without h.marks hc.marks, layer_without h.lines hc.lines, layer_without h.hunks hc.hunks, layer_without h.diffs hc.diffs, ?_,
    wipe_fresh h.freshM, wipe_fresh h.freshS, wipe_fresh h.freshD, wipe_fresh h.freshH, wipe_fresh h.freshO⟩
  intro k o e x hx
  have e : wipe s.hunk d.hunks k = some o := e
  by_cases hk : k ∈ d.hunks
  · rw [wipe_in hk] at e; cases e
  · rw [wipe_out hk] at e
    show (wipe s.diff d.diffs x).isSome
    rw [wipe_out (hc.shown k o e hk x hx)]
    exact h.shown k o e x hx

theorem Layer.flat_out {own : Nat → List Nat} {live : Nat → Prop} (h : Layer own live) {l : List Nat} {o x : Nat} (ho : o ∉ l) (hx : x ∈ own o) :
    x ∉ l.flatMap own := by
  intro hm
  obtain ⟨b, hb, hxb⟩ := List.mem_flatMap.1 hm
  exact ho (h.uniq o b x hx hxb ▸ hb)

theorem sane_deleteMarker {s : Objs} (h : Sane s) {i : Nat} (hi : FreeMarker s i) :
    s.deleteMarker i = Res.ok (s.without { markers := [i] }) ∧ Closed s { markers := [i] } := by
  obtain ⟨v, _, hd⟩ := deref_isSome hi.1
  refine ⟨?_, ?_, ?_, ?_, ?_, ?_⟩
  · simp only [Objs.deleteMarker, hd, Res.bind_ok, put_none, Objs.without, wipe_nil]
  · intro o x _ hx hx'
    rw [List.mem_singleton] at hx'
    exact free_marks hi o (hx' ▸ hx)
  all_goals (intros; simp)

theorem sane_deleteHunk {s : Objs} (h : Sane s) {i : Nat} (hi : FreeHunk s i) :
    s.deleteHunk i = Res.ok (s.without { hunks := [i] }) ∧ Closed s { hunks := [i] } := by
  obtain ⟨v, _, hd⟩ := deref_isSome hi.1
  refine ⟨?_, ?_, ?_, ?_, ?_, ?_⟩
  · simp only [Objs.deleteHunk, hd, Res.bind_ok, put_none, Objs.without, wipe_nil]
  · intros; simp
  · intros; simp
  · intro o x _ hx hx'
    rw [List.mem_singleton] at hx'
    exact free_hunks hi o (hx' ▸ hx)
  all_goals (intros; simp)

theorem sane_deleteString {s : Objs} (h : Sane s) {i : Nat} (hi : FreeString s i) :
    s.deleteString i = Res.ok (s.without { strings := [i], markers := marksOf s i }) ∧ Closed s { strings := [i], markers := marksOf s i } := by
  refine ⟨?_, ?_, ?_, ?_, ?_, ?_⟩
  · rw [deleteString_eq hi.1 (h.marks.nodup i) (h.marks.live i)]
    simp only [Objs.without, wipe_nil]
  · intro o x ho hx hx'
    exact ho (by rw [List.mem_singleton]; exact h.marks.uniq o i x hx hx')
  · intro o x _ hx hx'
    rw [List.mem_singleton] at hx'
    exact free_lines hi o (hx' ▸ hx)
  all_goals (intros; simp)

theorem sane_deleteDiff {s : Objs} (h : Sane s) {i : Nat} (hi : FreeDiff s i) (hh : ∀ k o, s.hunk k = some o → i ∉ o.diffs) :
    s.deleteDiff i = Res.ok (s.without { diffs := [i], strings := linesOf s i, markers := (linesOf s i).flatMap (marksOf s) }) ∧
      Closed s { diffs := [i], strings := linesOf s i, markers := (linesOf s i).flatMap (marksOf s) } := by
  refine ⟨?_, ?_, ?_, ?_, ?_, ?_⟩
  · rw [deleteDiff_eq hi.1 (h.lines.nodup i) (h.lines.live i) (h.marks.flat_nodup (h.lines.nodup i)) (h.marks.flat_live _)]
    simp only [Objs.without, wipe_nil]
  · intro o x ho hx
    exact h.marks.flat_out ho hx
  · intro o x ho hx hx'
    exact ho (by rw [List.mem_singleton]; exact h.lines.uniq o i x hx hx')
  · intros; simp
  · intro o x _ hx hx'
    rw [List.mem_singleton] at hx'
    exact free_diffs hi o (hx' ▸ hx)
  · intro k o e _ x hx hx'
    rw [List.mem_singleton] at hx'
    exact hh k o e (hx' ▸ hx)

theorem sane_deleteModel {s : Objs} (h : Sane s) {i : Nat} {o : OModel} (hi : s.model i = some o)
    (hh : ∀ k p, s.hunk k = some p → k ∉ o.hunks → ∀ d ∈ p.diffs, d ∉ o.differences) :
    s.deleteModel i = Res.ok (s.without (destroyed s (.deleteModel i))) ∧ Closed s (destroyed s (.deleteModel i)) := by
  refine ⟨?_, ?_, ?_, ?_, ?_, ?_⟩
  · unfold Objs.deleteModel
    rw [deref_some hi, Res.bind_ok, ← hunksOf_some hi, ← diffsOf_some hi,
      deleteHunks_eq (h.hunks.nodup i) (h.hunks.live i), Res.bind_ok]
    have := deleteDiffs_eq (s := ({ s with hunk := wipe s.hunk (hunksOf s i) } : Objs)) (l := diffsOf s i) (h.diffs.nodup i) (h.diffs.live i)
      (h.lines.flat_nodup (h.diffs.nodup i)) (h.lines.flat_live _) (h.marks.flat_nodup (h.lines.flat_nodup (h.diffs.nodup i)))
      (h.marks.flat_live _)
    rw [this, Res.bind_ok]
    simp only [Objs.without, destroyed, put_none]
    rfl
  · intro p x hp hx
    exact h.marks.flat_out hp hx
  · intro p x hp hx
    exact h.lines.flat_out hp hx
  · intro p x hp hx hx'
    exact hp (by show p ∈ [i]; rw [List.mem_singleton]; exact h.hunks.uniq p i x hx hx')
  · intro p x hp hx hx'
    exact hp (by show p ∈ [i]; rw [List.mem_singleton]; exact h.diffs.uniq p i x hx hx')
  · intro k p e hk x hx hx'
    have hk : k ∉ hunksOf s i := hk
    have hx' : x ∈ diffsOf s i := hx'
    rw [hunksOf_some hi] at hk
    rw [diffsOf_some hi] at hx'
    exact hh k p e hk x hx hx'

end KompareDiff2
