import Verif.Proofs.InlineAgain
import Verif.Spec.Own
/-
Ownership: the invariant of clients that follow the rules.
-/
namespace KompareDiff2
open Spec

/-- Every owned object exists, and is owned once. -/
structure Layer (own : Nat → List Nat) (live : Nat → Prop) : Prop where
  nodup : ∀ o, (own o).Nodup
  live : ∀ o x, x ∈ own o → live x
  uniq : ∀ o p x, x ∈ own o → x ∈ own p → o = p

theorem Layer.sub {own own' : Nat → List Nat} {live live' : Nat → Prop} (h : Layer own live) (hs : ∀ o, own' o = own o ∨ own' o = [])
    (hl : ∀ o x, x ∈ own' o → live' x) : Layer own' live' := by
  have key : ∀ o x, x ∈ own' o → x ∈ own o := by
    intro o x hx
    rcases hs o with e | e <;> rw [e] at hx
    · exact hx
    · simp at hx
  refine ⟨fun o => ?_, hl, fun o p x h1 h2 => h.uniq o p x (key _ _ h1) (key _ _ h2)⟩
  rcases hs o with e | e <;> rw [e]
  · exact h.nodup o
  · exact List.nodup_nil

theorem Layer.set {own own' : Nat → List Nat} {live live' : Nat → Prop} (h : Layer own live) {i : Nat} {l : List Nat} (hi : own' i = l)
    (ho : ∀ o, o ≠ i → own' o = own o) (hn : l.Nodup) (hl : ∀ x ∈ l, live' x) (hf : ∀ x ∈ l, ∀ o, o ≠ i → x ∉ own o)
    (hm : ∀ x, live x → live' x) : Layer own' live' := by
  refine ⟨fun o => ?_, fun o x hx => ?_, fun o p x h1 h2 => ?_⟩
  · by_cases e : o = i
    · rw [e, hi]; exact hn
    · rw [ho o e]; exact h.nodup o
  · by_cases e : o = i
    · rw [e, hi] at hx; exact hl x hx
    · rw [ho o e] at hx; exact hm x (h.live o x hx)
  · by_cases e : o = i
    · by_cases e' : p = i
      · rw [e, e']
      · rw [e, hi] at h1; rw [ho p e'] at h2
        exact absurd h2 (hf x h1 p e')
    · rw [ho o e] at h1
      by_cases e' : p = i
      · rw [e', hi] at h2
        exact absurd h1 (hf x h2 o e)
      · rw [ho p e'] at h2
        exact h.uniq o p x h1 h2

theorem Layer.flat_nodup {own : Nat → List Nat} {live : Nat → Prop} (h : Layer own live) {l : List Nat} (hl : l.Nodup) :
    (l.flatMap own).Nodup := by
  induction l with
  | nil => exact List.nodup_nil
  | cons a l ih =>
    rw [List.nodup_cons] at hl
    rw [List.flatMap_cons, List.nodup_append]
    refine ⟨h.nodup a, ih hl.2, ?_⟩
    intro x hx y hy e
    subst e
    obtain ⟨b, hb, hxb⟩ := List.mem_flatMap.1 hy
    exact hl.1 (h.uniq a b x hx hxb ▸ hb)

theorem Layer.flat_live {own : Nat → List Nat} {live : Nat → Prop} (h : Layer own live) (l : List Nat) : ∀ x ∈ l.flatMap own, live x := by
  intro x hx
  obtain ⟨b, _, hxb⟩ := List.mem_flatMap.1 hx
  exact h.live b x hxb

/-- The memory of a client that follows the rules. -/
structure Sane (s : Objs) : Prop where
  marks : Layer (marksOf s) (fun x => (s.marker x).isSome)
  lines : Layer (linesOf s) (fun x => (s.string x).isSome)
  hunks : Layer (hunksOf s) (fun x => (s.hunk x).isSome)
  diffs : Layer (diffsOf s) (fun x => (s.diff x).isSome)
  shown : ∀ h k, s.hunk h = some k → ∀ d ∈ k.diffs, (s.diff d).isSome
  freshM : ∀ i, s.next ≤ i → s.marker i = none
  freshS : ∀ i, s.next ≤ i → s.string i = none
  freshD : ∀ i, s.next ≤ i → s.diff i = none
  freshH : ∀ i, s.next ≤ i → s.hunk i = none
  freshO : ∀ i, s.next ≤ i → s.model i = none

theorem marksOf_some {s : Objs} {i : Nat} {o : OStr} (h : s.string i = some o) : marksOf s i = o.markers := by simp [marksOf, h]
theorem marksOf_none {s : Objs} {i : Nat} (h : s.string i = none) : marksOf s i = [] := by simp [marksOf, h]
theorem linesOf_some {s : Objs} {i : Nat} {o : ODiff} (h : s.diff i = some o) : linesOf s i = o.source ++ o.dest := by simp [linesOf, h]
theorem linesOf_none {s : Objs} {i : Nat} (h : s.diff i = none) : linesOf s i = [] := by simp [linesOf, h]
theorem hunksOf_some {s : Objs} {i : Nat} {o : OModel} (h : s.model i = some o) : hunksOf s i = o.hunks := by simp [hunksOf, h]
theorem hunksOf_none {s : Objs} {i : Nat} (h : s.model i = none) : hunksOf s i = [] := by simp [hunksOf, h]
theorem diffsOf_some {s : Objs} {i : Nat} {o : OModel} (h : s.model i = some o) : diffsOf s i = o.differences := by simp [diffsOf, h]
theorem diffsOf_none {s : Objs} {i : Nat} (h : s.model i = none) : diffsOf s i = [] := by simp [diffsOf, h]

theorem put_at_same {α : Type} (f : Nat → Option α) (i : Nat) (v : Option α) : put f i v i = v := by simp [put]
theorem put_ne {α : Type} (f : Nat → Option α) {i j : Nat} (v : Option α) (h : j ≠ i) : put f i v j = f j := by simp [put, h]

theorem deref_some {α : Type} {f : Nat → Option α} {i : Nat} {v : α} (h : f i = some v) : deref f i = Res.ok v := by simp [deref, h]
theorem deref_ok {α : Type} {f : Nat → Option α} {i : Nat} {v : α} (h : deref f i = Res.ok v) : f i = some v := by
  unfold deref at h
  split at h
  · cases h; assumption
  · cases h
theorem deref_isSome {α : Type} {f : Nat → Option α} {i : Nat} (h : (f i).isSome) : ∃ v, f i = some v ∧ deref f i = Res.ok v := by
  obtain ⟨v, hv⟩ := Option.isSome_iff_exists.1 h
  exact ⟨v, hv, deref_some hv⟩

theorem sane_start : Sane {} := by
  refine ⟨?_, ?_, ?_, ?_, ?_, fun _ _ => rfl, fun _ _ => rfl, fun _ _ => rfl, fun _ _ => rfl, fun _ _ => rfl⟩
  · exact ⟨fun _ => List.nodup_nil, fun o x h => by simp [marksOf] at h, fun o p x h => by simp [marksOf] at h⟩
  · exact ⟨fun _ => List.nodup_nil, fun o x h => by simp [linesOf] at h, fun o p x h => by simp [linesOf] at h⟩
  · exact ⟨fun _ => List.nodup_nil, fun o x h => by simp [hunksOf] at h, fun o p x h => by simp [hunksOf] at h⟩
  · exact ⟨fun _ => List.nodup_nil, fun o x h => by simp [diffsOf] at h, fun o p x h => by simp [diffsOf] at h⟩
  · intro h k e; cases e

/-! ### Reading -/

theorem readAll_ok {α : Type} {f : Nat → Res α} {l : List Nat} (h : ∀ i ∈ l, ∃ v, f i = Res.ok v) : ∃ vs, readAll f l = Res.ok vs := by
  induction l with
  | nil => exact ⟨[], rfl⟩
  | cons i l ih =>
    obtain ⟨v, hv⟩ := h i (by simp)
    obtain ⟨vs, hvs⟩ := ih (fun j hj => h j (by simp [hj]))
    exact ⟨v :: vs, by simp only [readAll, hv, hvs, Res.bind_ok]⟩

theorem readAll_congr {α : Type} {f g : Nat → Res α} {l : List Nat} (h : ∀ i ∈ l, f i = g i) : readAll f l = readAll g l := by
  induction l with
  | nil => rfl
  | cons i l ih => simp only [readAll, h i (by simp), ih (fun j hj => h j (by simp [hj]))]

theorem readAll_append {α : Type} {f : Nat → Res α} {l l' : List Nat} {vs vs' : List α} (h : readAll f l = Res.ok vs)
    (h' : readAll f l' = Res.ok vs') : readAll f (l ++ l') = Res.ok (vs ++ vs') := by
  induction l generalizing vs with
  | nil => simp only [readAll] at h; cases h; exact h'
  | cons i l ih =>
    simp only [readAll, Res.bind_eq_ok] at h
    obtain ⟨v, h1, ws, h2, h3⟩ := h
    cases h3
    simp only [List.cons_append, readAll, h1, ih h2, Res.bind_ok]

theorem readAll_length {α : Type} {f : Nat → Res α} {l : List Nat} {vs : List α} (h : readAll f l = Res.ok vs) : vs.length = l.length := by
  induction l generalizing vs with
  | nil => simp only [readAll] at h; cases h; rfl
  | cons i l ih =>
    simp only [readAll, Res.bind_eq_ok] at h
    obtain ⟨v, h1, ws, h2, h3⟩ := h
    cases h3
    simp [ih h2]

theorem sane_line {s : Objs} (h : Sane s) {i : Nat} (hi : (s.string i).isSome) : ∃ v, s.line i = Res.ok v := by
  obtain ⟨o, ho, hd⟩ := deref_isSome hi
  obtain ⟨ms, hms⟩ := readAll_ok (f := deref s.marker) (l := o.markers) (fun m hm => by
    obtain ⟨v, _, e⟩ := deref_isSome (h.marks.live i m (by rw [marksOf_some ho]; exact hm))
    exact ⟨v, e⟩)
  unfold Objs.line
  rw [hd, Res.bind_ok, hms, Res.bind_ok]
  exact ⟨_, rfl⟩

theorem sane_difference {s : Objs} (h : Sane s) {i : Nat} (hi : (s.diff i).isSome) : ∃ v, s.difference i = Res.ok v := by
  obtain ⟨o, ho, hd⟩ := deref_isSome hi
  have key : ∀ l ∈ o.source ++ o.dest, ∃ v, s.line l = Res.ok v := fun l hl =>
    sane_line h (h.lines.live i l (by rw [linesOf_some ho]; exact hl))
  obtain ⟨a, ha⟩ := readAll_ok (fun l hl => key l (List.mem_append_left _ hl))
  obtain ⟨b, hb⟩ := readAll_ok (fun l hl => key l (List.mem_append_right _ hl))
  unfold Objs.difference
  rw [hd, Res.bind_ok, ha, Res.bind_ok, hb, Res.bind_ok]
  exact ⟨_, rfl⟩

theorem sane_readable {s : Objs} (h : Sane s) : AllReadable s := by
  have hk : ∀ i, (s.hunk i).isSome → ∃ v, s.hunkDifferences i = Res.ok v := by
    intro i hi
    obtain ⟨o, ho, hd⟩ := deref_isSome hi
    simp only [Objs.hunkDifferences, hd, Res.bind_ok]
    exact readAll_ok (fun d hd => sane_difference h (h.shown i o ho d hd))
  refine ⟨fun i => sane_line h, fun i => sane_difference h, hk, fun i hi => ?_⟩
  obtain ⟨o, ho, hd⟩ := deref_isSome hi
  simp only [Objs.modelDifferences, Objs.modelHunks, hd, Res.bind_ok]
  exact ⟨readAll_ok (fun d hd => sane_difference h (h.diffs.live i d (by rw [diffsOf_some ho]; exact hd))),
    readAll_ok (fun d hd => hk d (h.hunks.live i d (by rw [hunksOf_some ho]; exact hd)))⟩

/-! ### Destroying -/

/-- Storing `none` at several addresses. -/
def wipe {α : Type} (f : Nat → Option α) (l : List Nat) : Nat → Option α := fun x => if x ∈ l then none else f x

theorem wipe_in {α : Type} {f : Nat → Option α} {l : List Nat} {x : Nat} (h : x ∈ l) : wipe f l x = none := by simp [wipe, h]
theorem wipe_out {α : Type} {f : Nat → Option α} {l : List Nat} {x : Nat} (h : x ∉ l) : wipe f l x = f x := by simp [wipe, h]
theorem wipe_nil {α : Type} (f : Nat → Option α) : wipe f [] = f := by funext x; simp [wipe]
theorem wipe_put {α : Type} (f : Nat → Option α) (i : Nat) (l : List Nat) : wipe (put f i none) l = wipe f (i :: l) := by
  funext x
  simp only [wipe, put, List.mem_cons]
  by_cases h : x ∈ l <;> by_cases e : x = i <;> simp [h, e]
theorem put_wipe {α : Type} (f : Nat → Option α) (i : Nat) (l : List Nat) : put (wipe f l) i none = wipe f (i :: l) := by
  funext x
  simp only [wipe, put, List.mem_cons]
  by_cases h : x ∈ l <;> by_cases e : x = i <;> simp [h, e]
theorem put_none {α : Type} (f : Nat → Option α) (i : Nat) : put f i none = wipe f [i] := by
  funext x
  simp [wipe, put]
theorem wipe_wipe {α : Type} (f : Nat → Option α) (l l' : List Nat) : wipe (wipe f l) l' = wipe f (l ++ l') := by
  funext x
  simp only [wipe, List.mem_append]
  by_cases h : x ∈ l <;> by_cases h' : x ∈ l' <;> simp [h, h']
theorem wipe_isSome {α : Type} {f : Nat → Option α} {l : List Nat} {x : Nat} (h : (f x).isSome) : (wipe f l x).isSome ↔ x ∉ l := by
  by_cases e : x ∈ l
  · simp [wipe, e]
  · simp [wipe, e, h]

theorem deleteAll_append (f : Objs → Nat → Res Objs) (l l' : List Nat) (s : Objs) :
    deleteAll f (l ++ l') s = (deleteAll f l s >>= deleteAll f l') := by
  induction l generalizing s with
  | nil => rfl
  | cons i l ih =>
    simp only [List.cons_append, deleteAll, bind_assoc]
    congr 1
    funext t
    exact ih t

theorem deleteMarkers_eq {l : List Nat} {s : Objs} (hn : l.Nodup) (hl : ∀ x ∈ l, (s.marker x).isSome) :
    deleteAll Objs.deleteMarker l s = Res.ok { s with marker := wipe s.marker l } := by
  induction l generalizing s with
  | nil => simp only [deleteAll, wipe_nil]
  | cons i l ih =>
    rw [List.nodup_cons] at hn
    obtain ⟨v, hv, hd⟩ := deref_isSome (hl i (by simp))
    simp only [deleteAll, Objs.deleteMarker, hd, Res.bind_ok]
    rw [ih hn.2 (fun x hx => by
      have : x ≠ i := fun e => hn.1 (e ▸ hx)
      simp only [put_ne _ _ this]
      exact hl x (by simp [hx]))]
    simp only [wipe_put]

theorem deleteHunks_eq {l : List Nat} {s : Objs} (hn : l.Nodup) (hl : ∀ x ∈ l, (s.hunk x).isSome) :
    deleteAll Objs.deleteHunk l s = Res.ok { s with hunk := wipe s.hunk l } := by
  induction l generalizing s with
  | nil => simp only [deleteAll, wipe_nil]
  | cons i l ih =>
    rw [List.nodup_cons] at hn
    obtain ⟨v, hv, hd⟩ := deref_isSome (hl i (by simp))
    simp only [deleteAll, Objs.deleteHunk, hd, Res.bind_ok]
    rw [ih hn.2 (fun x hx => by
      have : x ≠ i := fun e => hn.1 (e ▸ hx)
      simp only [put_ne _ _ this]
      exact hl x (by simp [hx]))]
    simp only [wipe_put]

theorem deleteString_eq {i : Nat} {s : Objs} (hi : (s.string i).isSome) (hn : (marksOf s i).Nodup) (hl : ∀ x ∈ marksOf s i, (s.marker x).isSome) :
    s.deleteString i = Res.ok { s with marker := wipe s.marker (marksOf s i), string := wipe s.string [i] } := by
  obtain ⟨o, ho, hd⟩ := deref_isSome hi
  rw [marksOf_some ho] at hn hl ⊢
  simp only [Objs.deleteString, hd, Res.bind_ok, deleteMarkers_eq hn hl, put_none]

theorem marksOf_wipe {s t : Objs} {l : List Nat} (h : t.string = wipe s.string l) {j : Nat} (hj : j ∉ l) : marksOf t j = marksOf s j := by
  simp only [marksOf, h, wipe_out hj]

theorem flatMap_eq {f g : Nat → List Nat} {l : List Nat} (h : ∀ j ∈ l, f j = g j) : l.flatMap f = l.flatMap g := by
  induction l with
  | nil => rfl
  | cons a l ih => rw [List.flatMap_cons, List.flatMap_cons, h a (by simp), ih (fun j hj => h j (by simp [hj]))]

theorem deleteStrings_eq {l : List Nat} {s : Objs} (hn : l.Nodup) (hl : ∀ x ∈ l, (s.string x).isSome) (hmn : (l.flatMap (marksOf s)).Nodup)
    (hml : ∀ x ∈ l.flatMap (marksOf s), (s.marker x).isSome) :
    deleteAll Objs.deleteString l s =
      Res.ok { s with marker := wipe s.marker (l.flatMap (marksOf s)), string := wipe s.string l } := by
  induction l generalizing s with
  | nil => simp only [deleteAll, wipe_nil, List.flatMap_nil]
  | cons i l ih =>
    rw [List.nodup_cons] at hn
    rw [List.flatMap_cons] at hmn hml ⊢
    rw [List.nodup_append] at hmn
    simp only [deleteAll]
    rw [deleteString_eq (hl i (by simp)) hmn.1 (fun x hx => hml x (List.mem_append_left _ hx)), Res.bind_ok]
    have e : l.flatMap (marksOf ({ s with marker := wipe s.marker (marksOf s i), string := wipe s.string [i] } : Objs)) =
        l.flatMap (marksOf s) := flatMap_eq (fun j hj => marksOf_wipe (l := [i]) rfl (by
      intro h; rw [List.mem_singleton] at h; exact hn.1 (h ▸ hj)))
    rw [ih hn.2 (fun x hx => ?_) (by rw [e]; exact hmn.2.1) (by
      rw [e]
      intro x hx
      show (wipe s.marker (marksOf s i) x).isSome
      rw [wipe_out (fun h => hmn.2.2 x h x hx rfl)]
      exact hml x (List.mem_append_right _ hx)), e]
    · simp only [wipe_wipe, List.singleton_append]
    · show (wipe s.string [i] x).isSome
      rw [wipe_out (by intro h; rw [List.mem_singleton] at h; exact hn.1 (h ▸ hx))]
      exact hl x (by simp [hx])

theorem deleteDiff_eq {i : Nat} {s : Objs} (hi : (s.diff i).isSome) (hn : (linesOf s i).Nodup) (hl : ∀ x ∈ linesOf s i, (s.string x).isSome)
    (hmn : ((linesOf s i).flatMap (marksOf s)).Nodup) (hml : ∀ x ∈ (linesOf s i).flatMap (marksOf s), (s.marker x).isSome) :
    s.deleteDiff i = Res.ok { s with marker := wipe s.marker ((linesOf s i).flatMap (marksOf s)), string := wipe s.string (linesOf s i),
                                     diff := wipe s.diff [i] } := by
  obtain ⟨o, ho, hd⟩ := deref_isSome hi
  have := deleteStrings_eq hn hl hmn hml
  rw [linesOf_some ho, deleteAll_append] at this
  rw [linesOf_some ho]
  unfold Objs.deleteDiff
  rw [hd, Res.bind_ok, ← bind_assoc, this, Res.bind_ok]
  simp only [put_none]

theorem linesOf_wipe {s t : Objs} {l : List Nat} (h : t.diff = wipe s.diff l) {j : Nat} (hj : j ∉ l) : linesOf t j = linesOf s j := by
  simp only [linesOf, h, wipe_out hj]

theorem deleteDiffs_eq {l : List Nat} {s : Objs} (hn : l.Nodup) (hl : ∀ x ∈ l, (s.diff x).isSome) (hln : (l.flatMap (linesOf s)).Nodup)
    (hll : ∀ x ∈ l.flatMap (linesOf s), (s.string x).isSome) (hmn : ((l.flatMap (linesOf s)).flatMap (marksOf s)).Nodup)
    (hml : ∀ x ∈ (l.flatMap (linesOf s)).flatMap (marksOf s), (s.marker x).isSome) :
    deleteAll Objs.deleteDiff l s =
      Res.ok { s with marker := wipe s.marker ((l.flatMap (linesOf s)).flatMap (marksOf s)),
                      string := wipe s.string (l.flatMap (linesOf s)), diff := wipe s.diff l } := by
  induction l generalizing s with
  | nil => simp only [deleteAll, wipe_nil, List.flatMap_nil]
  | cons i l ih =>
    rw [List.nodup_cons] at hn
    rw [List.flatMap_cons] at hln hll hmn hml ⊢
    rw [List.flatMap_append] at hmn hml ⊢
    rw [List.nodup_append] at hln hmn
    simp only [deleteAll]
    rw [deleteDiff_eq (hl i (by simp)) hln.1 (fun x hx => hll x (List.mem_append_left _ hx)) hmn.1
      (fun x hx => hml x (List.mem_append_left _ hx)), Res.bind_ok]
    generalize ht : ({ s with marker := wipe s.marker ((linesOf s i).flatMap (marksOf s)), string := wipe s.string (linesOf s i),
                              diff := wipe s.diff [i] } : Objs) = t
    have t1 : t.diff = wipe s.diff [i] := by rw [← ht]
    have t2 : t.string = wipe s.string (linesOf s i) := by rw [← ht]
    have t3 : t.marker = wipe s.marker ((linesOf s i).flatMap (marksOf s)) := by rw [← ht]
    have e : l.flatMap (linesOf t) = l.flatMap (linesOf s) := flatMap_eq (fun j hj => linesOf_wipe t1 (by
      intro h; rw [List.mem_singleton] at h; exact hn.1 (h ▸ hj)))
    have e' : (l.flatMap (linesOf s)).flatMap (marksOf t) = (l.flatMap (linesOf s)).flatMap (marksOf s) := flatMap_eq (fun j hj =>
      marksOf_wipe t2 (fun h => hln.2.2 j h j hj rfl))
    rw [ih hn.2 (fun x hx => ?_) (by rw [e]; exact hln.2.1) (by
        rw [e]
        intro x hx
        rw [t2, wipe_out (fun h => hln.2.2 x h x hx rfl)]
        exact hll x (List.mem_append_right _ hx)) (by rw [e, e']; exact hmn.2.1) (by
        rw [e, e']
        intro x hx
        rw [t3, wipe_out (fun h => hmn.2.2 x h x hx rfl)]
        exact hml x (List.mem_append_right _ hx)), e, e', t1, t2, t3]
    · rw [← ht]
      simp only [wipe_wipe, List.singleton_append]
    · rw [t1, wipe_out (by intro h; rw [List.mem_singleton] at h; exact hn.1 (h ▸ hx))]
      exact hl x (by simp [hx])

end KompareDiff2
