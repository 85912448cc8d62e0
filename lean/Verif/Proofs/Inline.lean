import Verif.Model.LinesChanged
import Verif.Proofs.InlineMarkers
import Verif.Proofs.TableSafety
/-
`determineInlineDifferences` / `computeDiffStats` are defined on lines of fewer than 65535 characters and change
nothing but the markers (and, for `computeDiffStats`, the type).
-/
namespace KompareDiff2
open Spec

theorem LTable.init_valid : LTable.init.Valid := by
  refine ⟨?_, by decide⟩
  rw [LTable.init, List.length_replicate]

/-- A line that inline comparison can handle without overflowing the table size computation. -/
def ShortLine (l : Str) : Prop := l.length < 65535

instance (l : Str) : Decidable (ShortLine l) := inferInstanceAs (Decidable (_ < _))

theorem short_product {a b : Nat} (ha : a < 65535) (hb : b < 65535) : (a + 1) * (b + 1) < 2 ^ 32 := by
  have : (a + 1) * (b + 1) ≤ 65535 * 65535 := Nat.mul_le_mul (by omega) (by omega)
  omega

theorem createTable_short {t : LTable} (hv : t.Valid) {a b : Str} (ha : ShortLine a) (hb : ShortLine b) (mf ms) :
    (∃ t', t.createTable (differenceStringPair ' ' a b mf ms) = Res.ok (D true a b a.length b.length, t') ∧
      t'.Filled true a b ∧ t'.Valid) ∨
    t.createTable (differenceStringPair ' ' a b mf ms) = Res.ok (0, t) := by
  have hlt := short_product ha hb
  by_cases h : (a.length + 1) * (b.length + 1) ≤ 2 ^ 24
  · left
    obtain ⟨t', h1, h2⟩ := createTable_filled hv (differenceStringPair_of ' ' a b mf ms) h
    exact ⟨t', h1, h2, h2.ready.valid⟩
  · right
    unfold LTable.createTable LTable.setSize
    have hp := differenceStringPair_of ' ' a b mf ms
    rw [hp.lenF, hp.lenS]
    have hu : uintMod = 2 ^ 32 := rfl
    have h24 : (2:Nat)^24 = 256*256*256 := by decide
    rw [if_pos (by rw [hu, Nat.mod_eq_of_lt hlt]; omega)]

/-- Lines as freshly added to a difference: no markers, short. -/
def FreshLines (l : List DStr) : Prop := ∀ x ∈ l, x.markers = [] ∧ ShortLine x.string

/-- Forget the markers. -/
def DStr.bare (d : DStr) : DStr := { d with markers := [] }

theorem inlineLoop_ok {t : LTable} (hv : t.Valid) (ss ds : List DStr) (h1 : FreshLines ss) (h2 : FreshLines ds) :
    ∃ ss' ds', inlineLoop t ss ds = Res.ok (ss', ds') ∧ ss'.map DStr.bare = ss.map DStr.bare ∧
      ds'.map DStr.bare = ds.map DStr.bare := by
  induction ss generalizing t ds with
  | nil => exact ⟨[], ds, by simp [inlineLoop], rfl, rfl⟩
  | cons sl ss ih =>
    cases ds with
    | nil => exact ⟨sl :: ss, [], by simp [inlineLoop], rfl, rfl⟩
    | cons dl ds =>
      obtain ⟨a1, a2⟩ := h1 sl (by simp)
      obtain ⟨b1, b2⟩ := h2 dl (by simp)
      have i1 : FreshLines ss := fun x hx => h1 x (by simp [hx])
      have i2 : FreshLines ds := fun x hx => h2 x (by simp [hx])
      unfold inlineLoop
      rcases createTable_short hv a2 b2 sl.markers dl.markers with ⟨t', e, hf, hv'⟩ | e
      · obtain ⟨ss', ds', f1, f2, f3⟩ := ih hv' ds i1 i2
        obtain ⟨m1, m2, hm, _⟩ := inlineMarkers (p := differenceStringPair ' ' sl.string dl.string sl.markers dl.markers)
          hf rfl a1 b1
        simp only [e, Res.bind_ok]
        by_cases hz : D true sl.string dl.string sl.string.length dl.string.length = 0
        · simp only [hz, ne_eq, not_true_eq_false, if_false, Res.bind_ok, f1]
          exact ⟨_, _, rfl, by simp [DStr.bare, f2], by simp [DStr.bare, f3]⟩
        · simp only [ne_eq, hz, not_false_eq_true, if_true, hm, Res.bind_ok, f1]
          exact ⟨_, _, rfl, by simp [DStr.bare, f2], by simp [DStr.bare, f3]⟩
      · obtain ⟨ss', ds', f1, f2, f3⟩ := ih hv ds i1 i2
        simp only [e, Res.bind_ok, ne_eq, not_true_eq_false, if_false, f1]
        exact ⟨_, _, rfl, by simp [DStr.bare, f2], by simp [DStr.bare, f3]⟩

theorem bare_text {l l' : List DStr} (h : l.map DStr.bare = l'.map DStr.bare) :
    l.map DStr.string = l'.map DStr.string := by
  have := congrArg (List.map DStr.string) h
  rw [List.map_map, List.map_map] at this
  exact this

/-- Equal up to the markers of the lines. -/
def Diff.bare (d : Diff) : Diff := { d with source := d.source.map DStr.bare, dest := d.dest.map DStr.bare }

/-- A difference under construction. -/
def Diff.Fresh (d : Diff) : Prop := FreshLines d.source ∧ FreshLines d.dest

theorem determineInline_ok {d : Diff} (h : d.Fresh) : ∃ d', d.determineInline = Res.ok d' ∧ d'.bare = d.bare := by
  unfold Diff.determineInline
  split
  · exact ⟨d, rfl, rfl⟩
  · split
    · exact ⟨d, rfl, rfl⟩
    · obtain ⟨ss', ds', h1, h2, h3⟩ := inlineLoop_ok LTable.init_valid d.source d.dest h.1 h.2
      rw [h1]
      exact ⟨_, rfl, by simp [Diff.bare, h2, h3]⟩

/-- The type according to which sides hold lines. -/
def typeOf (d : Diff) : DiffType :=
  if d.slc > 0 ∧ d.dlc > 0 then .Change else if d.slc > 0 then .Delete else if d.dlc > 0 then .Insert else d.type

theorem computeDiffStats_ok {d : Diff} (h : d.Fresh) :
    ∃ d', computeDiffStats d = Res.ok d' ∧ d'.bare = ({ d with type := typeOf d } : Diff).bare := by
  have key : ∀ ty : DiffType, ({ d with type := ty } : Diff).Fresh := fun _ => h
  unfold computeDiffStats typeOf
  simp only
  split
  · exact determineInline_ok (key _)
  · split
    · exact determineInline_ok (key _)
    · split
      · exact determineInline_ok (key _)
      · exact determineInline_ok h

theorem foldl_addSource (ls : List Str) (d : Diff) :
    ls.foldl Diff.addSource d = { d with source := d.source ++ ls.map (fun l => DStr.ofStr l) } := by
  induction ls generalizing d with
  | nil => simp
  | cons l ls ih => simp [ih, Diff.addSource]

theorem foldl_addDest (ls : List Str) (d : Diff) :
    ls.foldl Diff.addDest d = { d with dest := d.dest ++ ls.map (fun l => DStr.ofStr l) } := by
  induction ls generalizing d with
  | nil => simp
  | cons l ls ih => simp [ih, Diff.addDest]

theorem freshLines_ofStr (ls : List Str) (h : ∀ l ∈ ls, ShortLine l) : FreshLines (ls.map (fun l => DStr.ofStr l)) := by
  intro x hx
  obtain ⟨l, hl, rfl⟩ := List.mem_map.1 hx
  exact ⟨rfl, h l hl⟩

@[simp] theorem map_string_ofStr (ls : List Str) : (ls.map (fun l => DStr.ofStr l)).map DStr.string = ls := by
  induction ls with
  | nil => rfl
  | cons l ls ih => simpa [DStr.ofStr] using ih

theorem bare_srcText {d d' : Diff} (h : d.bare = d'.bare) : d.srcText = d'.srcText := by
  have := congrArg Diff.source h
  exact bare_text this

theorem bare_dstText {d d' : Diff} (h : d.bare = d'.bare) : d.dstText = d'.dstText := by
  have := congrArg Diff.dest h
  exact bare_text this

end KompareDiff2
