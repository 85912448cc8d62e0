import Verif.Proofs.Utf16
import Verif.Props.Parser
import Verif.Props.ParserSound
import Verif.Props.InlineMarks
import Verif.Props.Context
import Verif.Props.Normal
/-
C65: characters outside the basic plane.
-/
namespace KompareDiff2
open Spec

/-- **C65.** The code units tell the text, and for a text in the basic plane they are its characters. -/
theorem C65_code_units : (∀ a b, units a = units b → a = b) ∧ ∀ t : Str, (∀ c ∈ t, c.toNat < 0x10000) → units t = t :=
  ⟨fun _ _ => units_inj, fun _ h => units_plain (fun c hc ha => Nat.not_lt.2 ha (h c hc))⟩

/-- **C65.** A well-formed unified diff with any characters in names, functions and lines is read as it is written, although the library reads code units. -/
theorem C65_unified (d : UDiff) (ok : d.Ok) (hs : ∀ f ∈ d.files, ∀ h ∈ f.hunks, h.UnitsShort) (hne : d.files ≠ []) (win : Bool) (cmp : Str → Str → Int) (heap : Heap) :
    ∃ r, parse win cmp heap (split (units d.render.flatten)) = Res.ok r ∧ r.malformed = false ∧
      (match r.models with
        | none => ∀ f ∈ d.files, f.changes = false
        | some ms => ms ≠ [] ∧
            (ms.map (DModel.view r.heap)).Perm ((d.files.filter UFile.changes).map (fun f => (f.view (unescapePath win)).units))) := by
  obtain ⟨r, h1, h2, h3⟩ := C26_unified d.units (UDiff.units_ok ok hs) (by
    intro e
    have e : d.files.map UFile.units = [] := e
    exact hne (List.map_eq_nil_iff.1 e)) win cmp heap
  rw [UDiff.units_render, ← units_flatten] at h1
  refine ⟨r, h1, h2, ?_⟩
  cases hm : r.models with
  | none =>
    rw [hm] at h3
    intro f hf
    rw [← UFile.units_changes]
    exact h3 f.units (List.mem_map.2 ⟨f, hf, rfl⟩)
  | some ms =>
    rw [hm] at h3
    refine ⟨h3.1, ?_⟩
    have e : (d.units.files.filter UFile.changes).map (UFile.view (unescapePath win)) =
        (d.files.filter UFile.changes).map (fun f => (f.view (unescapePath win)).units) := by
      show ((d.files.map UFile.units).filter UFile.changes).map _ = _
      rw [List.filter_map, List.map_map]
      have : UFile.changes ∘ UFile.units = UFile.changes := funext UFile.units_changes
      rw [this]
      exact List.map_congr_left (fun f _ => UFile.units_view win f)
    rw [← e]
    exact h3.2

/-- **C65.** The same for context diffs. -/
theorem C65_context (d : CDiff) (ok : d.Ok) (hs : ∀ f ∈ d.files, ∀ h ∈ f.hunks, h.UnitsShort) (hne : d.files ≠ []) (win : Bool) (cmp : Str → Str → Int) (heap : Heap) :
    ∃ r, parse win cmp heap (split (units d.render.flatten)) = Res.ok r ∧ r.malformed = false ∧
      (match r.models with
        | none => ∀ f ∈ d.files, f.hunks = []
        | some ms => ms ≠ [] ∧
            (ms.map (DModel.view r.heap)).Perm
              ((d.files.filter (fun f => decide (f.hunks ≠ []))).map (fun f => (f.view (unescapePath win) d.cvs).units))) := by
  obtain ⟨r, h1, h2, h3⟩ := C33_context d.units (CDiff.units_ok ok hs) (by
    intro e
    have e : d.files.map CFile.units = [] := e
    exact hne (List.map_eq_nil_iff.1 e)) win cmp heap
  rw [CDiff.units_render, ← units_flatten] at h1
  rw [CDiff.units_cvs] at h3
  refine ⟨r, h1, h2, ?_⟩
  cases hm : r.models with
  | none =>
    rw [hm] at h3
    intro f hf
    have : f.hunks.map CHunk.units = [] := h3 f.units (List.mem_map.2 ⟨f, hf, rfl⟩)
    exact List.map_eq_nil_iff.1 this
  | some ms =>
    rw [hm] at h3
    refine ⟨h3.1, ?_⟩
    have e : (d.units.files.filter (fun f => decide (f.hunks ≠ []))).map (fun f => f.view (unescapePath win) d.cvs) =
        (d.files.filter (fun f => decide (f.hunks ≠ []))).map (fun f => (f.view (unescapePath win) d.cvs).units) := by
      show ((d.files.map CFile.units).filter _).map _ = _
      rw [List.filter_map, List.map_map]
      have : (fun f : CFile => decide (f.hunks ≠ [])) ∘ CFile.units = fun f => decide (f.hunks ≠ []) := by
        funext f
        show decide (f.hunks.map CHunk.units ≠ []) = _
        simp only [ne_eq, List.map_eq_nil_iff]
      rw [this]
      exact List.map_congr_left (fun f _ => CFile.units_view win d.cvs f)
    rw [← e]
    exact h3.2

/-- **C65.** The same for a normal diff of one file. -/
theorem C65_normal (cs : List NCmd) (ok : ∀ c ∈ cs, c.Ok) (hne : cs ≠ []) (win : Bool) (cmp : Str → Str → Int) (heap : Heap) :
    ∃ m h', parse win cmp heap (split (units (cs.flatMap NCmd.render).flatten)) = Res.ok { models := some [m], malformed := false, heap := h' } ∧
      m.view h' = (normalView [] [] cs).units := by
  obtain ⟨m, h', h1, h2⟩ := C32_normal (cs.map NCmd.units)
    (by intro c hc; obtain ⟨c0, h0, rfl⟩ := List.mem_map.1 hc; exact NCmd.units_ok (ok c0 h0))
    (by intro e; exact hne (List.map_eq_nil_iff.1 e)) win cmp heap
  refine ⟨m, h', ?_, by rw [h2, normalView_units]⟩
  rw [← h1, units_flatten, List.map_flatMap, List.flatMap_map]
  refine congrArg (fun g => parse win cmp heap (split (List.flatMap g cs).flatten)) (funext fun c => ?_)
  exact (NCmd.units_render c).symm

/-- **C65, defect.** A changed line in which one character outside the basic plane was replaced by another with the same first (or the same second) code unit:
the marked part is half a character, which is not a text. -/
theorem C65_torn_defect {pre post : Str} {c c' : Char} (hc : Astral c) (hc' : Astral c') (hne : c ≠ c')
    (hsame : (c.toNat - 0x10000) / 0x400 = (c'.toNat - 0x10000) / 0x400 ∨ (c.toNat - 0x10000) % 0x400 = (c'.toNat - 0x10000) % 0x400)
    (hsz : ((units (pre ++ c :: post)).length + 1) * ((units (pre ++ c :: post)).length + 1) ≤ 2 ^ 24)
    {m1 m2 : List Marker} (h : PairMarked (units (pre ++ c :: post)) (units (pre ++ c' :: post)) m1 m2) :
    (∀ t, units t ≠ markedText (changedAt m1) 0 (units (pre ++ c :: post))) ∧ (∀ t, units t ≠ markedText (changedAt m2) 0 (units (pre ++ c' :: post))) := by
  have q1 := hiUnit_toNat c
  have q2 := hiUnit_toNat c'
  have q3 := loUnit_toNat c
  have q4 := loUnit_toNat c'
  have hl : (units (pre ++ c :: post)).length = (units pre).length + (units post).length + 2 := by
    rw [units_append, units_astral hc]; simp only [List.length_append, List.length_cons]; omega
  rw [hl] at hsz
  rw [units_append, units_append, units_astral hc, units_astral hc'] at h ⊢
  rcases hsame with hh | hh
  · have e : hiUnit c = hiUnit c' := char_ext (by rw [q1, q2, hh])
    have hn : loUnit c ≠ loUnit c' := fun e' => hne (hi_lo_inj hc hc' e e')
    have r := @one_marked (units pre ++ [hiUnit c]) (units post) (loUnit c) (loUnit c') hn m1 m2
      (by simp only [List.length_append, List.length_cons]; omega)
      (by simp only [List.length_append, List.length_cons, List.length_nil]
          have e : (units pre).length + (0 + 1) + (units post).length + 2 = (units pre).length + (units post).length + 2 + 1 := by omega
          rw [e]; exact hsz)
      (by rw [List.append_assoc, List.append_assoc]
          rw [← e] at h
          exact h)
    rw [List.append_assoc, List.append_assoc] at r
    refine ⟨fun t ht => ?_, fun t ht => ?_⟩
    · exact lone_lo c t (ht.trans r.1)
    · rw [← e] at ht
      exact lone_lo c' t (ht.trans r.2)
  · have e : loUnit c = loUnit c' := char_ext (by rw [q3, q4, hh])
    have hn : hiUnit c ≠ hiUnit c' := fun e' => hne (hi_lo_inj hc hc' e' e)
    have r := @one_marked (units pre) (loUnit c :: units post) (hiUnit c) (hiUnit c') hn m1 m2
      (by simp only [List.length_cons]; omega)
      (by simp only [List.length_cons]
          have e : (units pre).length + ((units post).length + 1) + 2 = (units pre).length + (units post).length + 2 + 1 := by omega
          rw [e]; exact hsz)
      (by rw [← e] at h
          exact h)
    refine ⟨fun t ht => ?_, fun t ht => ?_⟩
    · exact lone_hi c t (ht.trans r.1)
    · rw [← e] at ht
      exact lone_hi c' t (ht.trans r.2)

/-- The same for a difference of one line, from the call that sets the markers. -/
theorem C65_torn_difference_defect {pre post : Str} {c c' : Char} (hc : Astral c) (hc' : Astral c') (hne : c ≠ c')
    (hsame : (c.toNat - 0x10000) / 0x400 = (c'.toNat - 0x10000) / 0x400 ∨ (c.toNat - 0x10000) % 0x400 = (c'.toNat - 0x10000) % 0x400)
    (hsz : ((units (pre ++ c :: post)).length + 1) * ((units (pre ++ c :: post)).length + 1) ≤ 2 ^ 24) (a b : Int) :
    ∃ (d : Diff) (x y : DStr),
      ({ Diff.new a b .Change with source := [DStr.ofStr (units (pre ++ c :: post))], dest := [DStr.ofStr (units (pre ++ c' :: post))] } : Diff).determineInline = Res.ok d ∧
      d.source = [x] ∧ d.dest = [y] ∧ (∀ t, units t ≠ markedText (changedAt x.markers) 0 x.string) ∧ (∀ t, units t ≠ markedText (changedAt y.markers) 0 y.string) := by
  have hlen : (units (pre ++ c' :: post)).length = (units (pre ++ c :: post)).length := by
    rw [units_append, units_append, units_astral hc, units_astral hc']; simp
  have hshort : (units (pre ++ c :: post)).length < 65535 := by
    refine Nat.lt_of_not_le (fun h => absurd hsz (Nat.not_le.2 ?_))
    exact Nat.lt_of_lt_of_le (show 2 ^ 24 < (65535 + 1) * (65535 + 1) by decide) (Nat.mul_le_mul (by omega) (by omega))
  obtain ⟨d', h1, hb, h2⟩ := C49_difference
    { Diff.new a b .Change with source := [DStr.ofStr (units (pre ++ c :: post))], dest := [DStr.ofStr (units (pre ++ c' :: post))] }
    (by intro x hx
        simp only [shownLines, List.map_cons, List.map_nil, List.cons_append, List.nil_append, List.mem_cons, List.not_mem_nil, or_false] at hx
        rcases hx with rfl | rfl <;> rfl)
    (by intro x hx
        simp only [List.cons_append, List.nil_append, List.mem_cons, List.not_mem_nil, or_false] at hx
        rcases hx with rfl | rfl
        · exact hshort
        · show (units (pre ++ c' :: post)).length < _
          rw [hlen]; exact hshort)
  have e1 : d'.source.map DStr.bare = [DStr.ofStr (units (pre ++ c :: post))].map DStr.bare := congrArg Diff.source hb
  have e2 : d'.dest.map DStr.bare = [DStr.ofStr (units (pre ++ c' :: post))].map DStr.bare := congrArg Diff.dest hb
  have e3 : d'.type = .Change := congrArg Diff.type hb
  have t1 := bare_text e1
  have t2 := bare_text e2
  have ex : ∃ x y, d'.source = [x] ∧ d'.dest = [y] ∧ x.string = units (pre ++ c :: post) ∧ y.string = units (pre ++ c' :: post) := by
    match hs : d'.source, hd : d'.dest with
    | [x], [y] =>
      rw [hs] at t1; rw [hd] at t2
      exact ⟨x, y, rfl, rfl, by simpa [DStr.ofStr] using t1, by simpa [DStr.ofStr] using t2⟩
    | [], _ => rw [hs] at t1; simp at t1
    | [_], [] => rw [hd] at t2; simp at t2
    | [_], _ :: _ :: _ => rw [hd] at t2; simp at t2
    | _ :: _ :: _, _ => rw [hs] at t1; simp at t1
  obtain ⟨x, y, hx, hy, sx, sy⟩ := ex
  unfold Marked at h2
  rw [hx, hy, if_pos ⟨e3, rfl⟩] at h2
  have := h2 ((x.string, x.markers), (y.string, y.markers)) (by simp [shownLines])
  simp only [sx, sy] at this
  obtain ⟨r1, r2⟩ := C65_torn_defect hc hc' hne hsame hsz this
  exact ⟨d', x, y, h1, hx, hy, by rw [sx]; exact r1, by rw [sy]; exact r2⟩

/-! ### The hypotheses are met -/

/-- A diff with characters outside the basic plane in the file name and in the lines. -/
def emojiDiff : UDiff where
  files := [{ src := { name := str "🐧.txt", stamp := some (str "2024") }, dst := { name := str "🐧.txt" },
              hunks := [{ srcLine := 1, dstLine := 1, function := some (str "𝑓"), blocks := [.change [{ text := str "a 😀" }] [{ text := str "a 😁" }]] }] }]

theorem emojiDiff_ok : emojiDiff.Ok := by
  refine ⟨?_, ?_, ?_, ?_⟩
  · intro f hf
    simp only [emojiDiff, List.mem_cons, List.not_mem_nil, or_false] at hf
    subst hf
    refine ⟨⟨by decide, ?_, by intro e he; simp at he⟩, ⟨by decide, by intro e he; simp at he, by intro e he; simp at he⟩, ?_, by simp⟩
    · intro ts hts; simp only [Option.some.injEq] at hts; subst hts; decide
    · intro h hh
      simp only [List.mem_cons, List.not_mem_nil, or_false] at hh
      subst hh
      exact ⟨⟨by decide, by decide, by decide, by decide⟩, ⟨by decide, by decide, by decide, by decide⟩,
        by intro f hf; simp only [Option.some.injEq] at hf; subst hf; decide,
        by intro b hb; simp only [List.mem_cons, List.not_mem_nil, or_false] at hb; subst hb; simp [Block.NonEmpty],
        by simp [SeparatedBlocks], by decide⟩
  · intro f fs e
    simp only [emojiDiff, List.cons.injEq] at e
    obtain ⟨rfl, rfl⟩ := e
    simp [emojiDiff]
  · intro f fs e g hg
    simp only [emojiDiff, List.cons.injEq] at e
    obtain ⟨rfl, rfl⟩ := e
    cases hg
  · simp [emojiDiff]

/-- The diff is read: the library shows the two lines, the file name and the function. -/
example (win : Bool) (cmp : Str → Str → Int) (heap : Heap) : ∃ (r : ParseResult) (m : DModel), parse win cmp heap (split (units emojiDiff.render.flatten)) = Res.ok r ∧
    r.models = some [m] ∧ m.source = units (str "🐧.txt") ∧ (m.differences.map (fun i => (r.heap.cell i).srcText)) = [[units (str "a 😀\n")]] := by
  obtain ⟨r, h1, _, h3⟩ := C65_unified emojiDiff emojiDiff_ok (by
    intro f hf h hh b hb l hl
    simp only [emojiDiff, List.mem_cons, List.not_mem_nil, or_false] at hf
    subst hf
    simp only [List.mem_cons, List.not_mem_nil, or_false] at hh
    subst hh
    simp only [List.mem_cons, List.not_mem_nil, or_false] at hb
    subst hb
    simp only [Block.old, Block.new, List.cons_append, List.nil_append, List.mem_cons, List.not_mem_nil, or_false] at hl
    rcases hl with rfl | rfl <;> decide) (by decide) win cmp heap
  have hf : emojiDiff.files.filter UFile.changes = emojiDiff.files := by decide
  cases hm : r.models with
  | none =>
    rw [hm] at h3
    exact absurd (h3 _ (List.mem_cons_self ..)) (by decide)
  | some ms =>
    rw [hm, hf] at h3
    have hl := h3.2.length_eq
    simp only [List.length_map] at hl
    match ms, hl, h3, hm with
    | [m], _, h3, hm =>
      have e := List.singleton_perm_singleton.1 h3.2
      refine ⟨r, m, h1, hm, ?_, ?_⟩
      · have := congrArg MView.source e
        have hx : m.source = units (unescapePath win (str "🐧.txt")) := this
        rw [hx]
        cases win <;> decide
      · have := congrArg (fun v : MView => v.differences.map DView.src) e
        have hx : (m.differences.map (fun i => (r.heap.cell i).view)).map DView.src = [[units (str "a 😀\n")]] := this
        rw [List.map_map] at hx
        exact hx

/-- A command with a character outside the basic plane. -/
example : ∀ c ∈ [NCmd.change 1 [str "a 😀"] 1 [str "a 😁"]], c.Ok := by
  intro c hc
  simp only [List.mem_cons, List.not_mem_nil, or_false] at hc
  subst hc
  exact ⟨⟨by decide, by decide⟩, by decide, by decide⟩

/-- The context diff of C33's example is short enough. -/
example : ∀ f ∈ exampleContext.files, ∀ h ∈ f.hunks, h.UnitsShort := by
  unfold CHunk.UnitsShort
  decide

/-- 😀 and 😁 have the same first code unit: the markers of the lines `a 😀` and `a 😁` cover half a character. -/
example : Astral '😀' ∧ Astral '😁' ∧ ('😀'.toNat - 0x10000) / 0x400 = ('😁'.toNat - 0x10000) / 0x400 ∧
    ((units (str "a 😀\n")).length + 1) * ((units (str "a 😀\n")).length + 1) ≤ 2 ^ 24 := by decide

end KompareDiff2
