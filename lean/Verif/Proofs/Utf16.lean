import Verif.Spec.Utf16
import Verif.Model.Path
import Verif.Proofs.Decimal
/-
Code units: the encoding keeps everything the parser looks at.
-/
namespace KompareDiff2
open Spec

theorem char_lt (c : Char) : c.toNat < 0x110000 := by
  have := c.valid
  have e : c.toNat = c.val.toNat := rfl
  rw [e]
  rcases this with h | h
  · omega
  · exact h.2

theorem char_gap (c : Char) : c.toNat < 0xD800 ∨ 0xDFFF < c.toNat := by
  have := c.valid
  have e : c.toNat = c.val.toNat := rfl
  rw [e]
  rcases this with h | h
  · exact .inl h
  · exact .inr h.1

theorem char_ext {a b : Char} (h : a.toNat = b.toNat) : a = b := by
  have := congrArg Char.ofNat h
  rwa [Char.ofNat_toNat, Char.ofNat_toNat] at this

theorem toNat_ofNat {n : Nat} (h : n < 0xD800 ∨ (0xDFFF < n ∧ n < 0x110000)) : (Char.ofNat n).toNat = n := by
  have : n.isValidChar := by
    unfold Nat.isValidChar; omega
  unfold Char.ofNat
  rw [dif_pos this]
  rfl

/-! ### One character -/

/-- A character of the basic plane is its own code unit. -/
theorem unit_of_bmp {c : Char} (h : ¬ Astral c) : (utf16 c).map unitChar = [c] := by
  unfold Astral at h
  unfold utf16
  rw [if_pos (by omega)]
  simp only [List.map_cons, List.map_nil, List.cons.injEq, and_true]
  unfold unitChar
  rw [if_neg (by have := char_gap c; omega), Char.ofNat_toNat]

/-- The element for a high surrogate. -/
def hiUnit (c : Char) : Char := Char.ofNat (0x10F800 + (c.toNat - 0x10000) / 0x400)
/-- The element for a low surrogate. -/
def loUnit (c : Char) : Char := Char.ofNat (0x10FC00 + (c.toNat - 0x10000) % 0x400)

theorem hiUnit_toNat (c : Char) : (hiUnit c).toNat = 0x10F800 + (c.toNat - 0x10000) / 0x400 := by
  have := char_lt c
  exact toNat_ofNat (by omega)

theorem loUnit_toNat (c : Char) : (loUnit c).toNat = 0x10FC00 + (c.toNat - 0x10000) % 0x400 := toNat_ofNat (by omega)

theorem unit_of_astral {c : Char} (h : Astral c) : (utf16 c).map unitChar = [hiUnit c, loUnit c] := by
  unfold Astral at h
  have := char_lt c
  unfold utf16
  rw [if_neg (by omega)]
  simp only [List.map_cons, List.map_nil, List.cons.injEq, and_true]
  unfold unitChar hiUnit loUnit
  rw [if_pos (by omega), if_pos (by omega)]
  exact ⟨congrArg Char.ofNat (by omega), congrArg Char.ofNat (by omega)⟩

theorem hiUnit_range (c : Char) : 0x10F800 ≤ (hiUnit c).toNat ∧ (hiUnit c).toNat < 0x10FC00 := by
  have := char_lt c
  rw [hiUnit_toNat]; omega

theorem loUnit_range (c : Char) : 0x10FC00 ≤ (loUnit c).toNat := by
  rw [loUnit_toNat]; omega

theorem hi_lo_inj {c c' : Char} (h : Astral c) (h' : Astral c') (e1 : hiUnit c = hiUnit c') (e2 : loUnit c = loUnit c') : c = c' := by
  unfold Astral at h h'
  have q1 := congrArg Char.toNat e1
  have q2 := congrArg Char.toNat e2
  rw [hiUnit_toNat, hiUnit_toNat] at q1
  rw [loUnit_toNat, loUnit_toNat] at q2
  exact char_ext (by omega)

/-! ### Texts -/

@[simp] theorem units_nil : units [] = [] := rfl

theorem units_append (a b : Str) : units (a ++ b) = units a ++ units b := List.flatMap_append

theorem units_bmp {c : Char} (h : ¬ Astral c) (t : Str) : units (c :: t) = c :: units t := by
  show (utf16 c).map unitChar ++ units t = _
  rw [unit_of_bmp h]; rfl

theorem units_astral {c : Char} (h : Astral c) (t : Str) : units (c :: t) = hiUnit c :: loUnit c :: units t := by
  show (utf16 c).map unitChar ++ units t = _
  rw [unit_of_astral h]; rfl

/-- All characters are in the basic plane. -/
def Plain (t : Str) : Prop := ∀ c ∈ t, ¬ Astral c

theorem units_plain {t : Str} (h : Plain t) : units t = t := by
  induction t with
  | nil => rfl
  | cons c t ih => rw [units_bmp (h c (List.mem_cons_self ..)), ih (fun x hx => h x (List.mem_cons_of_mem _ hx))]

instance (c : Char) : Decidable (Astral c) := inferInstanceAs (Decidable (_ ≤ _))
instance (t : Str) : Decidable (Plain t) := inferInstanceAs (Decidable (∀ c ∈ t, ¬ Astral c))

theorem hi_ne {c x : Char} (h : ¬ Astral x) : hiUnit c ≠ x := by
  intro e
  have := (hiUnit_range c).1
  rw [e] at this
  unfold Astral at h; omega

theorem lo_ne {c x : Char} (h : ¬ Astral x) : loUnit c ≠ x := by
  intro e
  have := loUnit_range c
  rw [e] at this
  unfold Astral at h; omega

theorem hi_ne_lo (c c' : Char) : hiUnit c ≠ loUnit c' := by
  intro e
  have h1 := (hiUnit_range c).2
  have h2 := loUnit_range c'
  rw [e] at h1; omega

/-- A character of the basic plane is in the text exactly if it is among the code units. -/
theorem mem_units {x : Char} (hx : ¬ Astral x) (t : Str) : x ∈ units t ↔ x ∈ t := by
  induction t with
  | nil => simp
  | cons c t ih =>
    by_cases hc : Astral c
    · rw [units_astral hc]
      simp only [List.mem_cons, ih]
      constructor
      · rintro (h | h | h)
        · exact absurd h.symm (hi_ne hx)
        · exact absurd h.symm (lo_ne hx)
        · exact .inr h
      · rintro (h | h)
        · subst h; exact absurd hc hx
        · exact .inr (.inr h)
    · rw [units_bmp hc]
      simp only [List.mem_cons, ih]

/-- The first code unit. -/
theorem units_head {x : Char} (hx : ¬ Astral x) {t s : Str} (h : units t = x :: s) : ∃ t', t = x :: t' ∧ s = units t' := by
  cases t with
  | nil => cases h
  | cons c t =>
    by_cases hc : Astral c
    · rw [units_astral hc] at h
      simp only [List.cons.injEq] at h
      exact absurd h.1 (hi_ne hx)
    · rw [units_bmp hc] at h
      simp only [List.cons.injEq] at h
      obtain ⟨rfl, rfl⟩ := h
      exact ⟨t, rfl, rfl⟩

theorem units_eq_nil {t : Str} : units t = [] ↔ t = [] := by
  constructor
  · intro h
    cases t with
    | nil => rfl
    | cons c t =>
      by_cases hc : Astral c
      · rw [units_astral hc] at h; cases h
      · rw [units_bmp hc] at h; cases h
  · rintro rfl; rfl

/-- The encoding loses nothing. -/
theorem units_inj : ∀ {a b : Str}, units a = units b → a = b := by
  intro a
  induction a with
  | nil => intro b h; exact (units_eq_nil.1 h.symm).symm
  | cons c a ih =>
    intro b h
    by_cases hc : Astral c
    · rw [units_astral hc] at h
      cases b with
      | nil => cases h
      | cons c' b =>
        by_cases hc' : Astral c'
        · rw [units_astral hc'] at h
          simp only [List.cons.injEq] at h
          rw [hi_lo_inj hc hc' h.1 h.2.1, ih h.2.2]
        · rw [units_bmp hc'] at h
          simp only [List.cons.injEq] at h
          exact absurd h.1 (hi_ne hc')
    · rw [units_bmp hc] at h
      obtain ⟨t', rfl, e⟩ := units_head hc h.symm
      rw [ih e]

/-- A text begins with a text of the basic plane exactly if its code units do. -/
theorem prefix_split {p : Str} (hp : Plain p) : ∀ {t s : Str}, units t = p ++ s → ∃ r, t = p ++ r ∧ s = units r := by
  induction p with
  | nil => intro t s h; exact ⟨t, rfl, h.symm⟩
  | cons x p ih =>
    intro t s h
    obtain ⟨t', rfl, e⟩ := units_head (hp x (List.mem_cons_self ..)) h
    obtain ⟨r, rfl, e'⟩ := ih (fun y hy => hp y (List.mem_cons_of_mem _ hy)) e.symm
    exact ⟨r, rfl, e'⟩

theorem prefix_units {p : Str} (hp : Plain p) (t : Str) : p <+: units t ↔ p <+: t := by
  constructor
  · rintro ⟨s, h⟩
    obtain ⟨r, rfl, _⟩ := prefix_split hp h.symm
    exact ⟨r, rfl⟩
  · rintro ⟨r, rfl⟩
    rw [units_append, units_plain hp]
    exact ⟨units r, rfl⟩

theorem isPrefixOf_units {p : Str} (hp : Plain p) (t : Str) : p.isPrefixOf (units t) = p.isPrefixOf t := by
  have := prefix_units hp t
  rw [← List.isPrefixOf_iff_prefix, ← List.isPrefixOf_iff_prefix] at this
  cases h : p.isPrefixOf t <;> cases h' : p.isPrefixOf (units t) <;> simp_all

theorem decNat_plain (n : Nat) : Plain (decNat n) := by
  intro c hc
  have := decNat_isDigit n c hc
  unfold IsDigit at this
  obtain ⟨_, h⟩ := this
  have h : c.toNat ≤ '9'.toNat := h
  have e : '9'.toNat = 57 := by decide
  unfold Astral; omega

/-! ### Names -/

theorem replaceFuel_units {b a : Str} (hb : Plain b) (hne : b ≠ []) (ha : Plain a) : ∀ (m n : Nat) (s : Str), s.length ≤ m → (units s).length ≤ n →
    replaceFuel b a n (units s) = units (replaceFuel b a m s) := by
  obtain ⟨b0, b', rfl⟩ := List.exists_cons_of_ne_nil hne
  have hb0 := hb b0 (List.mem_cons_self ..)
  have nil : ∀ n, replaceFuel (b0 :: b') a n [] = [] := by intro n; cases n <;> rfl
  intro m
  induction m with
  | zero =>
    intro n s h _
    have : s = [] := List.length_eq_zero_iff.1 (by omega)
    subst this
    rw [units_nil, nil, nil]; rfl
  | succ m ih =>
    intro n s h hn
    cases s with
    | nil => rw [units_nil, nil, nil]; rfl
    | cons c s =>
      simp only [List.length_cons] at h
      by_cases hc : Astral c
      · rw [units_astral hc] at hn ⊢
        simp only [List.length_cons] at hn
        match n, hn with
        | n + 2, hn =>
          have h1 : (b0 :: b').isPrefixOf (hiUnit c :: loUnit c :: units s) = false := by
            simp only [List.isPrefixOf, Bool.and_eq_false_imp, beq_iff_eq]
            intro e; exact absurd e.symm (hi_ne hb0)
          have h2 : (b0 :: b').isPrefixOf (loUnit c :: units s) = false := by
            simp only [List.isPrefixOf, Bool.and_eq_false_imp, beq_iff_eq]
            intro e; exact absurd e.symm (lo_ne hb0)
          have h3 : (b0 :: b').isPrefixOf (c :: s) = false := by
            simp only [List.isPrefixOf, Bool.and_eq_false_imp, beq_iff_eq]
            intro e; subst e; exact absurd hc hb0
          simp only [replaceFuel, h1, h2, h3, Bool.false_eq_true, if_false]
          rw [units_astral hc, ih n s (by omega) (by omega)]
      · have hp := isPrefixOf_units hb (c :: s)
        rw [units_bmp hc] at hn hp ⊢
        simp only [List.length_cons] at hn
        match n, hn with
        | n + 1, hn =>
          simp only [replaceFuel, hp]
          split
          · rename_i hx
            obtain ⟨r, hr⟩ := List.isPrefixOf_iff_prefix.1 hx
            have e1 : (c :: s).drop (b0 :: b').length = r := by rw [← hr, List.drop_left]
            have e2 : (c :: units s).drop (b0 :: b').length = units r := by
              rw [← units_bmp hc, ← hr, units_append, units_plain hb, List.drop_left]
            have l1 := congrArg List.length hr
            have l2 := congrArg List.length e2
            simp only [List.length_append, List.length_cons, List.length_drop] at l1 l2
            rw [e1, e2, units_append, units_plain ha, ih n r (by omega) (by omega)]
          · rw [units_bmp hc, ih n s (by omega) (by omega)]

theorem replaceAll_units {b a : Str} (hb : Plain b) (hne : b ≠ []) (ha : Plain a) (s : Str) :
    replaceAll b a (units s) = units (replaceAll b a s) := replaceFuel_units hb hne ha _ _ s (Nat.le_refl _) (Nat.le_refl _)

theorem head_units {x : Char} (hx : ¬ Astral x) (t : Str) : (units t).head? = some x ↔ t.head? = some x := by
  constructor
  · intro h
    cases e : units t with
    | nil => rw [e] at h; cases h
    | cons y s =>
      rw [e] at h
      cases h
      obtain ⟨t', rfl, _⟩ := units_head hx e
      rfl
  · intro h
    cases t with
    | nil => cases h
    | cons y s =>
      cases h
      rw [units_bmp hx]; rfl

theorem getLast_units {x : Char} (hx : ¬ Astral x) (t : Str) : (units t).getLast? = some x ↔ t.getLast? = some x := by
  rcases List.eq_nil_or_concat t with rfl | ⟨t, c, rfl⟩
  · simp
  · rw [List.concat_eq_append, units_append, List.getLast?_append, List.getLast?_append]
    by_cases hc : Astral c
    · rw [units_astral hc]
      simp only [units_nil, List.getLast?_cons_cons, List.getLast?_singleton, Option.some_or, Option.some.injEq]
      constructor
      · intro h; exact absurd h (lo_ne hx)
      · intro h; subst h; exact absurd hc hx
    · rw [units_bmp hc]; rfl

/-- Undoing the escaping of a name works on code units as on characters. -/
theorem unescape_units (win : Bool) (t : Str) : unescapePath win (units t) = units (unescapePath win t) := by
  have hq : ¬ Astral '"' := by decide
  unfold unescapePath
  have key : (if (units t).head? = some '"' ∧ (units t).getLast? = some '"' then ((units t).drop 1).take ((units t).length - 2) else units t) =
      units (if t.head? = some '"' ∧ t.getLast? = some '"' then (t.drop 1).take (t.length - 2) else t) := by
    simp only [head_units hq, getLast_units hq]
    split
    · rename_i h
      obtain ⟨h1, h2⟩ := h
      match t, h1 with
      | _ :: t, h1 =>
        cases h1
        rw [units_bmp hq]
        simp only [List.drop_succ_cons, List.drop_zero, List.length_cons]
        rcases List.eq_nil_or_concat t with rfl | ⟨u, c, rfl⟩
        · rfl
        · rw [List.concat_eq_append] at h2 ⊢
          rw [List.getLast?_cons, List.getLast?_append] at h2
          simp only [List.getLast?_singleton, Option.some_or, Option.getD_some, Option.some.injEq] at h2
          subst h2
          rw [units_append, units_bmp hq, units_nil]
          simp only [List.length_append, List.length_cons, List.length_nil]
          rw [show (units u).length + (0 + 1) + 1 - 2 = (units u).length by omega, show u.length + (0 + 1) + 1 - 2 = u.length by omega,
            List.take_left, List.take_left]
    · rfl
  simp only [key]
  rw [replaceAll_units (by decide) (by decide) (by decide)]
  split
  · rfl
  · rw [replaceAll_units (by decide) (by decide) (by decide)]

/-! ### Diffs -/

theorem newline_bmp : ¬ Astral '\n' := by decide

theorem Line.units_render (p : Char) (hp : ¬ Astral p) (l : Line) : l.units.render p = (l.render p).map units := by
  unfold Spec.Line.render Spec.Line.units
  cases l.eol
  · simp only [Bool.false_eq_true, if_false, List.map_cons, List.map_nil, List.cons_append, units_append, units_bmp hp]
    rw [units_plain (t := ['\n']) (by decide), units_plain (t := noNewlineMarker) (by decide)]
  · simp only [if_true, List.map_cons, List.map_nil, List.cons_append, units_append, units_bmp hp]
    rw [units_plain (t := ['\n']) (by decide)]

theorem Line.units_value (l : Line) : l.units.value = units l.value := by
  unfold Spec.Line.value Spec.Line.units
  cases l.eol
  · simp
  · simp only [if_true, units_append]
    rw [units_plain (t := ['\n']) (by decide)]

theorem lines_units (p : Char) (hp : ¬ Astral p) (ls : List Line) :
    (ls.map Spec.Line.units).flatMap (Spec.Line.render p) = (ls.flatMap (Spec.Line.render p)).map units := by
  rw [List.flatMap_map, List.map_flatMap]
  exact congrArg (fun f => List.flatMap f ls) (funext fun l => Line.units_render p hp l)

theorem Block.units_render (b : Block) : b.units.render = b.render.map units := by
  cases b with
  | context ls => exact lines_units ' ' (by decide) ls
  | change r a =>
    show (r.map Spec.Line.units).flatMap _ ++ (a.map Spec.Line.units).flatMap _ = List.map units (_ ++ _)
    rw [lines_units '-' (by decide), lines_units '+' (by decide), List.map_append]

theorem Block.units_old (b : Block) : b.units.old = b.old.map Spec.Line.units := by cases b <;> rfl
theorem Block.units_new (b : Block) : b.units.new = b.new.map Spec.Line.units := by cases b <;> rfl

theorem UHunk.units_srcCount (h : UHunk) : h.units.srcCount = h.srcCount := by
  unfold Spec.UHunk.srcCount Spec.UHunk.units
  simp [Block.units_old, Function.comp_def]

theorem UHunk.units_dstCount (h : UHunk) : h.units.dstCount = h.dstCount := by
  unfold Spec.UHunk.dstCount Spec.UHunk.units
  simp [Block.units_new, Function.comp_def]

theorem plain_append {a b : Str} (ha : Plain a) (hb : Plain b) : Plain (a ++ b) := by
  intro c hc
  rcases List.mem_append.1 hc with h | h
  · exact ha c h
  · exact hb c h

theorem range_plain (a b : Nat) (s : Bool) : Plain (Spec.range a b s) := by
  unfold Spec.range
  refine plain_append (decNat_plain _) ?_
  split
  · decide
  · intro c hc
    rcases List.mem_cons.1 hc with rfl | h
    · decide
    · exact decNat_plain _ c h

theorem UHunk.units_header (h : UHunk) : h.units.header = units h.header := by
  unfold Spec.UHunk.header
  rw [UHunk.units_srcCount, UHunk.units_dstCount]
  simp only [units_append]
  rw [units_plain (t := str "@@ -") (by decide), units_plain (range_plain _ _ _), units_plain (t := str " +") (by decide), units_plain (range_plain _ _ _),
    units_plain (t := str " @@") (by decide), units_plain (t := ['\n']) (by decide)]
  have hf : h.units.function = h.function.map units := rfl
  rw [hf]
  refine congrArg (· ++ ['\n']) (congrArg (List.append _) ?_)
  cases h.function with
  | none => rfl
  | some f =>
    show (if h.gap then ' ' :: units f else units f) = units (if h.gap then ' ' :: f else f)
    cases h.gap
    · rfl
    · exact (units_bmp (by decide) f).symm

theorem UHunk.units_render (h : UHunk) : h.units.render = h.render.map units := by
  unfold Spec.UHunk.render
  rw [UHunk.units_header, List.map_cons]
  refine congrArg _ ?_
  show List.flatMap _ (h.blocks.map _) = _
  rw [List.flatMap_map, List.map_flatMap]
  exact congrArg (fun f => List.flatMap f h.blocks) (funext fun b => Block.units_render b)

theorem Header.units_render (h : Header) : h.units.render = units h.render := by
  unfold Spec.Header.render Spec.Header.units
  simp only [units_append]
  rw [units_plain (t := ['\n']) (by decide)]
  refine congrArg (· ++ _) (congrArg _ ?_)
  cases h.stamp with
  | none => rfl
  | some ts =>
    simp only [Option.map_some, List.cons_append, units_append, units_bmp (show ¬ Astral '\t' by decide)]
    refine congrArg _ (congrArg _ ?_)
    cases h.extra with
    | none => rfl
    | some e => exact (units_bmp (by decide) e).symm

theorem ended_units (l : List Str) : (l.map units).map (· ++ ['\n']) = (l.map (· ++ ['\n'])).map units := by
  simp only [List.map_map]
  refine List.map_congr_left (fun t _ => ?_)
  simp only [Function.comp_apply, units_append]
  rw [units_plain (t := ['\n']) (by decide)]

theorem UFile.units_render (f : UFile) : f.units.render = f.render.map units := by
  unfold Spec.UFile.render
  simp only [List.map_append, List.map_cons, List.map_nil, units_append]
  rw [← ended_units, ← Header.units_render, ← Header.units_render, units_plain (t := str "--- ") (by decide), units_plain (t := str "+++ ") (by decide)]
  refine congrArg _ ?_
  show List.flatMap _ (f.hunks.map _) = _
  rw [List.flatMap_map, List.map_flatMap]
  exact congrArg (fun g => List.flatMap g f.hunks) (funext fun b => UHunk.units_render b)

/-- The code units of the text of a diff are the text of the diff in code units. -/
theorem UDiff.units_render (d : UDiff) : d.units.render = d.render.map units := by
  unfold Spec.UDiff.render
  simp only [List.map_append]
  rw [← ended_units]
  refine congrArg (· ++ _) ?_
  show List.flatMap _ (d.files.map _) = _
  rw [List.flatMap_map, List.map_flatMap]
  exact congrArg (fun g => List.flatMap g d.files) (funext fun b => UFile.units_render b)

theorem units_flatten (l : List Str) : units l.flatten = (l.map units).flatten := by
  induction l with
  | nil => rfl
  | cons a l ih => rw [List.flatten_cons, units_append, ih]; rfl

/-! ### What is seen -/

theorem Block.units_view (a b : Nat) (k : Block) : k.units.view a b = (k.view a b).units := by
  have e : ∀ ls : List Line, (ls.map Spec.Line.units).map Spec.Line.value = (ls.map Spec.Line.value).map units := by
    intro ls
    simp only [List.map_map]
    exact List.map_congr_left (fun l _ => Line.units_value l)
  cases k with
  | context ls => simp only [Spec.Block.units, Spec.Block.view, Spec.DView.units, e]
  | change r d => simp only [Spec.Block.units, Spec.Block.view, Spec.DView.units, e, List.map_eq_nil_iff]

theorem blockViews_units (bs : List Block) : ∀ a b, blockViews a b (bs.map Spec.Block.units) = (blockViews a b bs).map Spec.DView.units := by
  induction bs with
  | nil => intro a b; rfl
  | cons k bs ih =>
    intro a b
    simp only [List.map_cons, blockViews, Block.units_view, Block.units_old, Block.units_new, List.length_map, ih]

theorem UHunk.units_view (h : UHunk) : h.units.view = h.view.units := by
  unfold Spec.UHunk.view Spec.HView.units
  simp only
  have : h.units.function.getD [] = units (h.function.getD []) := by
    unfold Spec.UHunk.units
    cases h.function <;> rfl
  rw [this]
  have : h.units.blocks = h.blocks.map Spec.Block.units := rfl
  rw [this, blockViews_units]
  rfl

theorem filter_units (l : List DView) :
    (l.map Spec.DView.units).filter (fun d => d.type ≠ .Unchanged) = (l.filter (fun d => d.type ≠ .Unchanged)).map Spec.DView.units := by
  rw [List.filter_map]; rfl

theorem UFile.units_view (win : Bool) (f : UFile) : f.units.view (unescapePath win) = (f.view (unescapePath win)).units := by
  have hs : ∀ o : Option Str, (o.map units).getD [] = units (o.getD []) := by intro o; cases o <;> rfl
  have e1 : (f.hunks.map Spec.UHunk.units).map Spec.UHunk.view = (f.hunks.map Spec.UHunk.view).map Spec.HView.units := by
    simp only [List.map_map]
    exact List.map_congr_left (fun h _ => UHunk.units_view h)
  have e2 : (f.hunks.map Spec.UHunk.units).flatMap (fun h => h.view.diffs) = (f.hunks.flatMap (fun h => h.view.diffs)).map Spec.DView.units := by
    rw [List.flatMap_map, List.map_flatMap]
    refine congrArg (fun g => List.flatMap g f.hunks) (funext fun h => ?_)
    rw [UHunk.units_view]; rfl
  unfold Spec.UFile.view Spec.MView.units
  simp only [Spec.UFile.units, Spec.Header.units, unescape_units, hs, e1, e2, filter_units]
  rfl

theorem UFile.units_changes (f : UFile) : f.units.changes = f.changes := by
  unfold Spec.UFile.changes Spec.UFile.units
  simp only [List.any_map]
  refine congrArg (fun g => List.any f.hunks g) (funext fun h => ?_)
  simp only [Function.comp_apply, Spec.UHunk.units, List.any_map]
  refine congrArg (fun g => List.any h.blocks g) (funext fun b => ?_)
  cases b <;> rfl

/-! ### Well-formed diffs -/

theorem units_ne_nil {t : Str} (h : t ≠ []) : units t ≠ [] := fun e => h (units_eq_nil.1 e)

theorem Header.units_ok {h : Header} (ok : h.Ok) : h.units.Ok := by
  obtain ⟨⟨n1, n2, n3⟩, hs, he⟩ := ok
  refine ⟨⟨units_ne_nil n1, by rw [show h.units.name = units h.name from rfl, mem_units (by decide)]; exact n2, by
    rw [show h.units.name = units h.name from rfl, mem_units (by decide)]; exact n3⟩, ?_, ?_⟩
  · intro ts hts
    have hts : h.stamp.map units = some ts := hts
    cases e : h.stamp with
    | none => rw [e] at hts; cases hts
    | some t =>
      rw [e] at hts
      cases hts
      obtain ⟨a, b, c⟩ := hs t e
      exact ⟨units_ne_nil a, by rw [mem_units (by decide)]; exact b, by rw [mem_units (by decide)]; exact c⟩
  · intro ts hts
    have hts : h.extra.map units = some ts := hts
    cases e : h.extra with
    | none => rw [e] at hts; cases hts
    | some t =>
      rw [e] at hts
      cases hts
      rw [mem_units (by decide)]; exact he t e

theorem separated_units (bs : List Block) (h : SeparatedBlocks bs) : SeparatedBlocks (bs.map Spec.Block.units) := by
  induction bs with
  | nil => trivial
  | cons b bs ih =>
    cases bs with
    | nil => trivial
    | cons b' bs =>
      obtain ⟨h1, h2⟩ := h
      refine ⟨?_, ih h2⟩
      cases b <;> cases b' <;> simp_all [Spec.Block.units, Spec.Block.Separated]

theorem UHunk.units_ok {h : UHunk} (ok : h.Ok) (hs : h.UnitsShort) : h.units.Ok := by
  obtain ⟨h1, h2, h3, h4, h5, h6⟩ := ok
  refine ⟨by rw [UHunk.units_srcCount]; exact h1, by rw [UHunk.units_dstCount]; exact h2, ?_, ?_, separated_units _ h5, ?_⟩
  · intro f hf
    have hf : h.function.map units = some f := hf
    cases e : h.function with
    | none => rw [e] at hf; cases hf
    | some t =>
      rw [e] at hf
      cases hf
      refine ⟨by rw [mem_units (by decide)]; exact (h3 t e).1, fun hg hx => (h3 t e).2 hg ?_⟩
      obtain ⟨s, hs⟩ : ∃ s, units t = ' ' :: s := by
        cases hu : units t with
        | nil => rw [hu] at hx; cases hx
        | cons x s => rw [hu] at hx; cases hx; exact ⟨s, rfl⟩
      obtain ⟨t', ht, _⟩ := units_head (by decide) hs
      rw [ht]; rfl
  · intro b hb
    obtain ⟨b0, hb0, rfl⟩ := List.mem_map.1 hb
    have := h4 b0 hb0
    cases b0 <;> simpa [Spec.Block.units, Spec.Block.NonEmpty] using this
  · intro b hb l hl
    obtain ⟨b0, hb0, rfl⟩ := List.mem_map.1 hb
    rw [Block.units_old, Block.units_new, ← List.map_append] at hl
    obtain ⟨l0, hl0, rfl⟩ := List.mem_map.1 hl
    exact ⟨by rw [show l0.units.text = units l0.text from rfl, mem_units (by decide)]; exact (h6 b0 hb0 l0 hl0).1, hs b0 hb0 l0 hl0⟩

theorem between_units {t : Str} (h : BetweenLine t) : BetweenLine (units t) := by
  unfold BetweenLine at h ⊢
  rw [mem_units (by decide), prefix_units (by decide), prefix_units (by decide), prefix_units (by decide)]
  exact h

theorem separator_units {t : Str} (h : SeparatorLine t) : SeparatorLine (units t) := by
  unfold SeparatorLine at h ⊢
  rw [prefix_units (by decide), prefix_units (by decide), prefix_units (by decide)]
  exact h

theorem digit_bmp {x : Char} (h : '0' ≤ x ∧ x ≤ '9') : ¬ Astral x := by
  have h : x.toNat ≤ '9'.toNat := h.2
  have e : '9'.toNat = 57 := by decide
  unfold Astral; omega

theorem preamble_units {t : Str} (h : PreambleLine t) : PreambleLine (units t) := by
  obtain ⟨h1, h2, h3, h4⟩ := h
  refine ⟨between_units h1, by rw [prefix_units (by decide)]; exact h2, ?_, ?_⟩
  · intro x s e hx
    obtain ⟨t', rfl, _⟩ := units_head (digit_bmp hx) e
    exact h3 _ _ rfl hx
  · intro x y s e hx hy
    have hb : ¬ Astral x := by rcases hx with rfl | rfl | rfl <;> decide
    obtain ⟨t', rfl, e'⟩ := units_head hb e
    obtain ⟨t'', rfl, _⟩ := units_head (digit_bmp hy) e'.symm
    exact h4 _ _ _ rfl hx hy

theorem UDiff.units_ok {d : UDiff} (ok : d.Ok) (hs : ∀ f ∈ d.files, ∀ h ∈ f.hunks, h.UnitsShort) : d.units.Ok := by
  obtain ⟨o1, o2, o3, o4, o5⟩ := ok
  have hfiles : ∀ f fs, d.units.files = f :: fs → ∃ f0 fs0, d.files = f0 :: fs0 ∧ f = f0.units ∧ fs = fs0.map Spec.UFile.units := by
    intro f fs e
    have e : d.files.map Spec.UFile.units = f :: fs := e
    cases hd : d.files with
    | nil => rw [hd] at e; cases e
    | cons f0 fs0 =>
      rw [hd] at e
      cases e
      exact ⟨f0, fs0, rfl, rfl, rfl⟩
  refine ⟨?_, ?_, ?_, ?_, ?_⟩
  · intro f hf
    obtain ⟨f0, hf0, rfl⟩ := List.mem_map.1 hf
    obtain ⟨a, b, c, e⟩ := o1 f0 hf0
    refine ⟨Header.units_ok a, Header.units_ok b, ?_, ?_⟩
    · intro h hh
      obtain ⟨h0, hh0, rfl⟩ := List.mem_map.1 hh
      exact UHunk.units_ok (c h0 hh0) (hs f0 hf0 h0 hh0)
    · intro t ht
      obtain ⟨t0, ht0, rfl⟩ := List.mem_map.1 ht
      exact between_units (e t0 ht0)
  · intro f fs e
    obtain ⟨f0, fs0, e0, rfl, rfl⟩ := hfiles f fs e
    obtain ⟨a, b⟩ := o2 f0 fs0 e0
    refine ⟨?_, ?_⟩
    · intro t ht
      obtain ⟨t0, ht0, rfl⟩ := List.mem_map.1 ht
      exact preamble_units (a t0 ht0)
    · intro hx
      have : f0.src.stamp ≠ none := by
        refine b ?_
        rcases hx with ⟨g, hg, t, ht, hp⟩ | ⟨t, ht, hp⟩
        · obtain ⟨g0, hg0, rfl⟩ := List.mem_map.1 hg
          obtain ⟨t0, ht0, rfl⟩ := List.mem_map.1 ht
          exact .inl ⟨g0, hg0, t0, ht0, (prefix_units (by decide) _).1 hp⟩
        · obtain ⟨t0, ht0, rfl⟩ := List.mem_map.1 ht
          exact .inr ⟨t0, ht0, (prefix_units (by decide) _).1 hp⟩
      intro hn
      have hn : f0.src.stamp.map units = none := hn
      exact this (Option.map_eq_none_iff.1 hn)
  · intro f fs e g hg t ts ht
    obtain ⟨f0, fs0, e0, rfl, rfl⟩ := hfiles f fs e
    obtain ⟨g0, hg0, rfl⟩ := List.mem_map.1 hg
    have ht : g0.preamble.map units = t :: ts := ht
    cases hp : g0.preamble with
    | nil => rw [hp] at ht; cases ht
    | cons t0 ts0 =>
      rw [hp] at ht
      cases ht
      exact separator_units (o3 f0 fs0 e0 g0 hg0 t0 ts0 hp)
  · intro t ht
    obtain ⟨t0, ht0, rfl⟩ := List.mem_map.1 ht
    exact between_units (o4 t0 ht0)
  · intro t ts ht
    have ht : d.trailer.map units = t :: ts := ht
    cases hp : d.trailer with
    | nil => rw [hp] at ht; cases ht
    | cons t0 ts0 =>
      rw [hp] at ht
      cases ht
      exact separator_units (o5 t0 ts0 hp)

/-! ### Torn characters -/

theorem marked_unmarked {α : Type} [DecidableEq α] (m : Nat → Bool) (z : α) (l : List α) : ∀ i, (markedText m i l).count z + (unmarkedFrom m i l).count z = l.count z := by
  induction l with
  | nil => intro i; rfl
  | cons x l ih =>
    intro i
    have := ih (i + 1)
    unfold markedText unmarkedFrom
    split <;> simp only [List.count_cons] <;> omega

theorem marked_length {α : Type} (m : Nat → Bool) (l : List α) : ∀ i, (markedText m i l).length = markedFrom m i l := by
  induction l with
  | nil => intro i; rfl
  | cons x l ih =>
    intro i
    have := ih (i + 1)
    unfold markedText markedFrom
    split <;> (try simp only [List.length_cons]) <;> omega

theorem unmarked_length {α : Type} (m : Nat → Bool) (l : List α) : ∀ i, (unmarkedFrom m i l).length + markedFrom m i l = l.length := by
  induction l with
  | nil => intro i; rfl
  | cons x l ih =>
    intro i
    have := ih (i + 1)
    unfold unmarkedFrom markedFrom
    split <;> (try simp only [List.length_cons]) <;> omega

theorem unmarked_all {α : Type} (m : Nat → Bool) (l : List α) : ∀ i, markedFrom m i l = 0 → unmarkedFrom m i l = l := by
  induction l with
  | nil => intro i _; rfl
  | cons x l ih =>
    intro i h
    unfold markedFrom at h
    unfold unmarkedFrom
    split
    · rename_i hm
      rw [if_pos hm] at h; omega
    · rw [ih (i + 1) (by omega)]

theorem script_same {α : Type} (a : List α) : Script true a a 0 := by
  induction a with
  | nil => exact .nil
  | cons x a ih => exact .keep x ih

theorem script_one {α : Type} (p q : List α) (x y : α) : Script true (p ++ x :: q) (p ++ y :: q) 1 := by
  induction p with
  | nil => exact .replace x y rfl (script_same q)
  | cons z p ih => exact .keep z ih

/-- Two lines that differ in one element: one element is marked in each line, and these elements are the different ones. -/
theorem one_marked {p q : Str} {x y : Char} (hne : x ≠ y) {m1 m2 : List Marker} (hl : 1 ≤ p.length + q.length)
    (hsz : (p.length + q.length + 2) * (p.length + q.length + 2) ≤ 2 ^ 24) (h : PairMarked (p ++ x :: q) (p ++ y :: q) m1 m2) :
    markedText (changedAt m1) 0 (p ++ x :: q) = [x] ∧ markedText (changedAt m2) 0 (p ++ y :: q) = [y] := by
  have hab : p ++ x :: q ≠ p ++ y :: q := by
    intro e
    have := List.append_cancel_left e
    exact hne (List.cons.inj this).1
  have la : (p ++ x :: q).length = p.length + q.length + 1 := by simp; omega
  have lb : (p ++ y :: q).length = p.length + q.length + 1 := by simp; omega
  unfold PairMarked at h
  rw [la, lb] at h
  rw [if_neg (by rintro (h | h); exact absurd hsz (Nat.not_le.2 h); exact hab h)] at h
  obtain ⟨d, hd, h⟩ := h
  have hd1 := hd.2 1 (script_one p q x y)
  rw [if_pos (by omega)] at h
  obtain ⟨hu, h1, h2⟩ := h
  have q1 := unmarked_length (changedAt m1) (p ++ x :: q) 0
  have q2 := unmarked_length (changedAt m2) (p ++ y :: q) 0
  rw [hu] at q1
  rw [la] at q1
  rw [lb] at q2
  have hz : markedFrom (changedAt m1) 0 (p ++ x :: q) ≠ 0 := by
    intro h0
    have e1 := unmarked_all _ _ 0 h0
    have e2 := unmarked_all (changedAt m2) (p ++ y :: q) 0 (by omega)
    rw [e1, e2] at hu
    exact hab hu
  have t1 := marked_length (changedAt m1) (p ++ x :: q) 0
  have t2 := marked_length (changedAt m2) (p ++ y :: q) 0
  obtain ⟨u, hu1⟩ := List.length_eq_one_iff.1 (show (markedText (changedAt m1) 0 (p ++ x :: q)).length = 1 by omega)
  obtain ⟨v, hv1⟩ := List.length_eq_one_iff.1 (show (markedText (changedAt m2) 0 (p ++ y :: q)).length = 1 by omega)
  have c1 := fun z => marked_unmarked (changedAt m1) z (p ++ x :: q) 0
  have c2 := fun z => marked_unmarked (changedAt m2) z (p ++ y :: q) 0
  rw [hu1] at c1 ⊢
  rw [hv1] at c2 ⊢
  rw [hu] at c1
  simp only [List.count_append, List.count_cons, List.count_nil] at c1 c2
  have hne' : ¬ (y == x) = true := by simpa using fun e => hne e.symm
  have hne'' : ¬ (x == y) = true := by simpa using hne
  have k1 := c1 x
  have k2 := c2 x
  have k3 := c1 y
  have k4 := c2 y
  rw [if_neg hne'] at k2
  rw [if_neg hne''] at k3
  simp only [BEq.rfl, if_true] at k1 k4
  have e1 : u = x := by
    by_cases hx : u = x
    · exact hx
    · rw [if_neg (by simpa using hx)] at k1; omega
  have e2 : v = y := by
    by_cases hx : v = y
    · exact hx
    · rw [if_neg (by simpa using hx)] at k4; omega
  rw [e1, e2]
  exact ⟨rfl, rfl⟩

/-- A lone surrogate is not a text. -/
theorem lone_hi (c : Char) (t : Str) : units t ≠ [hiUnit c] := by
  intro h
  cases t with
  | nil => cases h
  | cons x t =>
    by_cases hx : Astral x
    · rw [units_astral hx] at h
      have := congrArg List.length h
      simp only [List.length_cons, List.length_nil] at this
      omega
    · rw [units_bmp hx] at h
      exact hi_ne hx (List.cons.inj h).1.symm

theorem lone_lo (c : Char) (t : Str) : units t ≠ [loUnit c] := by
  intro h
  cases t with
  | nil => cases h
  | cons x t =>
    by_cases hx : Astral x
    · rw [units_astral hx] at h
      have := congrArg List.length h
      simp only [List.length_cons, List.length_nil] at this
      omega
    · rw [units_bmp hx] at h
      exact lo_ne hx (List.cons.inj h).1.symm

/-! ### Context diffs -/

theorem marked_units (p : Char) (hp : ¬ Astral p) (ls : List Str) : (ls.map units).map (markedLine p) = (ls.map (markedLine p)).map units := by
  simp only [List.map_map]
  refine List.map_congr_left (fun t _ => ?_)
  simp only [Function.comp_apply, markedLine, List.cons_append, units_bmp hp, units_bmp (show ¬ Astral ' ' by decide), units_append]
  rw [units_plain (t := ['\n']) (by decide)]

theorem CBlock.units_old (b : CBlock) : b.units.old = b.old.map units := by cases b <;> rfl
theorem CBlock.units_new (b : CBlock) : b.units.new = b.new.map units := by cases b <;> rfl
theorem CBlock.units_oldLines (b : CBlock) : b.units.oldLines = b.oldLines.map units := by
  cases b with
  | context ls => exact marked_units ' ' (by decide) ls
  | delete ls => exact marked_units '-' (by decide) ls
  | insert ls => rfl
  | change r a => exact marked_units '!' (by decide) r
theorem CBlock.units_newLines (b : CBlock) : b.units.newLines = b.newLines.map units := by
  cases b with
  | context ls => exact marked_units ' ' (by decide) ls
  | delete ls => rfl
  | insert ls => exact marked_units '+' (by decide) ls
  | change r a => exact marked_units '!' (by decide) a
theorem CBlock.units_removes (b : CBlock) : b.units.removes = b.removes := by cases b <;> rfl
theorem CBlock.units_adds (b : CBlock) : b.units.adds = b.adds := by cases b <;> rfl
theorem CBlock.units_isChange (b : CBlock) : b.units.isChange = b.isChange := by cases b <;> rfl

theorem CHunk.units_srcCount (h : CHunk) : h.units.srcCount = h.srcCount := by
  unfold Spec.CHunk.srcCount Spec.CHunk.units
  simp [CBlock.units_old, Function.comp_def]

theorem CHunk.units_dstCount (h : CHunk) : h.units.dstCount = h.dstCount := by
  unfold Spec.CHunk.dstCount Spec.CHunk.units
  simp [CBlock.units_new, Function.comp_def]

theorem lineRange_plain (a b : Nat) : Plain (lineRange a b) := by
  unfold lineRange
  refine plain_append (decNat_plain _) ?_
  intro c hc
  rcases List.mem_cons.1 hc with rfl | h
  · decide
  · exact decNat_plain _ c h

theorem CHunk.units_section (h : CHunk) : h.units.oldSection = h.oldSection.map units ∧ h.units.newSection = h.newSection.map units := by
  have e1 : h.units.blocks.any CBlock.removes = h.blocks.any CBlock.removes := by
    show (h.blocks.map Spec.CBlock.units).any _ = _
    rw [List.any_map]
    exact congrArg (fun g => List.any h.blocks g) (funext fun b => CBlock.units_removes b)
  have e2 : h.units.blocks.any CBlock.adds = h.blocks.any CBlock.adds := by
    show (h.blocks.map Spec.CBlock.units).any _ = _
    rw [List.any_map]
    exact congrArg (fun g => List.any h.blocks g) (funext fun b => CBlock.units_adds b)
  have e3 : h.units.blocks.flatMap CBlock.oldLines = (h.blocks.flatMap CBlock.oldLines).map units := by
    show List.flatMap _ (h.blocks.map _) = _
    rw [List.flatMap_map, List.map_flatMap]
    exact congrArg (fun g => List.flatMap g h.blocks) (funext fun b => CBlock.units_oldLines b)
  have e4 : h.units.blocks.flatMap CBlock.newLines = (h.blocks.flatMap CBlock.newLines).map units := by
    show List.flatMap _ (h.blocks.map _) = _
    rw [List.flatMap_map, List.map_flatMap]
    exact congrArg (fun g => List.flatMap g h.blocks) (funext fun b => CBlock.units_newLines b)
  unfold Spec.CHunk.oldSection Spec.CHunk.newSection
  rw [e1, e2, e3, e4]
  constructor <;> split <;> rfl

theorem CHunk.units_render (h : CHunk) : h.units.render = h.render.map units := by
  have hs : h.units.stars = units h.stars := by
    unfold Spec.CHunk.stars
    simp only [units_append]
    rw [units_plain (t := List.replicate 15 '*') (by decide), units_plain (t := ['\n']) (by decide)]
    have hf : h.units.function = h.function.map units := rfl
    rw [hf]
    refine congrArg (· ++ ['\n']) (congrArg (List.append _) ?_)
    cases h.function with
    | none => rfl
    | some f => exact (units_bmp (by decide) f).symm
  have ho : h.units.oldRange = units h.oldRange := by
    unfold Spec.CHunk.oldRange
    rw [CHunk.units_srcCount]
    simp only [units_append]
    rw [units_plain (t := str "*** ") (by decide), units_plain (lineRange_plain _ _), units_plain (t := str " ****\n") (by decide)]
    rfl
  have hn : h.units.newRange = units h.newRange := by
    unfold Spec.CHunk.newRange
    rw [CHunk.units_dstCount]
    simp only [units_append]
    rw [units_plain (t := str "--- ") (by decide), units_plain (lineRange_plain _ _), units_plain (t := str " ----\n") (by decide)]
    rfl
  unfold Spec.CHunk.render
  rw [hs, ho, hn, (CHunk.units_section h).1, (CHunk.units_section h).2]
  simp only [List.map_cons, List.map_append, List.cons_append]

theorem CFile.units_render (f : CFile) : f.units.render = f.render.map units := by
  unfold Spec.CFile.render
  simp only [List.map_append, List.map_cons, List.map_nil, units_append]
  rw [← ended_units, ← Header.units_render, ← Header.units_render, units_plain (t := str "*** ") (by decide), units_plain (t := str "--- ") (by decide)]
  refine congrArg _ ?_
  show List.flatMap _ (f.hunks.map _) = _
  rw [List.flatMap_map, List.map_flatMap]
  exact congrArg (fun g => List.flatMap g f.hunks) (funext fun b => CHunk.units_render b)

theorem CDiff.units_render (d : CDiff) : d.units.render = d.render.map units := by
  unfold Spec.CDiff.render
  simp only [List.map_append]
  rw [← ended_units]
  refine congrArg (· ++ _) ?_
  show List.flatMap _ (d.files.map _) = _
  rw [List.flatMap_map, List.map_flatMap]
  exact congrArg (fun g => List.flatMap g d.files) (funext fun b => CFile.units_render b)

theorem CDiff.units_cvs (d : CDiff) : d.units.cvs = d.cvs := by
  unfold Spec.CDiff.cvs
  have : (d.units.files.flatMap CFile.preamble ++ d.units.trailer) = (d.files.flatMap CFile.preamble ++ d.trailer).map units := by
    rw [List.map_append]
    refine congrArg (· ++ _) ?_
    show List.flatMap _ (d.files.map _) = _
    rw [List.flatMap_map, List.map_flatMap]
    rfl
  rw [this, List.any_map]
  exact congrArg (fun g => List.any _ g) (funext fun t => isPrefixOf_units (by decide) t)

theorem CBlock.units_view (a b : Nat) (k : CBlock) : k.units.view a b = (k.view a b).units := by
  cases k <;> rfl

theorem cblockViews_units (bs : List CBlock) : ∀ a b, cblockViews a b (bs.map Spec.CBlock.units) = (cblockViews a b bs).map Spec.DView.units := by
  induction bs with
  | nil => intro a b; rfl
  | cons k bs ih =>
    intro a b
    simp only [List.map_cons, cblockViews, CBlock.units_view, CBlock.units_old, CBlock.units_new, List.length_map, ih]

theorem CHunk.units_view (h : CHunk) : h.units.view = h.view.units := by
  unfold Spec.CHunk.view Spec.HView.units
  simp only
  have : h.units.function.getD [] = units (h.function.getD []) := by
    unfold Spec.CHunk.units
    cases h.function <;> rfl
  rw [this]
  have : h.units.blocks = h.blocks.map Spec.CBlock.units := rfl
  rw [this, cblockViews_units]
  rfl

theorem CFile.units_view (win cvs : Bool) (f : CFile) : f.units.view (unescapePath win) cvs = (f.view (unescapePath win) cvs).units := by
  have hs : ∀ o : Option Str, (o.map units).getD [] = units (o.getD []) := by intro o; cases o <;> rfl
  have e0 : shownStamps cvs f.src.units f.dst.units = (units (shownStamps cvs f.src f.dst).1, units (shownStamps cvs f.src f.dst).2) := by
    unfold shownStamps Spec.Header.units
    cases cvs
    · simp only [Bool.false_eq_true, if_false, hs]
    · simp only [if_true, hs]
      refine congrArg (Prod.mk _) ?_
      cases f.dst.extra with
      | none => rfl
      | some r => exact (units_bmp (by decide) r).symm
  have e1 : (f.hunks.map Spec.CHunk.units).map Spec.CHunk.view = (f.hunks.map Spec.CHunk.view).map Spec.HView.units := by
    simp only [List.map_map]
    exact List.map_congr_left (fun h _ => CHunk.units_view h)
  have e2 : (f.hunks.map Spec.CHunk.units).flatMap (fun h => h.view.diffs) = (f.hunks.flatMap (fun h => h.view.diffs)).map Spec.DView.units := by
    rw [List.flatMap_map, List.map_flatMap]
    refine congrArg (fun g => List.flatMap g f.hunks) (funext fun h => ?_)
    rw [CHunk.units_view]; rfl
  have e3 : unescapePath win f.src.units.name = units (unescapePath win f.src.name) := unescape_units win _
  have e4 : unescapePath win f.dst.units.name = units (unescapePath win f.dst.name) := unescape_units win _
  unfold Spec.CFile.view Spec.MView.units
  simp only [Spec.CFile.units, e0, e1, e2, e3, e4, filter_units]
  rfl

theorem alternating_units (bs : List CBlock) (h : Alternating bs) : Alternating (bs.map Spec.CBlock.units) := by
  induction bs with
  | nil => trivial
  | cons b bs ih =>
    cases bs with
    | nil => trivial
    | cons b' bs =>
      obtain ⟨h1, h2⟩ := h
      refine ⟨?_, ih h2⟩
      rw [CBlock.units_isChange, CBlock.units_isChange]
      exact h1

theorem CHunk.units_ok {h : CHunk} (ok : h.Ok) (hs : h.UnitsShort) : h.units.Ok := by
  obtain ⟨h1, h2, h3, h4, h5, h6, h7⟩ := ok
  refine ⟨by rw [CHunk.units_srcCount]; exact h1, by rw [CHunk.units_dstCount]; exact h2, ?_, ?_, alternating_units _ h5, ?_, ?_⟩
  · intro f hf
    have hf : h.function.map units = some f := hf
    cases e : h.function with
    | none => rw [e] at hf; cases hf
    | some t =>
      rw [e] at hf
      cases hf
      rw [mem_units (by decide)]; exact h3 t e
  · intro b hb
    obtain ⟨b0, hb0, rfl⟩ := List.mem_map.1 hb
    have := h4 b0 hb0
    cases b0 <;> simpa [Spec.CBlock.units, Spec.CBlock.NonEmpty] using this
  · obtain ⟨b, hb, hc⟩ := h6
    exact ⟨b.units, List.mem_map.2 ⟨b, hb, rfl⟩, by rw [CBlock.units_isChange]; exact hc⟩
  · intro b hb l hl
    obtain ⟨b0, hb0, rfl⟩ := List.mem_map.1 hb
    rw [CBlock.units_old, CBlock.units_new, ← List.map_append] at hl
    obtain ⟨l0, hl0, rfl⟩ := List.mem_map.1 hl
    exact ⟨by rw [mem_units (by decide)]; exact (h7 b0 hb0 l0 hl0).1, hs b0 hb0 l0 hl0⟩

theorem cbetween_units {t : Str} (h : CBetween t) : CBetween (units t) := by
  unfold CBetween at h ⊢
  rw [mem_units (by decide), prefix_units (by decide), prefix_units (by decide), prefix_units (by decide)]
  exact h

theorem CDiff.units_ok {d : CDiff} (ok : d.Ok) (hs : ∀ f ∈ d.files, ∀ h ∈ f.hunks, h.UnitsShort) : d.units.Ok := by
  obtain ⟨o1, oh, o2, o3, o4, o5⟩ := ok
  have hfiles : ∀ f fs, d.units.files = f :: fs → ∃ f0 fs0, d.files = f0 :: fs0 ∧ f = f0.units ∧ fs = fs0.map Spec.CFile.units := by
    intro f fs e
    have e : d.files.map Spec.CFile.units = f :: fs := e
    cases hd : d.files with
    | nil => rw [hd] at e; cases e
    | cons f0 fs0 =>
      rw [hd] at e
      cases e
      exact ⟨f0, fs0, rfl, rfl, rfl⟩
  refine ⟨?_, ?_, ?_, ?_, ?_, ?_⟩
  · intro f hf
    obtain ⟨f0, hf0, rfl⟩ := List.mem_map.1 hf
    obtain ⟨a, b, c, e⟩ := o1 f0 hf0
    refine ⟨Header.units_ok a, Header.units_ok b, ?_, ?_⟩
    · intro h hh
      obtain ⟨h0, hh0, rfl⟩ := List.mem_map.1 hh
      exact CHunk.units_ok (c h0 hh0) (hs f0 hf0 h0 hh0)
    · intro t ht
      obtain ⟨t0, ht0, rfl⟩ := List.mem_map.1 ht
      exact cbetween_units (e t0 ht0)
  · intro f hf
    obtain ⟨f0, hf0, rfl⟩ := List.mem_map.1 hf
    rw [CDiff.units_cvs]
    obtain ⟨a, b⟩ := oh f0 hf0
    have nn : ∀ o : Option Str, o.map units = none ↔ o = none := fun o => Option.map_eq_none_iff
    have e1 : f0.units.src.stamp = f0.src.stamp.map units := rfl
    have e2 : f0.units.src.extra = f0.src.extra.map units := rfl
    have e3 : f0.units.dst.stamp = f0.dst.stamp.map units := rfl
    have e4 : f0.units.dst.extra = f0.dst.extra.map units := rfl
    unfold HeadersOk
    rw [e1, e2, e3, e4]
    simp only [ne_eq, nn]
    exact ⟨a, b⟩
  · intro f fs e
    obtain ⟨f0, fs0, e0, rfl, rfl⟩ := hfiles f fs e
    intro t ht
    obtain ⟨t0, ht0, rfl⟩ := List.mem_map.1 ht
    exact preamble_units (o2 f0 fs0 e0 t0 ht0)
  · intro f fs e g hg t ts ht
    obtain ⟨f0, fs0, e0, rfl, rfl⟩ := hfiles f fs e
    obtain ⟨g0, hg0, rfl⟩ := List.mem_map.1 hg
    have ht : g0.preamble.map units = t :: ts := ht
    cases hp : g0.preamble with
    | nil => rw [hp] at ht; cases ht
    | cons t0 ts0 =>
      rw [hp] at ht
      cases ht
      exact separator_units (o3 f0 fs0 e0 g0 hg0 t0 ts0 hp)
  · intro t ht
    obtain ⟨t0, ht0, rfl⟩ := List.mem_map.1 ht
    exact cbetween_units (o4 t0 ht0)
  · intro t ts ht
    have ht : d.trailer.map units = t :: ts := ht
    cases hp : d.trailer with
    | nil => rw [hp] at ht; cases ht
    | cons t0 ts0 =>
      rw [hp] at ht
      cases ht
      exact separator_units (o5 t0 ts0 hp)

/-! ### Normal diffs -/

theorem shortRange_plain (a b : Nat) : Plain (shortRange a b) := by
  unfold shortRange
  refine plain_append (decNat_plain _) ?_
  split
  · decide
  · intro c hc
    rcases List.mem_cons.1 hc with rfl | h
    · decide
    · exact decNat_plain _ c h

theorem plain_cons {x : Char} {t : Str} (hx : ¬ Astral x) (h : Plain t) : Plain (x :: t) := by
  intro c hc
  rcases List.mem_cons.1 hc with rfl | hc
  · exact hx
  · exact h c hc

theorem NCmd.units_render (c : NCmd) : c.units.render = c.render.map units := by
  unfold Spec.NCmd.render
  have h1 : c.units.command = units c.command := by
    have hp : Plain c.command := by
      cases c with
      | insert a d ls => exact plain_append (plain_append (decNat_plain _) (plain_cons (by decide) (shortRange_plain _ _))) (by decide)
      | delete s ls a => exact plain_append (plain_append (shortRange_plain _ _) (plain_cons (by decide) (decNat_plain _))) (by decide)
      | change s r d a => exact plain_append (plain_append (shortRange_plain _ _) (plain_cons (by decide) (shortRange_plain _ _))) (by decide)
    rw [units_plain hp]
    cases c <;> simp only [Spec.NCmd.units, Spec.NCmd.command, List.length_map]
  rw [h1, List.map_cons]
  refine congrArg _ ?_
  cases c with
  | insert a d ls => exact marked_units '>' (by decide) ls
  | delete s ls a => exact marked_units '<' (by decide) ls
  | change s r d a =>
    show (r.map units).map _ ++ _ :: (a.map units).map _ = List.map units (_ ++ _ :: _)
    rw [marked_units '<' (by decide), marked_units '>' (by decide), List.map_append, List.map_cons, units_plain (t := str "---\n") (by decide)]

theorem NCmd.units_ok {c : NCmd} (ok : c.Ok) : c.units.Ok := by
  obtain ⟨h1, h2, h3⟩ := ok
  refine ⟨?_, ?_, ?_⟩
  · cases c <;> simpa [Spec.NCmd.units] using h1
  · cases c <;> exact h2
  · intro t ht
    have e : c.units.old ++ c.units.new = (c.old ++ c.new).map units := by cases c <;> simp [Spec.NCmd.units, Spec.NCmd.old, Spec.NCmd.new]
    rw [e] at ht
    obtain ⟨t0, ht0, rfl⟩ := List.mem_map.1 ht
    rw [mem_units (by decide)]
    exact h3 t0 ht0

theorem normalView_units (cs : List NCmd) : normalView [] [] (cs.map Spec.NCmd.units) = (normalView [] [] cs).units := by
  have hv : ∀ c : NCmd, c.units.view = c.view.units := by
    intro c
    cases c <;> rfl
  unfold normalView Spec.MView.units
  simp only [List.map_map, List.flatMap_map, List.map_flatMap]
  have e1 : List.map (Spec.NCmd.view ∘ Spec.NCmd.units) cs = List.map (Spec.HView.units ∘ Spec.NCmd.view) cs := List.map_congr_left (fun c _ => hv c)
  have e2 : (fun c : NCmd => c.units.view.diffs) = fun c => List.map Spec.DView.units c.view.diffs := funext fun c => by rw [hv]; rfl
  rw [e1, e2]
  rfl

end KompareDiff2
