import Verif.Proofs.UnifiedMatch
import Verif.Proofs.Inline
/-
The unified parser on one well-formed hunk.
-/
namespace KompareDiff2
open Spec

/-- A run of lines with the same prefix is taken completely when the counters allow it and something else follows. -/
theorem takeRun_all (p : Char) (da db : Nat) (hd : 0 < da + db) (vs : List Str) (rest : List Str) (x y : Nat)
    (hstop : (x = 0 ∧ y = 0) ∨ ∀ l, rest.head? = some l → l.head? ≠ some p) :
    takeRun p da db (vs.map (fun v => p :: v) ++ rest) ((da * vs.length + x : Nat) : Int) ((db * vs.length + y : Nat) : Int) =
      (vs, rest, (x : Int), (y : Int)) := by
  induction vs with
  | nil =>
    simp only [List.map_nil, List.nil_append, List.length_nil, Nat.mul_zero, Nat.zero_add]
    cases rest with
    | nil => rfl
    | cons l rest =>
      unfold takeRun
      rw [if_neg]
      rintro ⟨h1, h2⟩
      rcases hstop with ⟨rfl, rfl⟩ | h
      · simp at h2
      · exact h l rfl h1
  | cons v vs ih =>
    simp only [List.map_cons, List.cons_append, List.length_cons]
    unfold takeRun
    have h1 : (((da * (vs.length + 1) + x : Nat) : Int) - da) = ((da * vs.length + x : Nat) : Int) := by
      simp only [Nat.mul_add]; omega
    have h2 : (((db * (vs.length + 1) + y : Nat) : Int) - db) = ((db * vs.length + y : Nat) : Int) := by
      simp only [Nat.mul_add]; omega
    rw [if_pos]
    · rw [h1, h2, ih]; rfl
    · refine ⟨rfl, ?_⟩
      simp only [Nat.mul_add]
      omega

/-- The lines of a block after the remarks about missing newlines have been folded. -/
def Spec.Block.clean : Block → List Str
  | .context ls => (ls.map Line.value).map (fun v => ' ' :: v)
  | .change r a => (r.map Line.value).map (fun v => '-' :: v) ++ (a.map Line.value).map (fun v => '+' :: v)

/-- How a block begins. -/
def Spec.Block.Begins (l : Str) : Block → Prop
  | .context _ => l.head? = some ' '
  | .change r _ => l.head? = if r = [] then some '+' else some '-'

/-- A line that ends a block. -/
def Spec.Block.Stops (l : Str) : Block → Prop
  | .context _ => l.head? ≠ some ' '
  | .change _ a => l.head? ≠ some '+' ∧ (a = [] → l.head? ≠ some '-')

/-- First character of the lines of a block. -/
theorem Spec.Block.clean_head {b : Block} (h : b.NonEmpty) (more : List Str) :
    ∃ l ls, b.clean ++ more = l :: ls ∧ b.Begins l := by
  cases b with
  | context ls =>
    cases ls with
    | nil => exact absurd rfl h
    | cons x xs => exact ⟨_, _, rfl, rfl⟩
  | change r a =>
    cases r with
    | cons x xs => exact ⟨_, _, rfl, rfl⟩
    | nil =>
      cases a with
      | nil => simp [Block.NonEmpty] at h
      | cons x xs => exact ⟨_, _, rfl, rfl⟩

theorem foldl_addBoth (ls : List Str) (d : Diff) :
    ls.foldl (fun d l => (d.addSource l).addDest l) d =
      { d with source := d.source ++ ls.map (fun l => DStr.ofStr l), dest := d.dest ++ ls.map (fun l => DStr.ofStr l) } := by
  induction ls generalizing d with
  | nil => simp
  | cons l ls ih => rw [List.foldl_cons, ih]; simp [Diff.addSource, Diff.addDest]

theorem bare_view {d d' : Diff} (h : d.bare = d'.bare) : d.view = d'.view := by
  have h1 := bare_srcText h
  have h2 := bare_dstText h
  have e : ∀ d : Diff, d.type = d.bare.type ∧ d.sourceLineNo = d.bare.sourceLineNo ∧ d.destLineNo = d.bare.destLineNo ∧
    d.tracking = d.bare.tracking ∧ d.applied = d.bare.applied ∧ d.unsaved = d.bare.unsaved ∧ d.conflicts = d.bare.conflicts :=
    fun d => ⟨rfl, rfl, rfl, rfl, rfl, rfl, rfl⟩
  obtain ⟨a1, a2, a3, a4, a5, a6, a7⟩ := e d
  obtain ⟨b1, b2, b3, b4, b5, b6, b7⟩ := e d'
  simp only [Diff.view, h1, h2, a1, a2, a3, a4, a5, a6, a7, b1, b2, b3, b4, b5, b6, b7, h]

theorem view_slc {d : Diff} : d.view.src.length = d.slc := by simp [Diff.view, Diff.srcText, Diff.slc]
theorem view_dlc {d : Diff} : d.view.dst.length = d.dlc := by simp [Diff.view, Diff.dstText, Diff.dlc]

/-- Lines short enough for the inline comparison. -/
def Spec.Block.Short (b : Block) : Prop := ∀ l ∈ b.old ++ b.new, l.text.length < 65534

theorem value_short {l : Line} (h : l.text.length < 65534) : ShortLine l.value := by
  unfold ShortLine Line.value
  cases l.eol <;> simp <;> omega

/-- The difference built from a change block. -/
def changeDiff (p q : Nat) (r a : List Line) : Diff :=
  { type := if r = [] then .Insert else if a = [] then .Delete else .Change
    sourceLineNo := p
    destLineNo := q
    tracking := p
    source := (r.map Line.value).map (fun l => DStr.ofStr l)
    dest := (a.map Line.value).map (fun l => DStr.ofStr l) }

theorem unifiedStep_block (b : Block) (hne : b.NonEmpty) (hsh : b.Short) (l : Str) (ls : List Str) (more : List Str)
    (e : b.clean ++ more = l :: ls) (p q x y : Nat)
    (hstop : (x = 0 ∧ y = 0) ∨ ∀ l, more.head? = some l → b.Stops l) :
    ∃ d, unifiedStep l ls p q ((b.old.length + x : Nat) : Int) ((b.new.length + y : Nat) : Int) =
        Res.ok ((d, b.isChange), more, (x : Int), (y : Int)) ∧ d.view = b.view p q := by
  obtain ⟨l', ls', e', hh⟩ := Spec.Block.clean_head hne more
  rw [e] at e'
  simp only [List.cons.injEq] at e'
  obtain ⟨rfl, rfl⟩ := e'
  cases b with
  | context vs =>
    simp only [Block.Begins] at hh
    simp only [unifiedStep, hh, if_true, unifiedContext, ← e, Block.clean, Block.old, Block.new]
    have h := takeRun_all ' ' 1 1 (by omega) (vs.map Line.value) more x y (by
      rcases hstop with h | h
      · exact Or.inl h
      · exact Or.inr h)
    simp only [Nat.one_mul, List.length_map] at h
    rw [show ((1 : Nat) : Int) = 1 from rfl] at h
    rw [h]
    refine ⟨_, rfl, ?_⟩
    simp [foldl_addBoth, Diff.new, Diff.view, Block.view, Diff.srcText, Diff.dstText, DStr.ofStr]
  | change r a =>
    simp only [Block.Begins] at hh
    have hns : l.head? ≠ some ' ' := by rw [hh]; split <;> simp
    simp only [unifiedStep, hns, if_false, unifiedChange, ← e, Block.clean, Block.old, Block.new]
    have h1 := takeRun_all '-' 1 0 (by omega) (r.map Line.value) ((a.map Line.value).map (fun v => '+' :: v) ++ more) x
      (a.length + y) (by
        cases a with
        | nil =>
          simp only [List.map_nil, List.nil_append, List.length_nil, Nat.zero_add]
          rcases hstop with h | h
          · exact Or.inl h
          · exact Or.inr (fun l hl => (h l hl).2 rfl)
        | cons z zs =>
          right
          intro l hl
          simp only [List.map_cons, List.cons_append, List.head?_cons, Option.some.injEq] at hl
          subst hl; simp)
    have h2 := takeRun_all '+' 0 1 (by omega) (a.map Line.value) more x y (by
        rcases hstop with h | h
        · exact Or.inl h
        · exact Or.inr (fun l hl => (h l hl).1))
    simp only [Nat.one_mul, Nat.zero_mul, Nat.zero_add, List.length_map] at h1 h2
    rw [show ((1 : Nat) : Int) = 1 from rfl, show ((0 : Nat) : Int) = 0 from rfl] at h1 h2
    rw [List.append_assoc, h1]
    simp only
    rw [h2]
    simp only [foldl_addSource, foldl_addDest]
    obtain ⟨d', hd', hb⟩ := determineInline_ok
      (d := changeDiff p q r a) (by
        constructor
        · refine freshLines_ofStr _ ?_
          intro v hv
          obtain ⟨l, hl, rfl⟩ := List.mem_map.1 hv
          exact value_short (hsh l (by simp [Block.old, hl]))
        · refine freshLines_ofStr _ ?_
          intro v hv
          obtain ⟨l, hl, rfl⟩ := List.mem_map.1 hv
          exact value_short (hsh l (by simp [Block.new, hl])))
    refine ⟨d', ?_, ?_⟩
    · have ht : ∀ d : Diff, d.source = (r.map Line.value).map (fun l => DStr.ofStr l) → d.dest = (a.map Line.value).map (fun l => DStr.ofStr l) →
          unifiedType d = if r = [] then .Insert else if a = [] then .Delete else .Change := by
        intro d hs hd
        simp [unifiedType, Diff.slc, Diff.dlc, hs, hd]
      rw [ht _ (by simp [Diff.new]) (by simp [Diff.new])]
      simp only [Diff.new, List.nil_append]
      unfold changeDiff at hd'
      rw [hd']; rfl
    · rw [bare_view hb]
      simp [changeDiff, Diff.view, Block.view, Diff.srcText, Diff.dstText, DStr.ofStr]

/-- Lines of the old file in a list of blocks. -/
def srcLen (bs : List Block) : Nat := (bs.map (fun b => b.old.length)).sum
/-- Lines of the new file in a list of blocks. -/
def dstLen (bs : List Block) : Nat := (bs.map (fun b => b.new.length)).sum

theorem Spec.SeparatedBlocks.tail {b : Block} {bs : List Block} (h : SeparatedBlocks (b :: bs)) : SeparatedBlocks bs := by
  cases bs with
  | nil => trivial
  | cons => exact h.2

theorem Block.clean_length_pos {b : Block} (h : b.NonEmpty) : 0 < b.clean.length := by
  cases b with
  | context ls => cases ls with
    | nil => exact absurd rfl h
    | cons => simp [Block.clean]
  | change r a =>
    cases r with
    | cons => simp [Block.clean]
    | nil => cases a with
      | nil => simp [Block.NonEmpty] at h
      | cons => simp [Block.clean]

theorem Block.view_lengths (b : Block) (p q : Nat) :
    (b.view p q).src.length = b.old.length ∧ (b.view p q).dst.length = b.new.length := by
  cases b <;> simp [Block.view, Block.old, Block.new]

theorem matches_of_head {l : Str} {c : Char} (h : l.head? = some c) (hc : c = ' ' ∨ c = '+' ∨ c = '-') :
    matchesUnifiedHunkLine l = Res.ok true := by
  cases l with
  | nil => simp at h
  | cons x l =>
    simp only [List.head?_cons, Option.some.injEq] at h
    subst h
    rcases hc with rfl | rfl | rfl <;> rfl

theorem unifiedBody_blocks (bs : List Block) (hne : ∀ b ∈ bs, b.NonEmpty) (hsh : ∀ b ∈ bs, b.Short) (hsep : SeparatedBlocks bs)
    (rest : List Str) (hrest : rest.head? ≠ some []) (fuel p q : Nat) (hf : (bs.flatMap Block.clean).length < fuel) :
    ∃ es, unifiedBodyLoop fuel (bs.flatMap Block.clean ++ rest) p q (srcLen bs : Int) (dstLen bs : Int) = Res.ok (es, rest) ∧
      es.map (fun e => e.1.view) = blockViews p q bs ∧ es.map Prod.snd = bs.map Block.isChange := by
  induction bs generalizing fuel p q with
  | nil =>
    cases fuel with
    | zero => omega
    | succ fuel =>
      refine ⟨[], ?_, rfl, rfl⟩
      cases rest with
      | nil => rfl
      | cons l rest =>
        cases l with
        | nil => simp at hrest
        | cons c l =>
          simp [unifiedBodyLoop, matchesUnifiedHunkLine, srcLen, dstLen]
  | cons b bs ih =>
    have hb := hne b (by simp)
    have hlen := Block.clean_length_pos hb
    simp only [List.flatMap_cons, List.length_append] at hf
    cases fuel with
    | zero => omega
    | succ fuel =>
      obtain ⟨l, ls, e, hh⟩ := Spec.Block.clean_head hb (bs.flatMap Block.clean ++ rest)
      obtain ⟨d, hd, hv⟩ := unifiedStep_block b hb (hsh b (by simp)) l ls _ e p q (srcLen bs) (dstLen bs) (by
        cases bs with
        | nil => left; exact ⟨rfl, rfl⟩
        | cons b' bs =>
          right
          intro m hm
          obtain ⟨m', ms, e', hh'⟩ := Spec.Block.clean_head (hne b' (by simp)) (bs.flatMap Block.clean ++ rest)
          rw [List.flatMap_cons, List.append_assoc, e'] at hm
          simp only [List.head?_cons, Option.some.injEq] at hm
          subst hm
          have hs := hsep.1
          cases b with
          | context _ =>
            cases b' with
            | context _ => exact absurd hs (by simp [Block.Separated])
            | change r' a' => simp only [Block.Begins] at hh'; simp only [Block.Stops]; rw [hh']; split <;> simp
          | change r a =>
            cases b' with
            | context _ => simp only [Block.Begins] at hh'; simp only [Block.Stops]; rw [hh']; simp
            | change r' a' =>
              simp only [Block.Separated] at hs
              simp only [Block.Begins] at hh'
              simp only [Block.Stops]
              rw [hh']; simp [hs.1, hs.2])
      have hsl : (srcLen (b :: bs)) = b.old.length + srcLen bs := by simp [srcLen]
      have hdl : (dstLen (b :: bs)) = b.new.length + dstLen bs := by simp [dstLen]
      have hvl := Block.view_lengths b p q
      rw [← hv, view_slc, view_dlc] at hvl
      obtain ⟨es, h1, h2, h3⟩ := ih (fun b hb => hne b (by simp [hb])) (fun b hb => hsh b (by simp [hb])) (hsep.tail) fuel
        (p + b.old.length) (q + b.new.length) (by omega)
      refine ⟨(d, b.isChange) :: es, ?_, ?_, ?_⟩
      · rw [List.flatMap_cons, List.append_assoc, e]
        simp only [unifiedBodyLoop]
        have hm : matchesUnifiedHunkLine l = Res.ok true := by
          cases b with
          | context _ => exact matches_of_head hh (by simp)
          | change r _ =>
            simp only [Block.Begins] at hh
            split at hh
            · exact matches_of_head hh (by simp)
            · exact matches_of_head hh (by simp)
        have hc : ((srcLen (b :: bs) : Nat) : Int) ≠ 0 ∨ ((dstLen (b :: bs) : Nat) : Int) ≠ 0 := by
          rw [hsl, hdl]
          cases b with
          | context ls =>
            have : 0 < ls.length := List.length_pos_iff.2 hb
            simp only [Block.old]; omega
          | change r a =>
            simp only [Block.old, Block.new]
            rcases hb with hb | hb
            · have := List.length_pos_iff.2 hb; omega
            · have := List.length_pos_iff.2 hb; omega
        rw [hm]
        simp only [Res.bind_ok, true_and]
        rw [if_pos hc, hsl, hdl, hd]
        simp only [Res.bind_ok, hvl.1, hvl.2]
        have e1 : (p : Int) + (b.old.length : Int) = ((p + b.old.length : Nat) : Int) := by omega
        have e2 : (q : Int) + (b.new.length : Int) = ((q + b.new.length : Nat) : Int) := by omega
        rw [e1, e2, h1]
        rfl
      · simp [blockViews, hv, h2]
      · simp [h3]

theorem headerValues (c : Caps) (s t : Nat) (n m : Nat) (sh sh' : Bool) (f : Str)
    (hs : RangeOk s n sh) (ht : RangeOk t m sh')
    (h1 : c.get 1 = decNat (if n = 0 then s - 1 else s)) (h3 : c.get 3 = if sh then [] else decNat n)
    (h4 : c.get 4 = decNat (if m = 0 then t - 1 else t)) (h6 : c.get 6 = if sh' then [] else decNat m) (h7 : c.get 7 = f) :
    unifiedHeaderValues c = some { a := s, b := t, countA := n, countB := m, function := f } := by
  have hA : ∀ (s n : Nat), RangeOk s n sh → toInt (decNat (if n = 0 then s - 1 else s)) = ((if n = 0 then s - 1 else s : Nat) : Int) := by
    intro s n h; apply toInt_decNat; have := h.2.2.1; split <;> omega
  have hB : ∀ (s n : Nat), RangeOk s n sh' → toInt (decNat (if n = 0 then s - 1 else s)) = ((if n = 0 then s - 1 else s : Nat) : Int) := by
    intro s n h; apply toInt_decNat; have := h.2.2.1; split <;> omega
  have n1 := toIntOk_decNat n hs.2.2.2
  have m1 := toIntOk_decNat m ht.2.2.2
  obtain ⟨hs1, hs2, _, _⟩ := id hs
  obtain ⟨ht1, ht2, _, _⟩ := id ht
  unfold unifiedHeaderValues
  rw [h1, h3, h4, h6, h7, hA s n hs, hB t m ht]
  cases sh
  · cases sh'
    · simp only [decNat_ne_nil, if_false, n1, m1, Bool.false_eq_true, Bool.true_eq_false, ne_eq, not_false_eq_true, true_and]
      by_cases hn : n = 0 <;> by_cases hm : m = 0 <;> simp [hn, hm] <;> omega
    · have := ht1 rfl; subst this
      simp only [decNat_ne_nil, if_false, n1, Bool.false_eq_true, if_true, Bool.true_eq_false, ne_eq, not_false_eq_true, true_and]
      by_cases hn : n = 0 <;> simp [hn] <;> omega
  · have := hs1 rfl; subst this
    cases sh'
    · simp only [decNat_ne_nil, if_false, m1, Bool.false_eq_true, if_true, Bool.true_eq_false, ne_eq, not_false_eq_true, true_and]
      by_cases hm : m = 0 <;> simp [hm] <;> omega
    · have := ht1 rfl; subst this
      simp

/-- The lines of a hunk after the remarks about missing newlines have been folded. -/
def Spec.UHunk.clean (h : UHunk) : List Str := h.header :: h.blocks.flatMap Block.clean

theorem UHunk.header_text (h : UHunk) :
    h.header = hunkHeaderText (decNat (if h.srcCount = 0 then h.srcLine - 1 else h.srcLine))
      (if h.shortSrc then none else some (decNat h.srcCount))
      (decNat (if h.dstCount = 0 then h.dstLine - 1 else h.dstLine))
      (if h.shortDst then none else some (decNat h.dstCount)) h.gap h.function := by
  unfold UHunk.header hunkHeaderText range
  cases h.shortSrc <;> cases h.shortDst <;> cases h.function <;> cases h.gap <;> simp

theorem UHunk.header_match (h : UHunk) (ok : h.Ok) :
    ∃ c, reUnifiedHunkHeader.full h.header = some c ∧
      unifiedHeaderValues c = some { a := h.srcLine, b := h.dstLine, countA := h.srcCount, countB := h.dstCount,
                                     function := h.function.getD [] } := by
  rw [UHunk.header_text]
  obtain ⟨c, hc, h1, h3, h4, h6, h7⟩ := unifiedHunkHeader_match
    (decNat (if h.srcCount = 0 then h.srcLine - 1 else h.srcLine)) (decNat (if h.dstCount = 0 then h.dstLine - 1 else h.dstLine))
    (if h.shortSrc then none else some (decNat h.srcCount)) (if h.shortDst then none else some (decNat h.dstCount)) h.gap h.function
    ⟨decNat_ne_nil _, decNat_isDigit _⟩ ⟨decNat_ne_nil _, decNat_isDigit _⟩
    (by intro u hu; cases hsh : h.shortSrc <;> simp [hsh] at hu; subst hu; exact ⟨decNat_ne_nil _, decNat_isDigit _⟩)
    (by intro u hu; cases hsh : h.shortDst <;> simp [hsh] at hu; subst hu; exact ⟨decNat_ne_nil _, decNat_isDigit _⟩)
    ok.function
  refine ⟨c, hc, headerValues c _ _ _ _ h.shortSrc h.shortDst _ ok.src ok.dst h1 ?_ h4 ?_ h7⟩
  · rw [h3]; cases h.shortSrc <;> rfl
  · rw [h6]; cases h.shortDst <;> rfl

/-- One well-formed hunk. -/
theorem parseUnifiedHunk_ok (h : UHunk) (ok : h.Ok) (st : PState) (rest : List Str) (hr : rest.head? ≠ some [])
    (e : st.rest = h.clean ++ rest) :
    ∃ es : Entries, parseUnifiedHunk st =
        Res.ok (some { (st.addHunk h.srcLine h.dstLine (h.function.getD []) es) with rest := rest }) ∧
      es.map (fun e => e.1.view) = blockViews h.srcLine h.dstLine h.blocks ∧ es.map Prod.snd = h.blocks.map Block.isChange := by
  obtain ⟨c, hc, hv⟩ := UHunk.header_match h ok
  obtain ⟨es, h1, h2, h3⟩ := unifiedBody_blocks h.blocks ok.nonEmpty (fun b hb l hl => (ok.lines b hb l hl).2) ok.separated rest hr
    ((h.blocks.flatMap Block.clean ++ rest).length + 1) h.srcLine h.dstLine (by simp; omega)
  refine ⟨es, ?_, h2, h3⟩
  unfold parseUnifiedHunk
  rw [e]
  simp only [UHunk.clean, List.cons_append, hc, hv]
  have : unifiedBodyLoop ((h.blocks.flatMap Block.clean ++ rest).length + 1) (h.blocks.flatMap Block.clean ++ rest) h.srcLine h.dstLine
    (h.srcCount : Int) (h.dstCount : Int) = Res.ok (es, rest) := h1
  rw [this]
  rfl

end KompareDiff2
