import Verif.Spec.Context
import Verif.Proofs.ReadingContext
/-
The context parser on one well-formed hunk.
-/
namespace KompareDiff2
open Spec Re

/-! ### Section lines -/

/-- A mark of a section line. -/
def markP (c : Char) : Char → Bool := fun x => decide (x = c)

theorem full_marked (p : Char → Bool) (c : Char) (t : Str) (hp : p c = true) (ht : '\n' ∉ t) :
    (reBody p).full (markedLine c t) = some [(1, t)] := reBody_full.2 ⟨c, t, hp, ht, rfl, rfl⟩

theorem full_marked_none (p : Char → Bool) (c : Char) (t : Str) (hp : p c = false) : (reBody p).full (markedLine c t) = none := by
  cases h : (reBody p).full (markedLine c t) with
  | none => rfl
  | some k =>
    obtain ⟨x, u, hx, _, e, _⟩ := reBody_full.1 h
    simp only [markedLine, List.cons_append, List.cons.injEq] at e
    rw [← e.1, hp] at hx
    cases hx

/-- Nothing, or a line that does not match. -/
def StopsRun (r : Re) (ls : List Str) : Prop := ∀ l, ls.head? = some l → r.full l = none

theorem captureRun_marked (p : Char → Bool) (c : Char) (hp : p c = true) (ts : List Str) (ht : ∀ t ∈ ts, '\n' ∉ t) (rest : List Str)
    (hr : StopsRun (reBody p) rest) : captureRun (reBody p) (ts.map (markedLine c) ++ rest) = (ts, rest) := by
  induction ts with
  | nil =>
    simp only [List.map_nil, List.nil_append]
    cases rest with
    | nil => rfl
    | cons l rest => simp only [captureRun, hr l rfl]
  | cons t ts ih =>
    simp only [List.map_cons, List.cons_append, captureRun, full_marked p c t hp (ht t (by simp)),
      ih (fun t h => ht t (by simp [h]))]
    rfl

theorem contextLines_all (ls rest : List Str) (h : ∀ l ∈ ls, (reContextLine.full l).isSome = true)
    (hr : ∀ l, rest.head? = some l → (reContextLine.full l).isSome = false) : contextLines (ls ++ rest) = (ls, rest) := by
  induction ls with
  | nil =>
    simp only [List.nil_append]
    cases rest with
    | nil => rfl
    | cons l rest => simp [contextLines, hr l rfl]
  | cons l ls ih =>
    simp only [List.cons_append, contextLines, h l (by simp), if_true, ih (fun l hl => h l (by simp [hl]))]

theorem marked_section (c : Char) (hc : c = '-' ∨ c = '+' ∨ c = '!' ∨ c = ' ') (t : Str) (ht : '\n' ∉ t) :
    (reContextLine.full (markedLine c t)).isSome = true := by
  rw [reContextLine, full_marked _ c t (by rcases hc with rfl | rfl | rfl | rfl <;> rfl) ht]; rfl

/-! ### Blocks -/

/-- The texts of a block have no newline. -/
def Spec.CBlock.Plain (b : CBlock) : Prop := ∀ t ∈ b.old ++ b.new, '\n' ∉ t ∧ t.length < 65535

theorem CBlock.oldLines_section {b : CBlock} (h : b.Plain) : ∀ l ∈ b.oldLines, (reContextLine.full l).isSome = true := by
  intro l hl
  cases b with
  | context ls =>
    obtain ⟨t, ht, rfl⟩ := List.mem_map.1 hl
    exact marked_section ' ' (by simp) t (h t (by simp [CBlock.old, ht])).1
  | delete ls =>
    obtain ⟨t, ht, rfl⟩ := List.mem_map.1 hl
    exact marked_section '-' (by simp) t (h t (by simp [CBlock.old, ht])).1
  | insert ls => simp [CBlock.oldLines] at hl
  | change r a =>
    obtain ⟨t, ht, rfl⟩ := List.mem_map.1 hl
    exact marked_section '!' (by simp) t (h t (by simp [CBlock.old, ht])).1

theorem CBlock.newLines_section {b : CBlock} (h : b.Plain) : ∀ l ∈ b.newLines, (reContextLine.full l).isSome = true := by
  intro l hl
  cases b with
  | context ls =>
    obtain ⟨t, ht, rfl⟩ := List.mem_map.1 hl
    exact marked_section ' ' (by simp) t (h t (by simp [CBlock.new, ht])).1
  | insert ls =>
    obtain ⟨t, ht, rfl⟩ := List.mem_map.1 hl
    exact marked_section '+' (by simp) t (h t (by simp [CBlock.new, ht])).1
  | delete ls => simp [CBlock.newLines] at hl
  | change r a =>
    obtain ⟨t, ht, rfl⟩ := List.mem_map.1 hl
    exact marked_section '!' (by simp) t (h t (by simp [CBlock.new, ht])).1

/-- What is left of the old section. -/
def oldPart (f : Bool) (bs : List CBlock) : List Str := if f then bs.flatMap CBlock.oldLines else []
/-- What is left of the new section. -/
def newPart (f : Bool) (bs : List CBlock) : List Str := if f then bs.flatMap CBlock.newLines else []

/-- Nothing, or an unchanged line. -/
def Unremarked (ls : List Str) : Prop := ∀ l, ls.head? = some l → ∃ t, '\n' ∉ t ∧ l = markedLine ' ' t

theorem Unremarked.nil : Unremarked [] := by intro l h; cases h

theorem Unremarked.cons {t : Str} (ls : List Str) (h : '\n' ∉ t) : Unremarked (markedLine ' ' t :: ls) := by
  intro l hl
  simp only [List.head?_cons, Option.some.injEq] at hl
  exact ⟨t, h, hl.symm⟩

theorem Unremarked.stops {ls : List Str} (h : Unremarked ls) (p : Char → Bool) (hp : p ' ' = false) : StopsRun (reBody p) ls := by
  intro l hl
  obtain ⟨t, _, rfl⟩ := h l hl
  exact full_marked_none p ' ' t hp

theorem Unremarked.endOrContext {ls : List Str} (h : Unremarked ls) : endOrContext ls = true := by
  cases ls with
  | nil => rfl
  | cons l ls =>
    obtain ⟨t, ht, rfl⟩ := h l rfl
    simp only [KompareDiff2.endOrContext, reContextContext]
    rw [full_marked _ ' ' t (by rfl) ht]; rfl

theorem Unremarked.startsRe {ls : List Str} (h : Unremarked ls) (p : Char → Bool) (hp : p ' ' = false) : startsRe (reBody p) ls = false := by
  cases ls with
  | nil => rfl
  | cons l ls => simp [KompareDiff2.startsRe, h.stops p hp l rfl]

/-- The parts of the sections after a change. -/
theorem quiet_after {bs : List CBlock} (hne : ∀ b ∈ bs, b.NonEmpty) (hp : ∀ b ∈ bs, b.Plain)
    (h : ∀ b bs', bs = b :: bs' → b.isChange = false) (f : Bool) : Unremarked (oldPart f bs) ∧ Unremarked (newPart f bs) := by
  cases f with
  | false => exact ⟨Unremarked.nil, Unremarked.nil⟩
  | true =>
    cases bs with
    | nil => exact ⟨Unremarked.nil, Unremarked.nil⟩
    | cons b bs =>
      have := h b bs rfl
      cases b with
      | context ls =>
        cases ls with
        | nil => exact absurd rfl (hne (.context []) (by simp))
        | cons t ts =>
          have ht := (hp (.context (t :: ts)) (by simp) t (by simp [CBlock.old])).1
          exact ⟨Unremarked.cons _ ht, Unremarked.cons _ ht⟩
      | delete => cases this
      | insert => cases this
      | change => cases this

theorem contextText_marked (t : Str) (h : '\n' ∉ t) : contextText (markedLine ' ' t) = t := by
  unfold contextText reContextContext
  rw [full_marked _ ' ' t (by rfl) h]; rfl

theorem contextUnchanged_block (ls : List Str) (h : ∀ t ∈ ls, '\n' ∉ t) (fo fn : Bool) (hf : fo = true ∨ fn = true) (os ns : List Str)
    (hos : fo = false → os = []) (hns : fn = false → ns = [])
    (hstop : ¬ (endOrContext os = true ∧ endOrContext ns = true ∧ (os ≠ [] ∨ ns ≠ []))) (n : Nat) (hn : ls.length ≤ n) :
    contextUnchanged n ((if fo then ls.map (markedLine ' ') else []) ++ os) ((if fn then ls.map (markedLine ' ') else []) ++ ns) =
      (ls, os, ns) := by
  induction ls generalizing n with
  | nil =>
    have e : ∀ b : Bool, (if b = true then ([] : List Str).map (markedLine ' ') else []) = [] := by intro b; cases b <;> rfl
    rw [e, e]
    cases n with
    | zero => rfl
    | succ n =>
      simp only [List.nil_append, contextUnchanged]
      rw [if_neg hstop]
  | cons t ts ih =>
    cases n with
    | zero => simp at hn
    | succ n =>
      have ht := h t (by simp)
      have hi := ih (fun t h' => h t (by simp [h'])) n (by simpa using hn)
      have hq : ∀ (b : Bool) (rest : List Str), (b = false → rest = []) → Unremarked ((if b = true then (t :: ts).map (markedLine ' ') else []) ++ rest) := by
        intro b rest hb
        cases b with
        | true => exact Unremarked.cons _ ht
        | false => rw [hb rfl]; exact Unremarked.nil
      unfold contextUnchanged
      rw [if_pos ⟨(hq fo os hos).endOrContext, (hq fn ns hns).endOrContext, by
        rcases hf with rfl | rfl
        · left; simp
        · right; simp⟩]
      have hdrop : ∀ (b : Bool) (rest : List Str), (b = false → rest = []) →
          ((if b = true then (t :: ts).map (markedLine ' ') else []) ++ rest).drop 1 =
            (if b = true then ts.map (markedLine ' ') else []) ++ rest := by
        intro b rest hb
        cases b with
        | true => rfl
        | false => rw [hb rfl]; rfl
      rw [hdrop fo os hos, hdrop fn ns hns, hi]
      dsimp only
      refine congrArg (fun x => (x :: ts, os, ns)) ?_
      cases fn with
      | true => exact contextText_marked t ht
      | false =>
        cases fo with
        | true => rw [hns rfl]; exact contextText_marked t ht
        | false => simp at hf

theorem diffInline (d : Diff) (hs : ∀ t ∈ d.source, t.markers = [] ∧ ShortLine t.string) (ht : ∀ t ∈ d.dest, t.markers = [] ∧ ShortLine t.string) :
    ∃ d', d.determineInline = Res.ok d' ∧ d'.view = d.view := by
  obtain ⟨d', h1, h2⟩ := determineInline_ok (d := d) ⟨hs, ht⟩
  exact ⟨d', h1, bare_view h2⟩

/-- The difference built from a block. -/
def cblockDiff (p q : Nat) (b : CBlock) : Diff :=
  { type := (b.view p q).type
    sourceLineNo := p
    destLineNo := q
    tracking := p
    source := b.old.map (fun l => DStr.ofStr l)
    dest := b.new.map (fun l => DStr.ofStr l) }

theorem cblockDiff_view (p q : Nat) (b : CBlock) : (cblockDiff p q b).view = b.view p q := by
  have h1 := map_string_ofStr b.old
  have h2 := map_string_ofStr b.new
  simp only [cblockDiff, Diff.view, Diff.srcText, Diff.dstText, CBlock.view, h1, h2]

theorem cblockDiff_inline (p q : Nat) (b : CBlock) (h : b.Plain) : ∃ d, (cblockDiff p q b).determineInline = Res.ok d ∧ d.view = b.view p q := by
  obtain ⟨d, h1, h2⟩ := diffInline (cblockDiff p q b)
    (freshLines_ofStr _ (fun l hl => (h l (by simp [hl])).2)) (freshLines_ofStr _ (fun l hl => (h l (by simp [hl])).2))
  exact ⟨d, h1, h2.trans (cblockDiff_view p q b)⟩

theorem contextStep_block (b : CBlock) (bs : List CBlock) (hne : ∀ k ∈ b :: bs, k.NonEmpty) (hp : ∀ k ∈ b :: bs, k.Plain)
    (halt : Alternating (b :: bs)) (fo fn : Bool) (hf : fo = true ∨ fn = true)
    (ho : fo = false → ∀ k ∈ b :: bs, k.removes = false) (hn : fn = false → ∀ k ∈ b :: bs, k.adds = false) (p q : Nat) :
    ∃ d, contextStep (oldPart fo (b :: bs)) (newPart fn (b :: bs)) p q = Res.ok (some ((d, b.isChange), oldPart fo bs, newPart fn bs)) ∧
      d.view = b.view p q := by
  obtain ⟨d, hd, hv⟩ := cblockDiff_inline p q b (hp b (by simp))
  refine ⟨d, ?_, hv⟩
  have hnb := hne b (by simp)
  have hpb := hp b (by simp)
  have hafter : b.isChange = true → (∀ f, Unremarked (oldPart f bs)) ∧ (∀ f, Unremarked (newPart f bs)) := by
    intro hb
    have hq := quiet_after (bs := bs) (fun k hk => hne k (by simp [hk])) (fun k hk => hp k (by simp [hk])) (by
      intro k ks e
      subst e
      have := halt.1
      rw [hb] at this
      cases hk : k.isChange with
      | false => rfl
      | true => rw [hk] at this; exact absurd rfl this)
    exact ⟨fun f => (hq f).1, fun f => (hq f).2⟩
  cases b with
  | delete ls =>
    have hfo : fo = true := by
      cases fo with
      | true => rfl
      | false => exact absurd (ho rfl (.delete ls) (by simp)) (by simp [CBlock.removes])
    subst hfo
    have eo : oldPart true (.delete ls :: bs) = ls.map (markedLine '-') ++ oldPart true bs := by simp [oldPart, CBlock.oldLines]
    have en : newPart fn (.delete ls :: bs) = newPart fn bs := by cases fn <;> simp [newPart, CBlock.newLines]
    have ht : ∀ t ∈ ls, '\n' ∉ t := fun t ht => (hpb t (by simp [CBlock.old, ht])).1
    have hcap := captureRun_marked (fun x => decide (x = '-')) '-' (by rfl) ls ht (oldPart true bs)
      (((hafter rfl).1 true).stops _ (by rfl))
    have hs : startsRe reContextRemoved (ls.map (markedLine '-') ++ oldPart true bs) = true := by
      cases ls with
      | nil => exact absurd rfl hnb
      | cons t ts =>
        simp only [List.map_cons, List.cons_append, startsRe, reContextRemoved]
        rw [full_marked _ '-' t (by rfl) (ht t (by simp))]; rfl
    unfold contextStep
    rw [eo, en, if_pos hs]
    simp only [reContextRemoved]
    rw [hcap]
    simp only [foldl_addSource, Diff.new, List.nil_append]
    have e : cblockDiff p q (.delete ls) =
      ({ type := .Delete, sourceLineNo := p, destLineNo := q, tracking := p, source := ls.map (fun l => DStr.ofStr l) } : Diff) := rfl
    rw [e] at hd
    rw [hd]; rfl
  | insert ls =>
    have hfn : fn = true := by
      cases fn with
      | true => rfl
      | false => exact absurd (hn rfl (.insert ls) (by simp)) (by simp [CBlock.adds])
    subst hfn
    have en : newPart true (.insert ls :: bs) = ls.map (markedLine '+') ++ newPart true bs := by simp [newPart, CBlock.newLines]
    have eo : oldPart fo (.insert ls :: bs) = oldPart fo bs := by cases fo <;> simp [oldPart, CBlock.oldLines]
    have ht : ∀ t ∈ ls, '\n' ∉ t := fun t ht => (hpb t (by simp [CBlock.new, ht])).1
    have hcap := captureRun_marked (fun x => decide (x = '+')) '+' (by rfl) ls ht (newPart true bs)
      (((hafter rfl).2 true).stops _ (by rfl))
    have hs : startsRe reContextAdded (ls.map (markedLine '+') ++ newPart true bs) = true := by
      cases ls with
      | nil => exact absurd rfl hnb
      | cons t ts =>
        simp only [List.map_cons, List.cons_append, startsRe, reContextAdded]
        rw [full_marked _ '+' t (by rfl) (ht t (by simp))]; rfl
    have hs0 : startsRe reContextRemoved (oldPart fo bs) = false := ((hafter rfl).1 fo).startsRe _ (by rfl)
    unfold contextStep
    rw [eo, en, if_neg (by rw [hs0]; simp), if_pos hs]
    simp only [reContextAdded]
    rw [hcap]
    simp only [foldl_addDest, Diff.new, List.nil_append]
    have e : cblockDiff p q (.insert ls) =
      ({ type := .Insert, sourceLineNo := p, destLineNo := q, tracking := p, dest := ls.map (fun l => DStr.ofStr l) } : Diff) := rfl
    rw [e] at hd
    rw [hd]; rfl
  | change r a =>
    have hfo : fo = true := by
      cases fo with
      | true => rfl
      | false => exact absurd (ho rfl (.change r a) (by simp)) (by simp [CBlock.removes])
    have hfn : fn = true := by
      cases fn with
      | true => rfl
      | false => exact absurd (hn rfl (.change r a) (by simp)) (by simp [CBlock.adds])
    subst hfo; subst hfn
    have eo : oldPart true (.change r a :: bs) = r.map (markedLine '!') ++ oldPart true bs := by simp [oldPart, CBlock.oldLines]
    have en : newPart true (.change r a :: bs) = a.map (markedLine '!') ++ newPart true bs := by simp [newPart, CBlock.newLines]
    have hr : ∀ t ∈ r, '\n' ∉ t := fun t ht => (hpb t (by simp [CBlock.old, ht])).1
    have ha : ∀ t ∈ a, '\n' ∉ t := fun t ht => (hpb t (by simp [CBlock.new, ht])).1
    have hcap1 := captureRun_marked (fun x => decide (x = '!')) '!' (by rfl) r hr (oldPart true bs)
      (((hafter rfl).1 true).stops _ (by rfl))
    have hcap2 := captureRun_marked (fun x => decide (x = '!')) '!' (by rfl) a ha (newPart true bs)
      (((hafter rfl).2 true).stops _ (by rfl))
    have hs : ∀ (p : Char → Bool) (l : List Str) (rest : List Str), l ≠ [] → p '!' = false → startsRe (reBody p) (l.map (markedLine '!') ++ rest) = false := by
      intro p l rest hl hp
      cases l with
      | nil => exact absurd rfl hl
      | cons t ts => simp [startsRe, full_marked_none p '!' t hp]
    have hs1 : startsRe reContextChanged (r.map (markedLine '!') ++ oldPart true bs) = true := by
      cases r with
      | nil => exact absurd rfl hnb.1
      | cons t ts =>
        simp only [List.map_cons, List.cons_append, startsRe, reContextChanged]
        rw [full_marked _ '!' t (by rfl) (hr t (by simp))]; rfl
    have hs2 : endOrContext (r.map (markedLine '!') ++ oldPart true bs) = false := by
      cases r with
      | nil => exact absurd rfl hnb.1
      | cons t ts => simp only [List.map_cons, List.cons_append, endOrContext, reContextContext]; rw [full_marked_none _ '!' t (by rfl)]; rfl
    have h1 : startsRe reContextRemoved (r.map (markedLine '!') ++ oldPart true bs) = false := hs _ r _ hnb.1 (by rfl)
    have h2 : startsRe reContextAdded (a.map (markedLine '!') ++ newPart true bs) = false := hs _ a _ hnb.2 (by rfl)
    unfold contextStep
    rw [eo, en, if_neg (by rw [h1]; simp), if_neg (by rw [h2]; simp), if_neg (by rw [hs2]; simp), if_pos (Or.inl hs1)]
    simp only [reContextChanged]
    rw [hcap1, hcap2]
    simp only [foldl_addSource, foldl_addDest, Diff.new, List.nil_append]
    have e : cblockDiff p q (.change r a) =
      ({ type := .Change, sourceLineNo := p, destLineNo := q, tracking := p, source := r.map (fun l => DStr.ofStr l)
         dest := a.map (fun l => DStr.ofStr l) } : Diff) := rfl
    rw [e] at hd
    rw [hd]; rfl
  | context ls =>
    have eo : oldPart fo (.context ls :: bs) = (if fo then ls.map (markedLine ' ') else []) ++ oldPart fo bs := by
      cases fo <;> simp [oldPart, CBlock.oldLines]
    have en : newPart fn (.context ls :: bs) = (if fn then ls.map (markedLine ' ') else []) ++ newPart fn bs := by
      cases fn <;> simp [newPart, CBlock.newLines]
    have ht : ∀ t ∈ ls, '\n' ∉ t := fun t ht => (hpb t (by simp [CBlock.old, ht])).1
    have hq := quiet_after (bs := .context ls :: bs) hne hp (by
      intro k ks e; simp only [List.cons.injEq] at e; rw [← e.1]; rfl)
    have hstop : ¬ (endOrContext (oldPart fo bs) = true ∧ endOrContext (newPart fn bs) = true ∧ (oldPart fo bs ≠ [] ∨ newPart fn bs ≠ [])) := by
      cases bs with
      | nil => cases fo <;> cases fn <;> simp [oldPart, newPart]
      | cons k ks =>
        have hk := halt.1
        have hkn := hne k (by simp)
        have hkp := hp k (by simp)
        have hmark : ∀ (c : Char) (l : List Str) (rest : List Str), l ≠ [] → c ≠ ' ' → endOrContext (l.map (markedLine c) ++ rest) = false := by
          intro c l rest hl hc
          cases l with
          | nil => exact absurd rfl hl
          | cons t ts =>
            simp only [List.map_cons, List.cons_append, endOrContext, reContextContext]
            rw [full_marked_none _ c t (by simpa using hc)]; rfl
        cases k with
        | context => simp [CBlock.isChange] at hk
        | delete l =>
          have hfo : fo = true := by
            cases fo with
            | true => rfl
            | false => exact absurd (ho rfl (.delete l) (by simp)) (by simp [CBlock.removes])
          subst hfo
          have : endOrContext (oldPart true (.delete l :: ks)) = false := by
            have := hmark '-' l (oldPart true ks) hkn (by decide)
            simpa [oldPart, CBlock.oldLines] using this
          rw [this]; simp
        | insert l =>
          have hfn : fn = true := by
            cases fn with
            | true => rfl
            | false => exact absurd (hn rfl (.insert l) (by simp)) (by simp [CBlock.adds])
          subst hfn
          have : endOrContext (newPart true (.insert l :: ks)) = false := by
            have := hmark '+' l (newPart true ks) hkn (by decide)
            simpa [newPart, CBlock.newLines] using this
          rw [this]; simp
        | change r a =>
          have hfo : fo = true := by
            cases fo with
            | true => rfl
            | false => exact absurd (ho rfl (.change r a) (by simp)) (by simp [CBlock.removes])
          subst hfo
          have : endOrContext (oldPart true (.change r a :: ks)) = false := by
            have := hmark '!' r (oldPart true ks) hkn.1 (by decide)
            simpa [oldPart, CBlock.oldLines] using this
          rw [this]; simp
    have hlen : ls.length ≤ ((if fo then ls.map (markedLine ' ') else []) ++ oldPart fo bs).length +
        ((if fn then ls.map (markedLine ' ') else []) ++ newPart fn bs).length := by
      rcases hf with rfl | rfl <;> simp <;> omega
    have hun := contextUnchanged_block ls ht fo fn hf (oldPart fo bs) (newPart fn bs) (by rintro rfl; rfl) (by rintro rfl; rfl) hstop _ hlen
    have q1 := (hq fo).1
    have q2 := (hq fn).2
    rw [eo] at q1 ⊢
    rw [en] at q2 ⊢
    unfold contextStep
    have h1 : startsRe reContextRemoved ((if fo = true then ls.map (markedLine ' ') else []) ++ oldPart fo bs) = false := q1.startsRe _ (by rfl)
    have h2 : startsRe reContextAdded ((if fn = true then ls.map (markedLine ' ') else []) ++ newPart fn bs) = false := q2.startsRe _ (by rfl)
    rw [if_neg (by rw [h1]; simp), if_neg (by rw [h2]; simp), if_pos ⟨q1.endOrContext, q2.endOrContext⟩, hun]
    simp only [foldl_addBoth, Diff.new, List.nil_append]
    have e : cblockDiff p q (.context ls) =
      ({ type := .Unchanged, sourceLineNo := p, destLineNo := q, tracking := p, source := ls.map (fun l => DStr.ofStr l)
         dest := ls.map (fun l => DStr.ofStr l) } : Diff) := rfl
    rw [e] at hd
    rw [hd]; rfl

theorem Spec.Alternating.tail {b : CBlock} {bs : List CBlock} (h : Alternating (b :: bs)) : Alternating bs := by
  cases bs with
  | nil => trivial
  | cons => exact h.2

theorem CBlock.lines_pos {b : CBlock} (h : b.NonEmpty) (fo fn : Bool) (hf : fo = true ∨ fn = true) (ho : fo = false → b.removes = false)
    (hn : fn = false → b.adds = false) (bs : List CBlock) :
    (oldPart fo bs).length + (newPart fn bs).length < (oldPart fo (b :: bs)).length + (newPart fn (b :: bs)).length := by
  have key : (oldPart fo (b :: bs)).length = (if fo then b.oldLines.length else 0) + (oldPart fo bs).length ∧
      (newPart fn (b :: bs)).length = (if fn then b.newLines.length else 0) + (newPart fn bs).length := by
    cases fo <;> cases fn <;> simp [oldPart, newPart]
  have : 0 < (if fo then b.oldLines.length else 0) + (if fn then b.newLines.length else 0) := by
    cases b with
    | context ls =>
      have := List.length_pos_iff.2 h
      rcases hf with rfl | rfl <;> simp [CBlock.oldLines, CBlock.newLines] <;> omega
    | delete ls =>
      have := List.length_pos_iff.2 h
      cases fo with
      | false => exact absurd (ho rfl) (by simp [CBlock.removes])
      | true => simp [CBlock.oldLines]; omega
    | insert ls =>
      have := List.length_pos_iff.2 h
      cases fn with
      | false => exact absurd (hn rfl) (by simp [CBlock.adds])
      | true => simp [CBlock.newLines]; omega
    | change r a =>
      have := List.length_pos_iff.2 h.1
      cases fo with
      | false => exact absurd (ho rfl) (by simp [CBlock.removes])
      | true => simp [CBlock.oldLines]; omega
  omega

theorem contextBody_blocks (bs : List CBlock) (hne : ∀ k ∈ bs, k.NonEmpty) (hp : ∀ k ∈ bs, k.Plain) (halt : Alternating bs)
    (fo fn : Bool) (hf : fo = true ∨ fn = true) (ho : fo = false → ∀ k ∈ bs, k.removes = false)
    (hn : fn = false → ∀ k ∈ bs, k.adds = false) (p q fuel : Nat) (hfuel : (oldPart fo bs).length + (newPart fn bs).length < fuel) :
    ∃ es, contextBodyLoop fuel (oldPart fo bs) (newPart fn bs) p q = Res.ok (es, true) ∧
      es.map (fun e => e.1.view) = cblockViews p q bs ∧ es.map Prod.snd = bs.map CBlock.isChange := by
  induction bs generalizing p q fuel with
  | nil =>
    cases fuel with
    | zero => omega
    | succ fuel =>
      refine ⟨[], ?_, rfl, rfl⟩
      have : oldPart fo [] = [] ∧ newPart fn [] = [] := by cases fo <;> cases fn <;> exact ⟨rfl, rfl⟩
      rw [this.1, this.2]
      rfl
  | cons b bs ih =>
    cases fuel with
    | zero => omega
    | succ fuel =>
      have hlt := CBlock.lines_pos (hne b (by simp)) fo fn hf (fun h => ho h b (by simp)) (fun h => hn h b (by simp)) bs
      obtain ⟨d, hd, hv⟩ := contextStep_block b bs hne hp halt fo fn hf ho hn p q
      obtain ⟨es, h1, h2, h3⟩ := ih (fun k hk => hne k (by simp [hk])) (fun k hk => hp k (by simp [hk])) halt.tail
        (fun h k hk => ho h k (by simp [hk])) (fun h k hk => hn h k (by simp [hk])) (p + b.old.length) (q + b.new.length) fuel (by omega)
      refine ⟨(d, b.isChange) :: es, ?_, by simp [cblockViews, hv, h2], by simp [h3]⟩
      unfold contextBodyLoop
      rw [if_neg, hd]
      · have e1 : (d.slc : Int) = b.old.length := by rw [← view_slc, hv]; rfl
        have e2 : (d.dlc : Int) = b.new.length := by rw [← view_dlc, hv]; rfl
        simp only [Res.bind_ok, e1, e2]
        have e3 : (p : Int) + (b.old.length : Int) = ((p + b.old.length : Nat) : Int) := by omega
        have e4 : (q : Int) + (b.new.length : Int) = ((q + b.new.length : Nat) : Int) := by omega
        rw [e3, e4, h1]
        rfl
      · rintro ⟨e1, e2⟩
        rw [e1, e2] at hlt
        simp at hlt

/-! ### Headers of hunks -/

theorem stars_match (h : CHunk) (hf : ∀ f, h.function = some f → '\n' ∉ f) :
    ∃ c, reContextHunkHeader1.full h.stars = some c ∧ c.get 1 = h.function.getD [] := by
  unfold CHunk.stars reContextHunkHeader1 Re.full
  rw [List.append_assoc, m_cat_cons, m_text_append, m_cat_cons, m_opt]
  cases hfn : h.function with
  | none =>
    have hd := dotLit_newline 1 [] [] (by simp)
    simp only [List.nil_append] at hd
    refine ⟨[(1, [])], ?_, rfl⟩
    simp only [List.nil_append, m_lit_cons, m_cat_cons, m_cat_one, hd]
    simp
  | some f =>
    have hd := dotLit_newline 1 f [] (hf f hfn)
    refine ⟨[(1, f)], ?_, rfl⟩
    simp only [List.cons_append, m_lit_cons, if_true, m_cat_cons, m_cat_one, hd]
    simp

theorem oldRange_match (a b : Str) (ha : a ≠ [] ∧ ∀ x ∈ a, IsDigit x) (hb : b ≠ [] ∧ ∀ x ∈ b, IsDigit x) :
    ∃ c, reContextHunkHeader2.full (str "*** " ++ (a ++ ',' :: b) ++ str " ****\n") = some c ∧ c.get 1 = a := by
  have e : str "*** " ++ (a ++ ',' :: b) ++ str " ****\n" = str "*** " ++ (a ++ (',' :: (b ++ (str " ****" ++ ['\n'])))) := by simp [str]
  rw [e]
  refine ⟨[(2, b), (1, a)], ?_, rfl⟩
  unfold reContextHunkHeader2 Re.full
  rw [m_cat_cons, m_text_append, m_cat_cons, m_grp]
  refine m_digits a _ _ _ _ ha.2 ha.1 ?_ ?_
  · intro x hx; simp only [List.head?_cons, Option.some.injEq] at hx; subst hx; decide
  rw [take_len, m_cat_cons, m_lit_cons, if_pos rfl, m_cat_cons, m_grp]
  refine m_digits b _ _ _ _ hb.2 hb.1 ?_ ?_
  · intro x hx; simp [str] at hx; subst hx; decide
  rw [take_len, m_cat_cons, m_text_append]
  simp [dot, m_many_chr, greedy]

theorem newRange_match (a b : Str) (ha : a ≠ [] ∧ ∀ x ∈ a, IsDigit x) (hb : b ≠ [] ∧ ∀ x ∈ b, IsDigit x) :
    ∃ c, reContextHunkHeader3.full (str "--- " ++ (a ++ ',' :: b) ++ str " ----\n") = some c ∧ c.get 1 = a := by
  have e : str "--- " ++ (a ++ ',' :: b) ++ str " ----\n" = str "--- " ++ (a ++ (',' :: (b ++ str " ----\n"))) := by simp [str]
  rw [e]
  refine ⟨[(2, b), (1, a)], ?_, rfl⟩
  unfold reContextHunkHeader3 Re.full
  rw [m_cat_cons, m_text_append, m_cat_cons, m_grp]
  refine m_digits a _ _ _ _ ha.2 ha.1 ?_ ?_
  · intro x hx; simp only [List.head?_cons, Option.some.injEq] at hx; subst hx; decide
  rw [take_len, m_cat_cons, m_lit_cons, if_pos rfl, m_cat_cons, m_grp]
  refine m_digits b _ _ _ _ hb.2 hb.1 ?_ ?_
  · intro x hx; simp [str] at hx; subst hx; decide
  rw [take_len, m_cat_one]
  have := m_text_append (str " ----\n") ([] : Str) [(2, b), (1, a)] endK
  rw [List.append_nil] at this
  rw [this]; rfl

/-- One well-formed hunk. -/
theorem parseContextHunk_ok (h : CHunk) (ok : h.Ok) (st : PState) (rest : List Str)
    (hr : ∀ l, rest.head? = some l → (reContextLine.full l).isSome = false) (e : st.rest = h.render ++ rest) :
    ∃ es : Entries, parseContextHunk st =
        Res.ok (some { (st.addHunk h.srcLine h.dstLine (h.function.getD []) es) with rest := rest }, st) ∧
      es.map (fun e => e.1.view) = cblockViews h.srcLine h.dstLine h.blocks ∧ es.map Prod.snd = h.blocks.map CBlock.isChange := by
  have dig : ∀ n, decNat n ≠ [] ∧ ∀ x ∈ decNat n, IsDigit x := fun n => ⟨decNat_ne_nil n, decNat_isDigit n⟩
  obtain ⟨c1, m1, v1⟩ := stars_match h ok.function
  obtain ⟨c2, m2, v2⟩ := oldRange_match (decNat h.srcLine) (decNat (h.srcLine + h.srcCount - 1)) (dig _) (dig _)
  obtain ⟨c3, m3, v3⟩ := newRange_match (decNat h.dstLine) (decNat (h.dstLine + h.dstCount - 1)) (dig _) (dig _)
  have m2' : reContextHunkHeader2.full h.oldRange = some c2 := m2
  have m3' : reContextHunkHeader3.full h.newRange = some c3 := m3
  have plain : ∀ b ∈ h.blocks, b.Plain := fun b hb t ht => ok.lines b hb t ht
  have eo : h.oldSection = oldPart (h.blocks.any CBlock.removes) h.blocks := rfl
  have en : h.newSection = newPart (h.blocks.any CBlock.adds) h.blocks := rfl
  have ho : ∀ l ∈ h.oldSection, (reContextLine.full l).isSome = true := by
    intro l hl
    unfold CHunk.oldSection at hl
    split at hl
    · obtain ⟨b, hb, hl⟩ := List.mem_flatMap.1 hl
      exact CBlock.oldLines_section (plain b hb) l hl
    · simp at hl
  have hn : ∀ l ∈ h.newSection, (reContextLine.full l).isSome = true := by
    intro l hl
    unfold CHunk.newSection at hl
    split at hl
    · obtain ⟨b, hb, hl⟩ := List.mem_flatMap.1 hl
      exact CBlock.newLines_section (plain b hb) l hl
    · simp at hl
  have hrange : (reContextLine.full h.newRange).isSome = false := by
    cases hx : reContextLine.full h.newRange with
    | none => rfl
    | some c =>
      obtain ⟨x, t, _, _, e, _⟩ := reBody_full.1 hx
      simp [CHunk.newRange, str] at e
  have hlo := contextLines_all h.oldSection (h.newRange :: (h.newSection ++ rest)) ho (by
    intro l hl; simp only [List.head?_cons, Option.some.injEq] at hl; subst hl; exact hrange)
  have hln := contextLines_all h.newSection rest hn hr
  obtain ⟨es, b1, b2, b3⟩ := contextBody_blocks h.blocks ok.nonEmpty plain ok.alternating (h.blocks.any CBlock.removes) (h.blocks.any CBlock.adds)
    (by
      obtain ⟨b, hb, hc⟩ := ok.changes
      cases b with
      | context => cases hc
      | delete l => left; exact List.any_eq_true.2 ⟨_, hb, rfl⟩
      | insert l => right; exact List.any_eq_true.2 ⟨_, hb, rfl⟩
      | change r a => left; exact List.any_eq_true.2 ⟨_, hb, rfl⟩)
    (by intro hf b hb; simpa using List.any_eq_false.1 hf b hb)
    (by intro hf b hb; simpa using List.any_eq_false.1 hf b hb) h.srcLine h.dstLine (h.oldSection.length + h.newSection.length + 1)
    (by rw [← eo, ← en]; omega)
  rw [← eo, ← en] at b1
  refine ⟨es, ?_, b2, b3⟩
  unfold parseContextHunk
  rw [e]
  have hh : contextHunkHeader (h.render ++ rest) = (some (c1, c2), h.oldSection ++ (h.newRange :: (h.newSection ++ rest))) := by
    simp only [CHunk.render, List.cons_append, contextHunkHeader, m1, m2', List.append_assoc]
  rw [hh]
  dsimp only
  rw [hlo]
  dsimp only
  rw [m3']
  dsimp only
  rw [hln]
  have t1 : toInt (c2.get 1) = (h.srcLine : Int) := by rw [v2]; exact toInt_decNat _ ok.src.2
  have t2 : toInt (c3.get 1) = (h.dstLine : Int) := by rw [v3]; exact toInt_decNat _ ok.dst.2
  rw [t1, t2, v1]
  dsimp only
  rw [b1]
  rfl

end KompareDiff2
