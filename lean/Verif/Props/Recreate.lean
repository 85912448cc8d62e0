import Verif.Proofs.Recreate
import Verif.Props.Parser
import Verif.Props.Context
import Verif.Model.ModelList
/-
Property theorems about writing a model as a diff and reading it again: C20.
-/
namespace KompareDiff2
open Spec Re

/-- **C20.** Writing models as a diff and reading it again: for all models that can be written, the text is read without error, and the
models that come back are those that contain a change, each with the names, time stamps, hunks, functions, line numbers and lines it had
(see `MView.reread`: revisions are gone, and on an empty side of a hunk the line number is one too large). -/
theorem C20_reread (win : Bool) (cmp : Str → Str → Int) (h heap : Heap) (ms : List DModel) (w : ∀ m ∈ ms, (m.view h).Writable)
    (hc : ∃ m ∈ ms, (m.view h).hasChange = true) :
    ∃ ms' h', parse win cmp heap (split (ms.flatMap (fun m => m.recreateDiff win h))) = Res.ok { models := some ms', malformed := false, heap := h' } ∧
      (ms'.map (DModel.view h')).Perm ((ms.filter (fun m => (m.view h).hasChange)).map (fun m => (m.view h).reread)) := by
  obtain ⟨m0, hm0, hc0⟩ := hc
  obtain ⟨r, h1, h2, h3⟩ := C26_unified (diffOf win h ms) (diffOf_ok win h ms w) (by
    intro e
    have : ms = [] := by simpa [diffOf] using e
    rw [this] at hm0; simp at hm0) win cmp heap
  rw [diffOf_render win h ms w] at h1
  obtain ⟨models, malformed, h'⟩ := r
  simp only at h2
  subst h2
  cases models with
  | none =>
    simp only at h3
    have := h3 (UFile.ofView win (m0.view h)) (List.mem_map_of_mem hm0)
    rw [fileOf_changes, hc0] at this
    exact absurd this (by simp)
  | some ms' =>
    refine ⟨ms', h', h1, ?_⟩
    simp only at h3
    have e : ((diffOf win h ms).files.filter UFile.changes).map (UFile.view (unescapePath win)) =
        (ms.filter (fun m => (m.view h).hasChange)).map (fun m => (m.view h).reread) := by
      simp only [diffOf, List.filter_map, List.map_map]
      have ef : (UFile.changes ∘ fun m : DModel => UFile.ofView win (m.view h)) = fun m => (m.view h).hasChange := by
        funext m; exact fileOf_changes win
      rw [ef]
      exact List.map_congr_left (fun m hm => fileOf_view win (w m (List.mem_filter.1 hm).1))
    rw [← e]
    exact h3.2

/-- What comes back is the same, when nothing is applied, no revision is known and no hunk has an empty side. -/
theorem reread_fresh (v : MView) (fr : v.Fresh) (hr : v.sourceRevision = [] ∧ v.destinationRevision = [])
    (hs : ∀ k ∈ v.hunks, k.srcCount ≠ 0 ∧ k.dstCount ≠ 0) : v.reread = v := by
  have own : v.ownHunks = v.hunks := by
    unfold MView.ownHunks
    rw [List.filter_eq_self]
    intro k hk
    simp [(fr.hunks k hk).1]
  have hk : ∀ k ∈ v.hunks, k.reread = k := by
    intro k hk
    obtain ⟨ht, hd⟩ := fr.hunks k hk
    obtain ⟨h1, h2⟩ := hs k hk
    have hdiffs : k.diffs.map (DView.reread 0 0) = k.diffs := by
      conv => rhs; rw [← List.map_id k.diffs]
      refine List.map_congr_left (fun d hd' => ?_)
      obtain ⟨f1, f2, f3, f4⟩ := hd d hd'
      unfold DView.reread
      cases d
      simp only at f1 f2 f3 f4
      simp [f1, f2, f3, f4]
    unfold HView.reread
    simp only [drift, h1, h2, if_false, hdiffs, Int.add_zero]
    cases k
    simp only at ht
    simp [ht]
  have h1 : v.hunks.map HView.reread = v.hunks := by
    conv => rhs; rw [← List.map_id v.hunks]
    exact List.map_congr_left hk
  have h2 : v.hunks.flatMap (fun k => k.reread.diffs) = v.hunks.flatMap (fun k => k.diffs) := by
    rw [List.flatMap_def, List.flatMap_def]
    exact congrArg List.flatten (List.map_congr_left (fun k hk' => by rw [hk k hk']))
  unfold MView.reread
  rw [own, h1, h2, ← fr.differences]
  have ha := fr.appliedCount
  obtain ⟨h3, h4⟩ := hr
  cases v
  simp only at ha h3 h4
  simp [ha, h3, h4]

/-- **C20.** For a model as a parser delivers it – names and time stamps without tab or newline and not empty, no revision, complete
lines, no hunk with an empty side, at least one change – parsing the text of `recreateDiff` reports no error and yields exactly one
model, which is equal to it: names, time stamps, hunks, functions, differences. -/
theorem C20_round_trip (win : Bool) (cmp : Str → Str → Int) (h heap : Heap) (m : DModel) (w : (m.view h).Writable) (fr : (m.view h).Fresh)
    (hc : (m.view h).differences ≠ []) (hr : m.sourceRevision = [] ∧ m.destinationRevision = [])
    (hs : ∀ k ∈ (m.view h).hunks, k.srcCount ≠ 0 ∧ k.dstCount ≠ 0) :
    ∃ m' h', parse win cmp heap (split (m.recreateDiff win h)) = Res.ok { models := some [m'], malformed := false, heap := h' } ∧
      m'.view h' = m.view h := by
  have hch : (m.view h).hasChange = true := by
    rw [fr.differences] at hc
    cases e : (m.view h).hasChange with
    | true => rfl
    | false =>
      exfalso
      apply hc
      rw [List.filter_eq_nil_iff]
      intro d hd
      obtain ⟨k, hk, hd⟩ := List.mem_flatMap.1 hd
      have hk' : k ∈ (m.view h).ownHunks := List.mem_filter.2 ⟨hk, by simp [(fr.hunks k hk).1]⟩
      unfold MView.hasChange at e
      rw [List.any_eq_false] at e
      have := e k hk'
      rw [Bool.not_eq_true, List.any_eq_false] at this
      exact this d hd
  obtain ⟨ms', h', h1, h2⟩ := C20_reread win cmp h heap [m] (by simpa using w) ⟨m, by simp, hch⟩
  simp only [hch, List.filter_cons_of_pos, List.filter_nil, List.map_cons, List.map_nil, reread_fresh _ fr hr hs] at h2
  have hs' := List.perm_singleton.1 h2
  cases ms' with
  | nil => simp at hs'
  | cons m' ms =>
    cases ms with
    | cons m'' ms => simp at hs'
    | nil =>
      simp only [List.map_cons, List.map_nil, List.cons.injEq, and_true] at hs'
      exact ⟨m', h', by simpa using h1, hs'⟩

/-- **C20.** The same for `ModelList::recreateDiff`: the texts of all models in the list, in order. -/
theorem C20_list (e : Env) (s : MLState) (l : List Nat) (hl : s.list = Res.ok l) (cmp : Str → Str → Int) (heap : Heap)
    (w : ∀ i ∈ l, ((s.store i).view s.heap).Writable) (hc : ∃ i ∈ l, ((s.store i).view s.heap).hasChange = true) :
    ∃ t ms' h', s.recreateDiff e = Res.ok t ∧ parse e.win cmp heap (split t) = Res.ok { models := some ms', malformed := false, heap := h' } ∧
      (ms'.map (DModel.view h')).Perm ((l.filter (fun i => ((s.store i).view s.heap).hasChange)).map (fun i => ((s.store i).view s.heap).reread)) := by
  obtain ⟨i0, hi0, hc0⟩ := hc
  obtain ⟨ms', h', h1, h2⟩ := C20_reread e.win cmp s.heap heap (l.map s.store) (by
    intro m hm; obtain ⟨i, hi, rfl⟩ := List.mem_map.1 hm; exact w i hi) ⟨_, List.mem_map_of_mem hi0, hc0⟩
  refine ⟨_, ms', h', by unfold MLState.recreateDiff; rw [hl]; rfl, ?_, ?_⟩
  · rw [← h1, List.flatMap_map]
  · rw [List.filter_map, List.map_map] at h2
    exact h2

/-! ### From text to text -/

theorem value_ofStr {l : Line} (h : l.eol = true) : Line.ofStr l.value = l := by
  cases l
  simp only at h
  simp [Line.ofStr, Line.value, h]

theorem values_ofStr {ls : List Line} (h : ∀ l ∈ ls, l.eol = true) : (ls.map Line.value).map Line.ofStr = ls := by
  rw [List.map_map]
  conv => rhs; rw [← List.map_id ls]
  exact List.map_congr_left (fun l hl => value_ofStr (h l hl))

theorem value_textLine {l : Line} (h : l.eol = true) (ht : '\n' ∉ l.text ∧ l.text.length < 65534) : TextLine l.value :=
  ⟨l.text, by simp [Line.value, h], ht⟩

theorem block_type (b : Block) (x y : Nat) : ((b.view x y).type = .Unchanged ↔ b.isChange = false) := by
  cases b with
  | context ls => simp [Block.view, Block.isChange]
  | change r a =>
    simp only [Block.view, Block.isChange]
    by_cases h1 : r = []
    · simp [h1]
    · by_cases h2 : a = []
      · simp [h1, h2]
      · simp [h1, h2]

theorem block_lengths (b : Block) (x y : Nat) : (b.view x y).src.length = b.old.length ∧ (b.view x y).dst.length = b.new.length := by
  cases b <;> simp [Block.view, Block.old, Block.new]

theorem block_writable (b : Block) (x y : Nat) (hn : b.NonEmpty) (he : ∀ l ∈ b.old ++ b.new, l.eol = true)
    (hl : ∀ l ∈ b.old ++ b.new, '\n' ∉ l.text ∧ l.text.length < 65534) : (b.view x y).Writable := by
  cases b with
  | context ls =>
    refine ⟨⟨by simpa [Block.view, Block.NonEmpty] using hn, rfl⟩, ?_⟩
    intro l h
    simp only [Block.view, List.mem_append, or_self, List.mem_map] at h
    obtain ⟨k, hk, rfl⟩ := h
    exact value_textLine (he k (by simp [Block.old, hk])) (hl k (by simp [Block.old, hk]))
  | change r a =>
    refine ⟨?_, ?_⟩
    · simp only [Block.view, Block.NonEmpty] at hn ⊢
      by_cases h1 : r = []
      · have h2 : a ≠ [] := by rcases hn with h | h
                               · exact absurd h1 h
                               · exact h
        simp [h1, h2]
      · by_cases h2 : a = []
        · simp [h1, h2]
        · simp [h1, h2]
    · intro l h
      simp only [Block.view, List.mem_append, List.mem_map] at h
      rcases h with ⟨k, hk, rfl⟩ | ⟨k, hk, rfl⟩
      · exact value_textLine (he k (by simp [Block.old, hk])) (hl k (by simp [Block.old, hk]))
      · exact value_textLine (he k (by simp [Block.new, hk])) (hl k (by simp [Block.new, hk]))

theorem blockViews_contiguous (bs : List Block) (x y : Nat) : Contiguous x y (blockViews x y bs) := by
  induction bs generalizing x y with
  | nil => exact trivial
  | cons b bs ih =>
    obtain ⟨l1, l2⟩ := block_lengths b x y
    refine ⟨by cases b <;> rfl, by cases b <;> rfl, ?_⟩
    rw [l1, l2]
    have := ih (x + b.old.length) (y + b.new.length)
    simpa using this

theorem blockViews_apart (bs : List Block) (x y : Nat) (h : SeparatedBlocks bs) : AllApart (blockViews x y bs) := by
  induction bs generalizing x y with
  | nil => exact trivial
  | cons b bs ih =>
    cases bs with
    | nil => exact trivial
    | cons b' bs =>
      refine ⟨?_, ih _ _ h.2⟩
      have hsep := h.1
      constructor
      · intro h1 h2
        rw [block_type] at h1 h2
        cases b <;> cases b' <;> simp_all [Block.isChange, Block.Separated]
      · intro h1 h2
        rw [ne_eq, block_type] at h1 h2
        cases b <;> cases b' <;> simp_all [Block.isChange, Block.Separated, Block.view]

theorem viewCounts (bs : List Block) (x y : Nat) : ((blockViews x y bs).map (fun d => d.src.length)).sum = (bs.map (fun b => b.old.length)).sum ∧
    ((blockViews x y bs).map (fun d => d.dst.length)).sum = (bs.map (fun b => b.new.length)).sum := by
  induction bs generalizing x y with
  | nil => exact ⟨rfl, rfl⟩
  | cons b bs ih =>
    obtain ⟨l1, l2⟩ := block_lengths b x y
    obtain ⟨i1, i2⟩ := ih (x + b.old.length) (y + b.new.length)
    simp only [blockViews, List.map_cons, List.sum_cons, l1, l2, i1, i2, and_self]

theorem UHunk.view_counts (h : UHunk) : h.view.srcCount = h.srcCount ∧ h.view.dstCount = h.dstCount := viewCounts h.blocks h.srcLine h.dstLine

theorem mem_blockViews {bs : List Block} {x y : Nat} {d : DView} (h : d ∈ blockViews x y bs) : ∃ b ∈ bs, ∃ p q, d = b.view p q := by
  induction bs generalizing x y with
  | nil => simp [blockViews] at h
  | cons b bs ih =>
    rcases List.mem_cons.1 h with rfl | h
    · exact ⟨b, by simp, x, y, rfl⟩
    · obtain ⟨b', hb', r⟩ := ih h
      exact ⟨b', by simp [hb'], r⟩

theorem UHunk.writable (h : UHunk) (ok : h.Ok) (full : h.Full) : h.view.Writable := by
  obtain ⟨c1, c2⟩ := UHunk.view_counts h
  refine ⟨?_, blockViews_contiguous _ _ _, blockViews_apart _ _ _ ok.separated, ?_, ?_, ?_⟩
  · intro d hd
    obtain ⟨b, hb, p, q, rfl⟩ := mem_blockViews hd
    exact block_writable b p q (ok.nonEmpty b hb) (full.2.2 b hb) (ok.lines b hb)
  · cases hf : h.function with
    | none => simp [UHunk.view, hf]
    | some f => simpa [UHunk.view, hf] using (ok.function f hf).1
  · rw [c1]
    have := ok.src.2.2
    simp only [UHunk.view, drift, full.1, if_false]
    exact ⟨by omega, by omega, this.2⟩
  · rw [c2]
    have := ok.dst.2.2
    simp only [UHunk.view, drift, full.2.1, if_false]
    exact ⟨by omega, by omega, this.2⟩

theorem unescape_mem {win : Bool} {p : Str} {x : Char} (h : x ∈ unescapePath win p) : x ∈ p ∨ x = '\\' ∨ x = '"' := by
  unfold unescapePath at h
  dsimp only at h
  have key : x ∈ replaceAll (str "\\\"") (str "\"") (if p.head? = some '"' ∧ p.getLast? = some '"' then (p.drop 1).take (p.length - 2) else p) →
      x ∈ p ∨ x = '\\' ∨ x = '"' := by
    intro h
    rcases mem_replaceFuel _ h with h | h
    · split at h
      · exact .inl (List.mem_of_mem_drop (List.mem_of_mem_take h))
      · exact .inl h
    · have : str "\"" = ['"'] := rfl
      rw [this] at h; simp at h; exact .inr (.inr h)
  cases win with
  | true => exact key h
  | false =>
    rcases mem_replaceFuel _ h with h | h
    · exact key h
    · have : str "\\" = ['\\'] := rfl
      rw [this] at h; simp at h; exact .inr (.inl h)

theorem UFile.writable (win : Bool) (f : UFile) (ok : f.Ok) (full : f.Full (unescapePath win)) : (f.view (unescapePath win)).Writable := by
  have hname : ∀ n : Str, '\t' ∉ n ∧ '\n' ∉ n → unescapePath win n ≠ [] → HeaderField (unescapePath win n) := by
    intro n hn hne
    refine ⟨hne, ?_, ?_⟩
    · intro h
      rcases unescape_mem h with h | h | h
      · exact hn.1 h
      · cases h
      · cases h
    · intro h
      rcases unescape_mem h with h | h | h
      · exact hn.2 h
      · cases h
      · cases h
  refine ⟨hname _ ok.src.name.2 full.names.1, hname _ ok.dst.name.2 full.names.2, ?_, ?_, by simp [UFile.view], by simp [UFile.view], ?_⟩
  · cases e : f.src.stamp with
    | none => exact absurd e full.stamps.1
    | some ts =>
      have := ok.src.stamp ts e
      simp [UFile.view, e]
      exact this
  · cases e : f.dst.stamp with
    | none => exact absurd e full.stamps.2
    | some ts =>
      have := ok.dst.stamp ts e
      simp [UFile.view, e]
      exact this
  · intro k hk
    have hk' := (List.mem_filter.1 hk).1
    obtain ⟨u, hu, rfl⟩ := List.mem_map.1 hk'
    exact UHunk.writable u (ok.hunks u hu) (full.hunks u hu)

theorem UFile.fresh (unesc : Str → Str) (f : UFile) : (f.view unesc).Fresh := by
  refine ⟨?_, ?_, rfl⟩
  · intro k hk
    obtain ⟨u, hu, rfl⟩ := List.mem_map.1 hk
    refine ⟨rfl, ?_⟩
    intro d hd
    obtain ⟨b, hb, p, q, rfl⟩ := mem_blockViews hd
    cases b <;> exact ⟨rfl, rfl, rfl, rfl⟩
  · simp only [UFile.view, List.flatMap_map]

theorem UFile.own (unesc : Str → Str) (f : UFile) : (f.view unesc).ownHunks = f.hunks.map UHunk.view := by
  unfold MView.ownHunks
  rw [List.filter_eq_self.2]
  · rfl
  · intro k hk
    simp [((UFile.fresh unesc f).hunks k hk).1]

theorem UFile.hasChange (win : Bool) (f : UFile) : (f.view (unescapePath win)).hasChange = f.changes := by
  unfold MView.hasChange UFile.changes
  rw [UFile.own, List.any_map]
  congr 1
  funext h
  simp only [Function.comp_apply, UHunk.view]
  generalize h.srcLine = x
  generalize h.dstLine = y
  induction h.blocks generalizing x y with
  | nil => rfl
  | cons b bs ih =>
    simp only [blockViews, List.any_cons, ih]
    congr 1
    have := block_type b x y
    cases hb : b.isChange <;> simp_all

/-- **C20.** From diff to diff: for every well-formed unified diff whose files have time stamps, whose lines all end with a newline and
whose hunks have no empty side: reading it, writing the models again and reading that text gives the same models. -/
theorem C20_parse_recreate_parse (d : UDiff) (ok : d.Ok) (win : Bool) (full : ∀ f ∈ d.files, f.Full (unescapePath win))
    (hc : ∃ f ∈ d.files, f.changes = true) (cmp cmp2 : Str → Str → Int) (heap heap2 : Heap) :
    ∃ ms h ms' h', parse win cmp heap (split d.render.flatten) = Res.ok { models := some ms, malformed := false, heap := h } ∧
      parse win cmp2 heap2 (split (ms.flatMap (fun m => m.recreateDiff win h))) = Res.ok { models := some ms', malformed := false, heap := h' } ∧
      (ms'.map (DModel.view h')).Perm (ms.map (DModel.view h)) := by
  obtain ⟨f0, hf0, hc0⟩ := hc
  obtain ⟨r, h1, h2, h3⟩ := C26_unified d ok (List.ne_nil_of_mem hf0) win cmp heap
  obtain ⟨models, malformed, h⟩ := r
  simp only at h2
  subst h2
  cases models with
  | none =>
    simp only at h3
    rw [h3 f0 hf0] at hc0
    exact absurd hc0 (by simp)
  | some ms =>
    simp only at h3
    obtain ⟨hne, hp⟩ := h3
    have from_file : ∀ m ∈ ms, ∃ f ∈ d.files, f.changes = true ∧ m.view h = f.view (unescapePath win) := by
      intro m hm
      have := hp.subset (List.mem_map_of_mem hm)
      obtain ⟨f, hf, e⟩ := List.mem_map.1 this
      obtain ⟨hf, hfc⟩ := List.mem_filter.1 hf
      exact ⟨f, hf, hfc, e.symm⟩
    have hchange : ∀ m ∈ ms, (m.view h).hasChange = true := by
      intro m hm
      obtain ⟨f, _, hfc, e⟩ := from_file m hm
      rw [e, UFile.hasChange, hfc]
    obtain ⟨m0, hm0⟩ := List.exists_mem_of_ne_nil ms hne
    obtain ⟨ms', h', k1, k2⟩ := C20_reread win cmp2 h heap2 ms (by
      intro m hm
      obtain ⟨f, hf, _, e⟩ := from_file m hm
      rw [e]
      exact UFile.writable win f (ok.files f hf) (full f hf)) ⟨m0, hm0, hchange m0 hm0⟩
    refine ⟨ms, h, ms', h', h1, k1, ?_⟩
    have e : (ms.filter (fun m => (m.view h).hasChange)).map (fun m => (m.view h).reread) = ms.map (DModel.view h) := by
      rw [List.filter_eq_self.2 hchange]
      refine List.map_congr_left (fun m hm => ?_)
      obtain ⟨f, hf, _, e⟩ := from_file m hm
      rw [e]
      refine reread_fresh _ (UFile.fresh _ f) ⟨rfl, rfl⟩ ?_
      intro k hk
      obtain ⟨u, hu, rfl⟩ := List.mem_map.1 hk
      obtain ⟨c1, c2⟩ := UHunk.view_counts u
      rw [c1, c2]
      exact ⟨((full f hf).hunks u hu).1, ((full f hf).hunks u hu).2.1⟩
    rw [e] at k2
    exact k2

theorem ofView_view_block (b : Block) (x y : Nat) (he : ∀ l ∈ b.old ++ b.new, l.eol = true) : Block.ofView (b.view x y) = b := by
  have ht := block_type b x y
  unfold Block.ofView
  cases b with
  | context ls =>
    rw [if_pos (ht.2 rfl)]
    simp only [Block.view]
    rw [values_ofStr (fun l hl => he l (by simp [Block.old, hl]))]
  | change r a =>
    rw [if_neg (fun h => by have := ht.1 h; simp [Block.isChange] at this)]
    simp only [Block.view]
    rw [values_ofStr (fun l hl => he l (by simp [Block.old, hl])), values_ofStr (fun l hl => he l (by simp [Block.new, hl]))]

theorem ofView_view_blocks (bs : List Block) (x y : Nat) (he : ∀ b ∈ bs, ∀ l ∈ b.old ++ b.new, l.eol = true) :
    (blockViews x y bs).map Block.ofView = bs := by
  induction bs generalizing x y with
  | nil => rfl
  | cons b bs ih =>
    simp only [blockViews, List.map_cons, ofView_view_block b x y (he b (by simp)), ih _ _ (fun b hb => he b (by simp [hb]))]

theorem ofView_view (win : Bool) (f : UFile) (full : f.Full (unescapePath win)) (can : f.Canonical win) :
    UFile.ofView win (f.view (unescapePath win)) = f := by
  have hh : (f.hunks.map UHunk.view).map UHunk.ofView = f.hunks := by
    rw [List.map_map]
    conv => rhs; rw [← List.map_id f.hunks]
    refine List.map_congr_left (fun u hu => ?_)
    obtain ⟨c1, c2⟩ := UHunk.view_counts u
    obtain ⟨f1, f2, f3⟩ := full.hunks u hu
    obtain ⟨k1, k2, k3, k4⟩ := can.hunks u hu
    simp only [Function.comp_apply, id_eq, UHunk.ofView, c1, c2]
    simp only [UHunk.view, drift, f1, f2, if_false, Int.add_zero, Int.toNat_natCast, ofView_view_blocks u.blocks _ _ f3]
    cases u with
    | mk sl dl ss sd fn gp bs =>
      simp only at k1 k2 k3 k4 ⊢
      cases fn with
      | none => simp [k1, k2, k4]
      | some g => simp only [ne_eq, Option.some.injEq] at k3; simp [k1, k2, k3, k4]
  unfold UFile.ofView
  rw [UFile.own, hh]
  obtain ⟨n1, n2⟩ := can.names
  obtain ⟨e1, e2⟩ := can.extra
  obtain ⟨s1, s2⟩ := full.stamps
  have np := can.noPreamble
  simp only [UFile.view, n1, n2, if_true]
  obtain ⟨pre, ⟨sn, sst, sx⟩, ⟨dn, dst, dx⟩, hs⟩ := f
  simp only at e1 e2 s1 s2 np ⊢
  subst e1 e2 np
  cases sst with
  | none => exact absurd rfl s1
  | some a =>
    cases dst with
    | none => exact absurd rfl s2
    | some b => rfl

/-- **C20.** For a diff of one file in the form in which the library writes, reading it and writing it again reproduces the text exactly,
character by character. -/
theorem C20_text_reproduced (f : UFile) (win : Bool) (ok : f.Ok) (full : f.Full (unescapePath win)) (can : f.Canonical win)
    (hc : f.changes = true) (cmp : Str → Str → Int) (heap : Heap) :
    ∃ m h, parse win cmp heap (split f.render.flatten) = Res.ok { models := some [m], malformed := false, heap := h } ∧
      m.recreateDiff win h = f.render.flatten := by
  have okd : UDiff.Ok { files := [f] } := by
    refine ⟨by simpa using ok, ?_, ?_, by simp⟩
    · intro g gs e
      simp only [List.cons.injEq] at e
      rw [← e.1]
      exact ⟨by simp [can.noPreamble], fun _ => full.stamps.1⟩
    · intro g gs e k hk
      simp only [List.cons.injEq] at e
      rw [← e.2] at hk
      simp at hk
  obtain ⟨m, h, h1, h2⟩ := C26_unified_single { files := [f] } okd f rfl hc win cmp heap
  refine ⟨m, h, by simpa [UDiff.render] using h1, ?_⟩
  rw [← fileOf_render win h m]
  · rw [h2, ofView_view win f full can]
  · rw [h2]; exact (UFile.writable win f ok full).hunks

/-! ### Non-vacuity -/

/-- Four differences. -/
def recreateHeap : Heap where
  next := 4
  cell := fun i => match i with
    | 0 => { type := .Unchanged, sourceLineNo := 3, destLineNo := 3, tracking := 3, source := [DStr.ofStr (str "x\n")], dest := [DStr.ofStr (str "x\n")] }
    | 1 => { type := .Change, sourceLineNo := 4, destLineNo := 4, tracking := 4, source := [DStr.ofStr (str "old\n")],
             dest := [DStr.ofStr (str "new\n"), DStr.ofStr (str "-- more\n")] }
    | 2 => { type := .Unchanged, sourceLineNo := 5, destLineNo := 6, tracking := 5, source := [DStr.ofStr (str "\n")], dest := [DStr.ofStr (str "\n")] }
    | _ => { type := .Delete, sourceLineNo := 6, destLineNo := 7, tracking := 6, source := [DStr.ofStr (str "z\n")] }

/-- A model with these differences, and names that need escaping. -/
def recreateModel : DModel where
  source := str "dir/a \"b\".txt"
  destination := str "dir/c.txt"
  sourceTimestamp := str "2024-01-01"
  destinationTimestamp := str "2024-01-02"
  hunks := [{ sourceLine := 3, destLine := 3, function := str "int main()", diffs := [0, 1, 2, 3] }]
  differences := [1, 3]

theorem recreateDiffs_writable : ∀ i, (recreateHeap.cell i).view.Writable := by
  have tl : ∀ t : Str, '\n' ∉ t → t.length < 65534 → TextLine (t ++ ['\n']) := fun t h1 h2 => ⟨t, rfl, h1, h2⟩
  intro i
  match i with
  | 0 =>
    refine ⟨⟨by decide, by decide⟩, ?_⟩
    intro l hl
    have : l = str "x" ++ ['\n'] := by
      have e : (recreateHeap.cell 0).view.src ++ (recreateHeap.cell 0).view.dst = [str "x" ++ ['\n'], str "x" ++ ['\n']] := by decide
      rw [e] at hl; simpa using hl
    subst this; exact tl _ (by decide) (by decide)
  | 1 =>
    refine ⟨⟨by decide, by decide⟩, ?_⟩
    intro l hl
    have e : (recreateHeap.cell 1).view.src ++ (recreateHeap.cell 1).view.dst = [str "old" ++ ['\n'], str "new" ++ ['\n'], str "-- more" ++ ['\n']] := by decide
    rw [e] at hl
    simp only [List.mem_cons, List.not_mem_nil, or_false] at hl
    rcases hl with rfl | rfl | rfl <;> exact tl _ (by decide) (by decide)
  | 2 =>
    refine ⟨⟨by decide, by decide⟩, ?_⟩
    intro l hl
    have : l = [] ++ ['\n'] := by
      have e : (recreateHeap.cell 2).view.src ++ (recreateHeap.cell 2).view.dst = [[] ++ ['\n'], [] ++ ['\n']] := by decide
      rw [e] at hl; simpa using hl
    subst this; exact tl _ (by decide) (by decide)
  | i + 3 =>
    refine ⟨⟨List.cons_ne_nil _ _, rfl⟩, ?_⟩
    intro l hl
    have : l = str "z" ++ ['\n'] := by
      have e : (recreateHeap.cell (i + 3)).view.src ++ (recreateHeap.cell (i + 3)).view.dst = [str "z" ++ ['\n']] := rfl
      rw [e] at hl; simpa using hl
    subst this; exact tl _ (by decide) (by decide)

theorem recreateHunk_writable : ((recreateModel.hunks.head?.getD { sourceLine := 0, destLine := 0 }).view recreateHeap).Writable := by
  refine ⟨?_, ⟨rfl, rfl, rfl, rfl, rfl, rfl, rfl, rfl, trivial⟩, ?_, by decide, by decide, by decide⟩
  · intro d hd
    obtain ⟨i, _, rfl⟩ := List.mem_map.1 hd
    exact recreateDiffs_writable i
  · refine ⟨⟨by decide, by decide⟩, ⟨by decide, by decide⟩, ⟨by decide, by decide⟩, trivial⟩

/-- The hypotheses of `C20_reread`, `C20_round_trip`, `C20_list`. -/
theorem recreateModel_ok : (recreateModel.view recreateHeap).Writable ∧ (recreateModel.view recreateHeap).Fresh ∧
    (recreateModel.view recreateHeap).hasChange = true ∧ (recreateModel.view recreateHeap).differences ≠ [] ∧
    (∀ k ∈ (recreateModel.view recreateHeap).hunks, k.srcCount ≠ 0 ∧ k.dstCount ≠ 0) := by
  refine ⟨⟨by unfold HeaderField; decide, by unfold HeaderField; decide, by unfold HeaderField; decide, by unfold HeaderField; decide, by decide, by decide, ?_⟩,
    ⟨?_, by decide, rfl⟩, by decide, by decide, by decide⟩
  · intro k hk
    have : k = (recreateModel.hunks.head?.getD { sourceLine := 0, destLine := 0 }).view recreateHeap := by
      have e : (recreateModel.view recreateHeap).ownHunks = [(recreateModel.hunks.head?.getD { sourceLine := 0, destLine := 0 }).view recreateHeap] := by decide
      rw [e] at hk; simpa using hk
    rw [this]
    exact recreateHunk_writable
  · unfold DView.Fresh; decide

/-- The text: a name that needs escaping, a hunk of all three kinds of lines. -/
example : ∃ m' h', parse false (fun _ _ => 0) recreateHeap (split (recreateModel.recreateDiff false recreateHeap)) =
    Res.ok { models := some [m'], malformed := false, heap := h' } ∧ m'.view h' = recreateModel.view recreateHeap :=
  C20_round_trip false _ _ _ _ recreateModel_ok.1 recreateModel_ok.2.1 recreateModel_ok.2.2.2.1 ⟨rfl, rfl⟩ recreateModel_ok.2.2.2.2
example : recreateModel.recreateDiff false recreateHeap = str "--- \"dir/a \\\"b\\\".txt\"\t2024-01-01\n+++ dir/c.txt\t2024-01-02\n" ++
    str "@@ -3,4 +3,4 @@ int main()\n x\n-old\n+new\n+-- more\n \n-z\n" := by
  have e3 : decInt 3 = str "3" := by rw [show decInt 3 = decNat 3 from decInt_natCast 3, decNat]; rfl
  have e4 : decInt ((4 : Nat) : Int) = str "4" := by rw [decInt_natCast, decNat]; rfl
  have c1 : ({ sourceLine := 3, destLine := 3, function := str "int main()", type := .Normal, diffs := [0, 1, 2, 3].map recreateHeap.cell } : Hunk Diff).headerSlc = 4 := by decide
  have c2 : ({ sourceLine := 3, destLine := 3, function := str "int main()", type := .Normal, diffs := [0, 1, 2, 3].map recreateHeap.cell } : Hunk Diff).headerDlc = 4 := by decide
  have hf : (recreateModel.hunks.filter (fun k => k.type ≠ .AddedByBlend)) = [{ sourceLine := 3, destLine := 3, function := str "int main()", diffs := [0, 1, 2, 3] }] := by decide
  unfold DModel.recreateDiff
  rw [hf]
  simp only [List.map_cons (l := ([] : List (Hunk Nat))), Hunk.recreate, Hunk.header, e3, c1, c2, e4]
  decide

/-- A file diff in the form the library writes, for `C20_parse_recreate_parse` and `C20_text_reproduced`. -/
def recreateFile : UFile where
  src := { name := str "\"a b\"", stamp := some (str "2024-01-01") }
  dst := { name := str "c", stamp := some (str "2024-01-02") }
  hunks := [{ srcLine := 7, dstLine := 9, function := some (str "f"), blocks := [.context [{ text := str "x" }],
    .change [{ text := str "old" }] [{ text := str "new" }], .context [{ text := [] }], .change [] [{ text := str "y" }]] }]

theorem recreateFile_ok : recreateFile.Ok ∧ recreateFile.Full (unescapePath false) ∧ recreateFile.Canonical false ∧ recreateFile.changes = true := by
  have hs : ∀ n s : Str, (n ≠ [] ∧ '\t' ∉ n ∧ '\n' ∉ n) → (s ≠ [] ∧ '\t' ∉ s ∧ '\n' ∉ s) → Header.Ok { name := n, stamp := some s } := by
    intro n s h1 h2
    exact ⟨h1, by intro ts hts; simp only [Option.some.injEq] at hts; subst hts; exact h2, by intro e he; simp at he⟩
  refine ⟨⟨hs _ _ (by decide) (by decide), hs _ _ (by decide) (by decide), ?_, by simp [recreateFile]⟩, ⟨?_, by decide, by decide⟩,
    ⟨rfl, by decide, ⟨rfl, rfl⟩, by decide⟩, by decide⟩
  · intro h hh
    simp only [recreateFile, List.mem_singleton] at hh
    subst hh
    refine ⟨by unfold RangeOk; decide, by unfold RangeOk; decide, ?_, ?_, ?_, by decide⟩
    · intro f hf; simp only [Option.some.injEq] at hf; subst hf; decide
    · intro b hb
      simp only [List.mem_cons, List.not_mem_nil, or_false] at hb
      rcases hb with rfl | rfl | rfl | rfl <;> simp [Block.NonEmpty]
    · refine ⟨trivial, trivial, trivial, trivial⟩
  · intro h hh
    simp only [recreateFile, List.mem_singleton] at hh
    subst hh
    unfold UHunk.Full
    decide

example : ∃ m h, parse false (fun _ _ => 0) recreateHeap (split recreateFile.render.flatten) = Res.ok { models := some [m], malformed := false, heap := h } ∧
    m.recreateDiff false h = recreateFile.render.flatten :=
  C20_text_reproduced _ _ recreateFile_ok.1 recreateFile_ok.2.1 recreateFile_ok.2.2.1 recreateFile_ok.2.2.2 _ _
example : ({ files := [recreateFile] } : UDiff).Ok := by
  refine ⟨by simpa using recreateFile_ok.1, ?_, ?_, by simp⟩
  · intro g gs e
    simp only [List.cons.injEq] at e
    rw [← e.1]
    exact ⟨by simp [recreateFile], fun _ => by simp [recreateFile]⟩
  · intro g gs e k hk
    simp only [List.cons.injEq] at e
    rw [← e.2] at hk
    simp at hk
/-- `C20_list`: a list of models in which all are written. -/
example (s : MLState) (hs : s.heap = recreateHeap) (h0 : s.store 0 = recreateModel) :
    (∀ i ∈ [0], ((s.store i).view s.heap).Writable) ∧ ∃ i ∈ [0], ((s.store i).view s.heap).hasChange = true := by
  simp only [List.mem_singleton, forall_eq, exists_eq_left, hs, h0]
  exact ⟨recreateModel_ok.1, recreateModel_ok.2.2.1⟩

end KompareDiff2
