import Verif.Proofs.Overlay
import Verif.Props.EndToEnd
import Verif.Props.Context
import Verif.Props.Normal
/-
Property theorems C57: what is saved for any diff and any file.
-/
namespace KompareDiff2
open Spec

theorem parsed_raw {win : Bool} {cmp : Str → Str → Int} {heap : Heap} {lines : List Str} {r : ParseResult} {ms : List DModel}
    (h : parse win cmp heap lines = Res.ok r) (hm : r.models = some ms) {x : DModel} (hx : x ∈ ms) : Raw r.heap x := by
  have key : ∀ P : HView → Prop, ParsedModels P heap r.heap ms → (∀ k, P k → k.type = .Normal ∧ k.Coherent) → Raw r.heap x := by
    intro P hpm hP
    have hm := (hpm.each x hx).1
    refine ⟨hm.alloc, ?_, ?_, ?_⟩
    · intro k hk q
      have e : (k.view r.heap).type = .Normal := (hP _ (hm.hunks k hk)).1
      have e2 : (k.view r.heap).type = k.type := rfl
      rw [e2, q] at e
      cases e
    · intro i hi ht
      obtain ⟨k, hk, hi⟩ := List.mem_flatMap.1 hi
      exact (hP _ (hm.hunks k hk)).2.2 (r.heap.cell i).view (List.mem_map.2 ⟨i, hi, rfl⟩) ht
    · intro i hi ht
      rw [hm.differences, List.mem_filter]
      exact ⟨hi, by simpa using ht⟩
  rcases C27_parse_sound win cmp heap lines r ms h hm with h | h | h
  · exact key _ h (fun k => (coherent_formats k).1)
  · exact key _ h (fun k => (coherent_formats k).2.1)
  · exact key _ h (fun k => (coherent_formats k).2.2)

theorem fromDiff_eq {s : MLState} {m : Nat} {ks : List (Hunk Nat)} {c : Str} (r : Overlaid s.heap (s.store m) ks c) :
    fromDiff s m = ks.map (Hunk.view s.heap) := by
  unfold fromDiff
  rw [List.filter_map]
  congr 1
  exact blent_filter r.blent r.normal

/-- A model blended with a file is saved as the property says. -/
theorem overlaid_saves {s : MLState} {ms : List Nat} (h : Opened s ms) (hs : Selected s ms) {m : Nat} (hm : m ∈ ms) {S : Str}
    {ks : List (Hunk Nat)} (hr : Overlaid s.heap (s.store m) ks S) : SavesOverlay s m (ks.map (Hunk.view s.heap)) S := by
  intro ops hops
  obtain ⟨k, j, m0, d, a⟩ := hs
  obtain ⟨s', k', j', m', d', g⟩ := runUser_ok ops h a hops
  have hr' : Overlaid s'.heap (s'.store m) ks S :=
    hr.frame (g.frame.hunks m) (g.frame.differences m) g.frame.cells (Nat.le_of_eq g.frame.heapNext.symm)
  have hw := writes_saved g.opened hm
  have hun : (ks.map (Hunk.view s'.heap)).map HView.unmarked = (ks.map (Hunk.view s.heap)).map HView.unmarked := by
    simp only [List.map_map]
    exact List.map_congr_left (fun k _ => unmarked_same g.frame.cells k)
  have hov : ∀ f : HView → List Str, (∀ k, f k.unmarked = f k) →
      overlay f 1 (ks.map (Hunk.view s'.heap)) (split S) = overlay f 1 (ks.map (Hunk.view s.heap)) (split S) := by
    intro f hf
    rw [← overlay_unmarked hf, hun, overlay_unmarked hf]
  refine ⟨s', g.ok, ?_, ?_, fun hb => ?_, fun hb => ?_⟩
  · rw [fromDiff_eq hr']; exact hun
  · rw [fromDiff_eq hr', ← hr'.saved]; exact hw
  · have := hr'.all false hb
    simp only [Bool.false_eq_true, if_false] at this
    rw [hov _ unmarked_new] at this
    exact this ▸ hw
  · have := hr'.all true hb
    simp only [if_true] at this
    rw [hov _ unmarked_old] at this
    exact this ▸ hw

/-- The models after parsing any text. -/
theorem opens_raw {e : Env} {s : MLState} {text : Str} {p : ParseResult} {xs : List DModel} (w : WF s) (hi : s.info ≠ none)
    (hp : parse e.win e.cmp s.heap (split text) = Res.ok p) (hx : p.models = some xs) :
    ∃ s1, s.parseDiffOutput e text = Res.ok (s1, true) ∧ Opened s1 (List.range' s.nextModel xs.length) ∧
      Selected s1 (List.range' s.nextModel xs.length) ∧ WF s1 ∧ s1.heap = p.heap ∧
      (∀ i, s.info = some i → ∃ i', s1.info = some i' ∧ i.SameOperands i') ∧
      ∀ k x, xs[k]? = some x → (s1.store (s.nextModel + k)).source = x.source ∧ (s1.store (s.nextModel + k)).hunks = x.hunks ∧
        (∀ d ∈ (s1.store (s.nextModel + k)).differences, (s1.heap.cell d).applied = false) ∧
        Raw s1.heap (s1.store (s.nextModel + k)) := by
  obtain ⟨s1, h1⟩ := parseDiffOutput_total w hi hp
  rw [hx] at h1
  obtain ⟨w1, _, _, r', hr2, hheap, _, h2⟩ := parseDiffOutput_spec w h1
  rw [hp] at hr2
  simp only [Res.ok.injEq] at hr2
  subst hr2
  obtain ⟨xs', m, d, hx', ho, ha, hst⟩ := h2 rfl
  rw [hx] at hx'
  simp only [Option.some.injEq] at hx'
  subst hx'
  obtain ⟨_, ⟨i, i', hi1, hi2, hso⟩, _⟩ := parseDiffOutput_events h1
  refine ⟨s1, h1, ho, ⟨0, 0, m, d, ha⟩, w1, hheap, ?_, ?_⟩
  · intro j hj
    rw [hi1] at hj
    simp only [Option.some.injEq] at hj
    subst hj
    exact ⟨i', hi2, hso⟩
  · intro k x hk
    obtain ⟨q1, q2, q3, q4, q5⟩ := hst k x hk
    have hxm : x ∈ xs := List.mem_of_getElem? hk
    refine ⟨q3, q1, ?_, ?_⟩
    · intro d hd
      rw [q2] at hd
      rw [hheap]
      exact (((parse_models hp).2 xs hx).2.each x hxm).1.fresh_cell hd
    · rw [hheap]
      exact (parsed_raw hp hx hxm).ext q1 q2 (.refl _)

theorem mem_range_model {α : Type} {n m : Nat} {xs : List α} (h : m ∈ List.range' n xs.length) : ∃ k x, m = n + k ∧ xs[k]? = some x := by
  rw [List.mem_range'_1] at h
  exact ⟨m - n, xs[m - n]'(by omega), by omega, List.getElem?_eq_getElem _⟩

/-- C57, comparing: whatever the diff program wrote, in whatever format, and whatever the original contains, if the output is parsed into
models at all, then each model is saved as the original with the hunks read laid over it. -/
theorem C57_compare {e : Env} {s : MLState} {r : ProcessResult} {i : Info} {p : ParseResult} {xs : List DModel} (hs : Reachable s)
    (hi : s.info = some i) (hmode : i.mode ≠ .ShowingDiff) (hr : r.finishedNormally = true)
    (hp : parse e.win e.cmp s.heap (split r.stdout) = Res.ok p) (hx : p.models = some xs)
    (hu : e.isDir i.localSource = true ∨ (e.isDir i.localSource = false ∧ e.isFile i.localSource = true ∧ xs.length = 1)) :
    ∃ s1, s.slotDiffProcessFinished e r = Res.ok s1 ∧ s1.models = some (List.range' s.nextModel xs.length) ∧
      ∀ (k : Nat) (x : DModel), xs[k]? = some x →
        (s1.store (s.nextModel + k)).source = x.source ∧
        (∀ d ∈ (s1.store (s.nextModel + k)).differences, (s1.heap.cell d).applied = false) ∧
        SavesOverlay s1 (s.nextModel + k) (x.hunks.map (Hunk.view p.heap)) (original e i.localSource x.source) := by
  have w0 : WF (s.emit (.status .Parsing)) := hs.wf.keep (keep_emit _ _)
  obtain ⟨s1, h1, o1, sel1, w1, hheap, hinfo, hst⟩ := opens_raw (e := e) (s := s.emit (.status .Parsing)) (text := r.stdout) w0
    (by show s.info ≠ none; rw [hi]; simp) hp hx
  obtain ⟨i1, hi1, hso⟩ := hinfo i hi
  have hls : i1.localSource = i.localSource := by
    unfold Info.SameOperands at hso
    have q := congrArg Info.localSource hso
    exact q
  have hmd : i1.mode = i.mode := by
    unfold Info.SameOperands at hso
    have q := congrArg Info.mode hso
    exact q
  have hn : (s.emit (.status .Parsing)).nextModel = s.nextModel := rfl
  rw [hn] at o1 sel1 hst
  obtain ⟨s2, h2, o2, w2, k2, sel2, e2, so2, rd2⟩ := blendOriginal_overlaid e o1 w1 sel1 i.localSource
    (by
      rcases hu with hu | ⟨hu1, hu2, hu3⟩
      · exact .inl hu
      · exact .inr ⟨hu1, hu2, by rw [List.length_range', hu3]⟩)
    (by
      intro m hm
      obtain ⟨k, x, rfl, hk⟩ := mem_range_model hm
      exact (hst k x hk).2.2.2)
  obtain ⟨k0, j0, m0, d0, a2⟩ := sel2
  obtain ⟨ac, h3, _⟩ := updateActions_ok o2 a2
  have hrun : s.slotDiffProcessFinished e r = Res.ok { (({ s2 with actions := ac } : MLState).show_.emit (.status .FinishedParsing)) with process := none } := by
    unfold MLState.slotDiffProcessFinished
    rw [if_pos hr]
    dsimp only
    rw [h1]
    simp only [Res.bind_ok, Bool.true_eq_false, if_false, hi1, hmd, hls]
    rw [if_pos hmode, h2]
    simp only [Res.bind_ok, h3]
  obtain ⟨s3, hrun, o3, sel3, hh, hst3⟩ : ∃ s3, s.slotDiffProcessFinished e r = Res.ok s3 ∧ Opened s3 (List.range' s.nextModel xs.length) ∧
      Selected s3 (List.range' s.nextModel xs.length) ∧ s3.heap = s2.heap ∧ s3.store = s2.store :=
    ⟨_, hrun, o2, ⟨k0, j0, m0, d0, a2⟩, rfl, rfl⟩
  refine ⟨s3, hrun, o3.models, ?_⟩
  intro k x hk
  have hmem : s.nextModel + k ∈ List.range' s.nextModel xs.length := by
    have := (List.getElem?_eq_some_iff.1 hk).1
    rw [List.mem_range'_1]; omega
  obtain ⟨q1, q2, q3, q4⟩ := hst k x hk
  have hrd := rd2 _ hmem
  rw [q1, q2] at hrd
  have hmap : x.hunks.map (Hunk.view s3.heap) = x.hunks.map (Hunk.view p.heap) := by
    rw [hh, ← hheap]
    refine hunks_view_ext e2 (fun k' hk' i' hi' => q4.alloc i' (List.mem_flatMap.2 ⟨k', ?_, hi'⟩))
    rw [q2]; exact hk'
  refine ⟨?_, ?_, ?_⟩
  · rw [hst3]; exact (so2 _).trans q1
  · rw [hst3, hh]
    intro d hd
    have hd' : d ∈ (s1.store (s.nextModel + k)).differences := (k2.differences _) ▸ hd
    rw [e2.2 d (w1.diffs _ (w1.models _ (by rw [o1.models]; exact hmem)) d hd')]
    exact q3 d hd'
  · rw [← hmap]
    exact overlaid_saves o3 sel3 hmem (by rw [hh, hst3]; exact hrd)

/-- C57: where the diff belongs to the file, the hunks laid over it give the patched file and the file itself. -/
theorem C57_agrees {a : Nat} {ks : List HView} {file out : List Str} (h : Patches a (ks.map HView.edit) file out) :
    overlay HView.new ((a : Int) + 1) ks file = out ∧ overlay HView.old ((a : Int) + 1) ks file = file := by
  induction ks generalizing a file out with
  | nil => cases h; exact ⟨rfl, rfl⟩
  | cons k ks ih =>
    rw [List.map_cons] at h
    cases h with
    | edit _ _ _ keep file out hl h =>
      have hl' : k.srcLine = ((a + keep.length + 1 : Nat) : Int) := hl
      have en : (k.srcLine - ((a : Int) + 1)).toNat = keep.length := by omega
      obtain ⟨h1, h2⟩ := ih h
      have hold : k.edit.old = k.old := rfl
      have hnew : k.edit.new = k.new := rfl
      rw [hold] at h1 h2
      simp only [overlay, en, hold, hnew, List.append_assoc, List.take_left, List.drop_left]
      rw [show (a : Int) + 1 + (keep.length : Int) + (k.old.length : Int) = ((a + keep.length + k.old.length : Nat) : Int) + 1 by omega, h1, h2]
      exact ⟨rfl, rfl⟩

theorem SavesOverlay.congr {s : MLState} {m : Nat} {ks ks' : List HView} {S : Str} (h : SavesOverlay s m ks S)
    (e : ks.map HView.unmarked = ks'.map HView.unmarked) : SavesOverlay s m ks' S := by
  have hov : ∀ f : HView → List Str, (∀ k, f k.unmarked = f k) → overlay f 1 ks (split S) = overlay f 1 ks' (split S) := by
    intro f hf
    rw [← overlay_unmarked hf, e, overlay_unmarked hf]
  intro ops hops
  obtain ⟨s', h1, h2, h3, h4, h5⟩ := h ops hops
  exact ⟨s', h1, h2.trans e, h3, hov _ unmarked_new ▸ h4, hov _ unmarked_old ▸ h5⟩

theorem Raw.frame {h h' : Heap} {m m' : DModel} (r : Raw h m) (h1 : m'.hunks = m.hunks) (h2 : m'.differences = m.differences)
    (h3 : ∀ j, Diff.Same (h.cell j) (h'.cell j)) (h4 : h.next ≤ h'.next) : Raw h' m' := by
  have hid : m'.hunkIds = m.hunkIds := by unfold DModel.hunkIds; rw [h1]
  refine ⟨?_, ?_, ?_, ?_⟩
  · rw [hid]; exact fun i hi => Nat.lt_of_lt_of_le (r.alloc i hi) h4
  · rw [h1]; exact r.normal
  · rw [hid]; intro i hi ht
    have := r.same i hi ((h3 i).type.symm.trans ht)
    simp only [Diff.srcText, Diff.dstText] at this ⊢
    rw [(h3 i).source, (h3 i).dest]; exact this
  · rw [hid, h2]; intro i hi ht; exact r.cover i hi (fun q => ht ((h3 i).type.trans q))

/-- C57, opening a patch for a file or directory: the same, with path components stripped as demanded. -/
theorem C57_patch {e : Env} {s : MLState} {i : Info} {p : ParseResult} {xs : List DModel} (hs : Reachable s) (hi : s.info = some i)
    (hp : parse e.win e.cmp s.heap (split (e.contents i.localDestination)) = Res.ok p) (hx : p.models = some xs)
    (hu : e.isDir i.localSource = true ∨ (e.isDir i.localSource = false ∧ e.isFile i.localSource = true ∧ xs.length = 1)) :
    ∃ s1, s.openAndDiff e = Res.ok (s1, true) ∧ s1.models = some (List.range' s.nextModel xs.length) ∧
      ∀ (k : Nat) (x : DModel), xs[k]? = some x →
        (s1.store (s.nextModel + k)).source = lstripSeparators x.source i.depth ∧
        (∀ d ∈ (s1.store (s.nextModel + k)).differences, (s1.heap.cell d).applied = i.applied) ∧
        SavesOverlay s1 (s.nextModel + k) (x.hunks.map (Hunk.view p.heap))
          (original e i.localSource (lstripSeparators x.source i.depth)) := by
  have w0 : WF s.clear := hs.wf.keep (keep_clear _)
  obtain ⟨s1, h1, o1, sel1, w1, hheap, hinfo, hst⟩ := opens_raw (e := e) (s := s.clear) (text := e.contents i.localDestination) w0
    (by show s.info ≠ none; rw [hi]; simp) hp hx
  obtain ⟨i1, hi1, hso⟩ := hinfo i hi
  have hls : i1.localSource = i.localSource := by
    unfold Info.SameOperands at hso
    have q := congrArg Info.localSource hso
    exact q
  have hdp : i1.depth = i.depth := by
    unfold Info.SameOperands at hso
    have q := congrArg Info.depth hso
    exact q
  have hap : i1.applied = i.applied := by
    unfold Info.SameOperands at hso
    have q := congrArg Info.applied hso
    exact q
  have hn : s.clear.nextModel = s.nextModel := rfl
  rw [hn] at o1 sel1 hst
  obtain ⟨s15, h15, o15, w15, k15, sel15, i15, dep⟩ := setDepth_ready o1 w1 sel1 hi1
  have hnext : s1.heap.next ≤ s15.heap.next := Nat.le_of_eq dep.next.symm
  obtain ⟨s2, h2, o2, w2, k2, sel2, e2, so2, rd2⟩ := blendOriginal_overlaid e o15 w15 sel15 i.localSource
    (by
      rcases hu with hu | ⟨hu1, hu2, hu3⟩
      · exact .inl hu
      · exact .inr ⟨hu1, hu2, by rw [List.length_range', hu3]⟩)
    (by
      intro m hm
      obtain ⟨k, x, rfl, hk⟩ := mem_range_model hm
      exact (hst k x hk).2.2.2.frame (dep.hunks _) (dep.differences _) dep.cells hnext)
  obtain ⟨k0, j0, m0, d0, a2⟩ := sel2
  obtain ⟨ac, h3, _⟩ := updateActions_ok o2 a2
  have hrun : s.openAndDiff e = Res.ok (({ s2 with actions := ac } : MLState).show_, true) := by
    unfold MLState.openAndDiff
    rw [hi]
    dsimp only
    rw [h1]
    simp only [Res.bind_ok, Bool.true_eq_false, if_false, h15, h2, h3]
  obtain ⟨s3, hrun, o3, sel3, hh, hst3⟩ : ∃ s3, s.openAndDiff e = Res.ok (s3, true) ∧ Opened s3 (List.range' s.nextModel xs.length) ∧
      Selected s3 (List.range' s.nextModel xs.length) ∧ s3.heap = s2.heap ∧ s3.store = s2.store :=
    ⟨_, hrun, o2, ⟨k0, j0, m0, d0, a2⟩, rfl, rfl⟩
  refine ⟨s3, hrun, o3.models, ?_⟩
  intro k x hk
  have hmem : s.nextModel + k ∈ List.range' s.nextModel xs.length := by
    have := (List.getElem?_eq_some_iff.1 hk).1
    rw [List.mem_range'_1]; omega
  obtain ⟨q1, q2, q3, q4⟩ := hst k x hk
  have hsrc := dep.source (s.nextModel + k)
  rw [if_pos hmem, hdp, q1] at hsrc
  have hrd := rd2 _ hmem
  rw [hsrc, dep.hunks, q2] at hrd
  have hal : ∀ k' ∈ x.hunks, ∀ i' ∈ k'.diffs, i' < s15.heap.next := by
    intro k' hk' i' hi'
    exact Nat.lt_of_lt_of_le (q4.alloc i' (List.mem_flatMap.2 ⟨k', by rw [q2]; exact hk', hi'⟩)) hnext
  have hmap : (x.hunks.map (Hunk.view s3.heap)).map HView.unmarked = (x.hunks.map (Hunk.view p.heap)).map HView.unmarked := by
    rw [hh, hunks_view_ext e2 hal, ← hheap]
    simp only [List.map_map]
    exact List.map_congr_left (fun k _ => unmarked_same dep.cells k)
  refine ⟨?_, ?_, ?_⟩
  · rw [hst3]; exact (so2 _).trans hsrc
  · rw [hst3, hh]
    intro d hd
    have hd15 : d ∈ (s15.store (s.nextModel + k)).differences := (k2.differences _) ▸ hd
    have hd' : d ∈ (s1.store (s.nextModel + k)).differences := (dep.differences _) ▸ hd15
    rw [e2.2 d (w15.diffs _ (w15.models _ (by rw [o15.models]; exact hmem)) d hd15), ← hap]
    exact dep.applied _ hmem d hd'
  · exact SavesOverlay.congr (overlaid_saves o3 sel3 hmem (by rw [hh, hst3]; exact hrd)) hmap

/-! ### Context and normal diffs lose the line ends -/

theorem noEnd_line {t : Str} (h : '\n' ∉ t) : noEnd (t ++ ['\n']) = t := by
  unfold noEnd
  rw [List.filter_append]
  simp only [ne_eq, List.filter_cons, not_true, decide_false, Bool.false_eq_true, if_false, List.filter_nil, List.append_nil]
  rw [List.filter_eq_self]
  intro c hc
  simp only [decide_eq_true_eq]
  exact fun q => h (q ▸ hc)

/-- Hunks that show the lines of edits without their line ends. -/
theorem overlay_glues {a : Nat} {ks : List HView} {es : List Edit} {file out : List Str} (side : HView → List Str)
    (hk : ks.map (fun k => (k.srcLine, k.old.length, side k)) = es.map (fun e => (e.line, e.old.length, e.new.map noEnd)))
    (h : Patches a es file out) : Glues a es file (overlay side ((a : Int) + 1) ks file) := by
  induction ks generalizing a es file out with
  | nil =>
    cases es with
    | nil => cases h; exact .done _ _
    | cons e es => simp at hk
  | cons k ks ih =>
    cases h with
    | done => simp at hk
    | edit _ e es keep file out hl h =>
      simp only [List.map_cons, List.cons.injEq, Prod.mk.injEq] at hk
      obtain ⟨⟨e1, e2, e3⟩, hk⟩ := hk
      have en : (k.srcLine - ((a : Int) + 1)).toNat = keep.length := by rw [e1, hl]; omega
      simp only [overlay, en, e2, e3, List.append_assoc, List.take_left, List.drop_left]
      rw [show (a : Int) + 1 + (keep.length : Int) + (e.old.length : Int) = ((a + keep.length + e.old.length : Nat) : Int) + 1 by omega]
      have := Glues.edit a e es keep file _ hl (ih hk h)
      simpa only [List.append_assoc] using this

/-- What is lost: one character for every line written in the diff. -/
theorem glues_length {a : Nat} {es : List Edit} {file out out' : List Str} (hl : ∀ e ∈ es, ∀ l ∈ e.new, ∃ t, '\n' ∉ t ∧ l = t ++ ['\n'])
    (h : Patches a es file out) (g : Glues a es file out') : out'.flatten.length + (es.map (fun e => e.new.length)).sum = out.flatten.length := by
  induction h generalizing out' with
  | done pos rest => cases g; simp
  | edit pos e es keep file out hline h ih =>
    generalize hF : keep ++ e.old ++ file = F at g
    cases g with
    | edit _ _ _ keep' file' out'' hline' g =>
      have hk : keep.length = keep'.length := by omega
      rw [List.append_assoc, List.append_assoc] at hF
      obtain ⟨rfl, h3⟩ := append_split hF hk
      obtain ⟨-, rfl⟩ := append_split h3 rfl
      have hi := ih (fun e he => hl e (List.mem_cons_of_mem _ he)) g
      have hn : ∀ ls : List Str, (∀ l ∈ ls, ∃ t, '\n' ∉ t ∧ l = t ++ ['\n']) → (ls.map noEnd).flatten.length + ls.length = ls.flatten.length := by
        intro ls
        induction ls with
        | nil => intro _; rfl
        | cons l ls ih =>
          intro hls
          obtain ⟨t, ht, e⟩ := hls l (by simp)
          have := ih (fun l hl => hls l (List.mem_cons_of_mem _ hl))
          have e2 : (noEnd l).length + 1 = l.length := by rw [e, noEnd_line ht]; simp
          simp only [List.map_cons, List.flatten_cons, List.length_append, List.length_cons]
          omega
      have := hn e.new (hl e (by simp))
      simp only [List.map_cons, List.sum_cons, List.flatten_append, List.length_append]
      omega

theorem undo_patches {a : Nat} {es : List Edit} {file out : List Str} (h : Patches a es file out) : Patches a (es.map Edit.undo) file file := by
  induction h with
  | done pos rest => exact .done _ _
  | edit pos e es keep file out hl h ih =>
    exact .edit pos e.undo _ keep file _ hl ih

theorem cblock_view_text (a b : Nat) (k : CBlock) : (k.view a b).src = k.old ∧ (k.view a b).dst = k.new := by
  cases k <;> exact ⟨rfl, rfl⟩

theorem cblockViews_src (ks : List CBlock) (a b : Nat) : (cblockViews a b ks).flatMap DView.src = ks.flatMap CBlock.old := by
  induction ks generalizing a b with
  | nil => rfl
  | cons k ks ih => simp only [cblockViews, List.flatMap_cons, ih, (cblock_view_text _ _ _).1]

theorem cblockViews_dst (ks : List CBlock) (a b : Nat) : (cblockViews a b ks).flatMap DView.dst = ks.flatMap CBlock.new := by
  induction ks generalizing a b with
  | nil => rfl
  | cons k ks ih => simp only [cblockViews, List.flatMap_cons, ih, (cblock_view_text _ _ _).2]

theorem flatMap_noEnd {α : Type} (l : List α) (f : α → List Str) (h : ∀ x ∈ l, ∀ t ∈ f x, '\n' ∉ t) :
    (l.flatMap (fun x => (f x).map (· ++ ['\n']))).map noEnd = l.flatMap f := by
  rw [List.map_flatMap]
  simp only [List.flatMap]
  congr 1
  apply List.map_congr_left
  intro x hx
  rw [List.map_map]
  exact (List.map_congr_left (fun t ht => noEnd_line (h x hx t ht))).trans (List.map_id _)

theorem chunk_edit (h : CHunk) (ok : h.Ok) : h.view.srcLine = h.edit.line ∧ h.view.old.length = h.edit.old.length ∧
    h.view.new = h.edit.new.map noEnd ∧ h.view.old = h.edit.old.map noEnd := by
  have eo : h.view.old = h.blocks.flatMap CBlock.old := cblockViews_src _ _ _
  have en : h.view.new = h.blocks.flatMap CBlock.new := cblockViews_dst _ _ _
  have q1 : h.edit.old.map noEnd = h.blocks.flatMap CBlock.old :=
    flatMap_noEnd _ _ (fun b hb t ht => (ok.lines b hb t (List.mem_append_left _ ht)).1)
  have q2 : h.edit.new.map noEnd = h.blocks.flatMap CBlock.new :=
    flatMap_noEnd _ _ (fun b hb t ht => (ok.lines b hb t (List.mem_append_right _ ht)).1)
  refine ⟨rfl, ?_, by rw [en, q2], by rw [eo, q1]⟩
  rw [eo, ← q1, List.length_map]

theorem saves_glued {s : MLState} {m : Nat} {ks : List HView} {es : List Edit} {S : Str} {T : List Str} (h : SavesOverlay s m ks S)
    (h1 : ks.map (fun k => (k.srcLine, k.old.length, k.new)) = es.map (fun e => (e.line, e.old.length, e.new.map noEnd)))
    (h2 : ks.map (fun k => (k.srcLine, k.old.length, k.old)) = es.map (fun e => (e.line, e.old.length, e.old.map noEnd)))
    (hl : ∀ e ∈ es, ∀ l ∈ e.old ++ e.new, ∃ t, '\n' ∉ t ∧ l = t ++ ['\n']) (hp : Patches 0 es (split S) T) : SavesGlued s m es S T := by
  have hu := undo_patches hp
  have h2' : ks.map (fun k => (k.srcLine, k.old.length, k.old)) =
      (es.map Edit.undo).map (fun e => (e.line, e.old.length, e.new.map noEnd)) := by rw [List.map_map]; exact h2
  have g1 := overlay_glues HView.new h1 hp
  have g2 := overlay_glues HView.old h2' hu
  have hc : ((0 : Nat) : Int) + 1 = 1 := rfl
  rw [hc] at g1 g2
  refine ⟨_, _, g1, g2, glues_length (fun e he l hl' => hl e he l (List.mem_append_right _ hl')) hp g1, ?_, ?_⟩
  · have := glues_length (fun e he l hl' => by
      obtain ⟨e', he', rfl⟩ := List.mem_map.1 he
      exact hl e' he' l (List.mem_append_left _ hl')) hu g2
    rw [List.map_map, show (split S).flatten = S from splitAux_flatten [] S] at this
    exact this
  · intro ops hops
    obtain ⟨s', a, _, _, b, c⟩ := h ops hops
    exact ⟨s', a, b, c⟩

/-- C57, defect: the lines of context diffs are read without their line ends.  When two directories or files were compared in this format,
although the diff is right in every respect, saving glues together all lines that the diff shows, changed or not, whether the user
keeps the new text or the old one. -/
theorem C57_context_defect {e : Env} {s : MLState} {r : ProcessResult} {i : Info} (hs : Reachable s) (hi : s.info = some i)
    (hmode : i.mode ≠ .ShowingDiff) (hr : r.finishedNormally = true) (D : CDiff) (hout : r.stdout = D.render.flatten) (ok : D.Ok)
    (hc : ∃ f ∈ D.files, f.hunks ≠ [])
    (hu : e.isDir i.localSource = true ∨ (e.isDir i.localSource = false ∧ e.isFile i.localSource = true ∧
      (D.files.filter (fun f => decide (f.hunks ≠ []))).length = 1))
    (T : CFile → List Str)
    (hp : ∀ f ∈ D.files, f.hunks ≠ [] →
      Patches 0 (f.hunks.map CHunk.edit) (split (original e i.localSource (unescapePath e.win f.src.name))) (T f)) :
    ∃ (s1 : MLState) (ms : List Nat) (fs : List CFile), s.slotDiffProcessFinished e r = Res.ok s1 ∧ s1.models = some ms ∧
      fs.Perm (D.files.filter (fun f => decide (f.hunks ≠ []))) ∧ ms.length = fs.length ∧
      ∀ (k : Nat) (m : Nat) (f : CFile), ms[k]? = some m → fs[k]? = some f →
        (s1.store m).source = unescapePath e.win f.src.name ∧
        SavesGlued s1 m (f.hunks.map CHunk.edit) (original e i.localSource (s1.store m).source) (T f) := by
  have hne : D.files ≠ [] := by
    obtain ⟨f, hf, _⟩ := hc
    exact List.ne_nil_of_mem hf
  obtain ⟨p, hpp, hmal, hr'⟩ := C33_context D ok hne e.win e.cmp s.heap
  cases hms : p.models with
  | none =>
    rw [hms] at hr'
    obtain ⟨f, hf, hfc⟩ := hc
    exact absurd (hr' f hf) hfc
  | some xs =>
    rw [hms] at hr'
    simp only at hr'
    obtain ⟨fs, hfs, hmap⟩ := perm_of_map hr'.2 rfl
    have hlen : xs.length = fs.length := by
      have := congrArg List.length hmap
      simpa using this
    obtain ⟨s1, g1, g2, g3⟩ := C57_compare (e := e) hs hi hmode hr (by rw [hout]; exact hpp) hms
      (by
        rcases hu with hu | ⟨h1, h2, h3⟩
        · exact .inl hu
        · exact .inr ⟨h1, h2, by rw [hlen, hfs.length_eq, h3]⟩)
    refine ⟨s1, _, fs, g1, g2, hfs, by rw [List.length_range', hlen], ?_⟩
    intro k m f hk hf
    have hm : m = s.nextModel + k := range_getElem hk
    subst hm
    have hkl : k < xs.length := by
      rw [hlen]
      exact (List.getElem?_eq_some_iff.1 hf).1
    have hx : xs[k]? = some xs[k] := List.getElem?_eq_getElem hkl
    generalize xs[k] = x at hx
    obtain ⟨q1, _, q3⟩ := g3 k x hx
    have hv : x.view p.heap = f.view (unescapePath e.win) D.cvs := by
      have := congrArg (fun l => l[k]?) hmap
      simp only [List.getElem?_map, hx, hf, Option.map_some, Option.some.injEq] at this
      exact this
    have hfm : f ∈ D.files.filter (fun f => decide (f.hunks ≠ [])) := hfs.mem_iff.1 (List.mem_of_getElem? hf)
    rw [List.mem_filter] at hfm
    have hsrc : x.source = unescapePath e.win f.src.name := congrArg MView.source hv
    have hhk : x.hunks.map (Hunk.view p.heap) = f.hunks.map CHunk.view := congrArg MView.hunks hv
    have hok : ∀ h ∈ f.hunks, h.Ok := (ok.files f hfm.1).hunks
    rw [hhk, hsrc] at q3
    rw [q1, hsrc]
    refine ⟨rfl, saves_glued q3 ?_ ?_ ?_ (hp f hfm.1 (by simpa using hfm.2))⟩
    · simp only [List.map_map]
      apply List.map_congr_left
      intro h hh
      obtain ⟨a, b, c, d⟩ := chunk_edit h (hok h hh)
      show (_, _, _) = (_, _, _)
      rw [a, b, c]
    · simp only [List.map_map]
      apply List.map_congr_left
      intro h hh
      obtain ⟨a, b, c, d⟩ := chunk_edit h (hok h hh)
      show (_, _, _) = (_, _, _)
      rw [a, b, d]
    · intro ed hed l hl
      obtain ⟨h, hh, rfl⟩ := List.mem_map.1 hed
      have key : ∀ b ∈ h.blocks, ∀ t ∈ b.old ++ b.new, '\n' ∉ t := fun b hb t ht => ((hok h hh).lines b hb t ht).1
      rw [List.mem_append] at hl
      rcases hl with hl | hl
      · obtain ⟨b, hb, hl⟩ := List.mem_flatMap.1 hl
        obtain ⟨t, ht, rfl⟩ := List.mem_map.1 hl
        exact ⟨t, key b hb t (List.mem_append_left _ ht), rfl⟩
      · obtain ⟨b, hb, hl⟩ := List.mem_flatMap.1 hl
        obtain ⟨t, ht, rfl⟩ := List.mem_map.1 hl
        exact ⟨t, key b hb t (List.mem_append_right _ ht), rfl⟩

/-- The only model of a normal diff of two files. -/
theorem compare_normal {e : Env} {s : MLState} {r : ProcessResult} {i : Info} (hs : Reachable s) (hi : s.info = some i)
    (hmode : i.mode ≠ .ShowingDiff) (hr : r.finishedNormally = true) (cs : List NCmd) (hout : r.stdout = (cs.flatMap NCmd.render).flatten)
    (ok : ∀ c ∈ cs, c.Ok) (hne : cs ≠ []) (hu : e.isDir i.localSource = false ∧ e.isFile i.localSource = true) :
    ∃ s1 m, s.slotDiffProcessFinished e r = Res.ok s1 ∧ s1.models = some [m] ∧
      (∀ d ∈ (s1.store m).differences, (s1.heap.cell d).applied = false) ∧
      SavesOverlay s1 m (cs.map NCmd.view) (e.contents i.localSource) := by
  obtain ⟨x, h', hpp, hv⟩ := C32_normal cs ok hne e.win e.cmp s.heap
  obtain ⟨s1, g1, g2, g3⟩ := C57_compare (e := e) hs hi hmode hr (by rw [hout]; exact hpp) rfl (.inr ⟨hu.1, hu.2, rfl⟩)
  obtain ⟨q1, q2, q3⟩ := g3 0 x rfl
  refine ⟨s1, _, g1, g2, q2, ?_⟩
  have hhk : x.hunks.map (Hunk.view h') = cs.map NCmd.view := congrArg MView.hunks hv
  dsimp only at q3
  rw [hhk, original_eq, hu.1] at q3
  exact q3

theorem ncmd_view (c : NCmd) : c.view.old = c.old ∧ c.view.new = c.new ∧ c.view.srcLine = (c.lineNumbers.1 : Int) := by
  cases c <;> simp [NCmd.view, HView.old, HView.new, NCmd.old, NCmd.new]

theorem map_noEnd {ls : List Str} (h : ∀ t ∈ ls, '\n' ∉ t) : (ls.map (· ++ ['\n'])).map noEnd = ls := by
  rw [List.map_map]
  exact (List.map_congr_left (fun t ht => noEnd_line (h t ht))).trans (List.map_id _)

/-- C57, defect: the same for normal diffs whose commands replace or delete lines. -/
theorem C57_normal_defect {e : Env} {s : MLState} {r : ProcessResult} {i : Info} (hs : Reachable s) (hi : s.info = some i)
    (hmode : i.mode ≠ .ShowingDiff) (hr : r.finishedNormally = true) (cs : List NCmd) (hout : r.stdout = (cs.flatMap NCmd.render).flatten)
    (ok : ∀ c ∈ cs, c.Ok) (hne : cs ≠ []) (hrep : ∀ c ∈ cs, c.replaces = true)
    (hu : e.isDir i.localSource = false ∧ e.isFile i.localSource = true) (T : List Str)
    (hp : Patches 0 (cs.map NCmd.edit) (split (e.contents i.localSource)) T) :
    ∃ s1 m, s.slotDiffProcessFinished e r = Res.ok s1 ∧ s1.models = some [m] ∧
      SavesGlued s1 m (cs.map NCmd.edit) (e.contents i.localSource) T := by
  obtain ⟨s1, m, h1, h2, _, h3⟩ := compare_normal (e := e) hs hi hmode hr cs hout ok hne hu
  have hline : ∀ c ∈ cs, c.view.srcLine = c.edit.line := by
    intro c hc
    have := hrep c hc
    rw [(ncmd_view c).2.2]
    cases c with
    | insert => simp [NCmd.replaces] at this
    | delete => rfl
    | change => rfl
  refine ⟨s1, m, h1, h2, saves_glued h3 ?_ ?_ ?_ hp⟩
  · simp only [List.map_map]
    apply List.map_congr_left
    intro c hc
    obtain ⟨a, b, _⟩ := ncmd_view c
    show (_, _, _) = (_, _, _)
    rw [a, b, hline c hc]
    unfold NCmd.edit
    dsimp only
    rw [map_noEnd (fun t ht => (ok c hc).lines t (List.mem_append_right _ ht)), List.length_map]
  · simp only [List.map_map]
    apply List.map_congr_left
    intro c hc
    obtain ⟨a, b, _⟩ := ncmd_view c
    show (_, _, _) = (_, _, _)
    rw [a, hline c hc]
    unfold NCmd.edit
    dsimp only
    rw [map_noEnd (fun t ht => (ok c hc).lines t (List.mem_append_left _ ht)), List.length_map]
  · intro ed hed l hl
    obtain ⟨c, hc, rfl⟩ := List.mem_map.1 hed
    rw [List.mem_append] at hl
    rcases hl with hl | hl
    · obtain ⟨t, ht, rfl⟩ := List.mem_map.1 hl
      exact ⟨t, (ok c hc).lines t (List.mem_append_left _ ht), rfl⟩
    · obtain ⟨t, ht, rfl⟩ := List.mem_map.1 hl
      exact ⟨t, (ok c hc).lines t (List.mem_append_right _ ht), rfl⟩

/-- C57, defect: lines inserted behind a line are shown and saved before it, glued to it, when the comparison is made in the normal
format. -/
theorem C57_insert_defect {e : Env} {s : MLState} {r : ProcessResult} {i : Info} (hs : Reachable s) (hi : s.info = some i)
    (hmode : i.mode ≠ .ShowingDiff) (hr : r.finishedNormally = true) (A : List Str) (l : Str) (B ls : List Str) (dst : Nat)
    (hout : r.stdout = (NCmd.render (.insert (A.length + 1) dst ls)).flatten) (ok : NCmd.Ok (.insert (A.length + 1) dst ls))
    (hu : e.isDir i.localSource = false ∧ e.isFile i.localSource = true) (hS : split (e.contents i.localSource) = A ++ l :: B) :
    Patches 0 [NCmd.edit (.insert (A.length + 1) dst ls)] (split (e.contents i.localSource)) (A ++ l :: (ls.map (· ++ ['\n']) ++ B)) ∧
    ∃ s1 m, s.slotDiffProcessFinished e r = Res.ok s1 ∧ s1.models = some [m] ∧
      (∀ d ∈ (s1.store m).differences, (s1.heap.cell d).applied = false) ∧
      ∀ ops : List UserOp, (∀ op ∈ ops, op.Ok s1) → ∃ s', runUser ops s1 = Res.ok s' ∧
        ((∀ d ∈ (s'.store m).differences, (s'.heap.cell d).applied = false) → Writes s' m (A ++ ls ++ l :: B).flatten) ∧
        ((∀ d ∈ (s'.store m).differences, (s'.heap.cell d).applied = true) → Writes s' m (e.contents i.localSource)) := by
  constructor
  · rw [hS]
    have := Patches.edit 0 (NCmd.edit (.insert (A.length + 1) dst ls)) [] (A ++ [l]) B B (by simp [NCmd.edit]) (.done _ _)
    simpa [NCmd.edit, NCmd.old, NCmd.new] using this
  · obtain ⟨s1, m, h1, h2, h25, h3⟩ := compare_normal (e := e) hs hi hmode hr [.insert (A.length + 1) dst ls] (by simpa using hout)
      (by simpa using ok) (by simp) hu
    refine ⟨s1, m, h1, h2, h25, fun ops hops => ?_⟩
    obtain ⟨s', a, _, _, b, c⟩ := h3 ops hops
    have en : (((A.length + 1 : Nat) : Int) - 1).toNat = A.length := by omega
    rw [hS] at b c
    have e1 : (NCmd.view (.insert (A.length + 1) dst ls)).srcLine = ((A.length + 1 : Nat) : Int) := rfl
    have e2 : (NCmd.view (.insert (A.length + 1) dst ls)).old = [] := rfl
    have e3 : (NCmd.view (.insert (A.length + 1) dst ls)).new = ls := (ncmd_view _).2.1
    simp only [List.map_cons, List.map_nil, overlay, e1, e2, e3, en, List.take_left, List.drop_left, List.length_nil, List.drop_zero] at b c
    refine ⟨s', a, b, ?_⟩
    rw [show e.contents i.localSource = (split (e.contents i.localSource)).flatten from (splitAux_flatten [] _).symm, hS]
    simpa using c

/-! ### The hypotheses are met -/

/-- A list of models for comparing two files. -/
def overlayStart : MLState :=
  (MLState.init none true ⟨fun _ => Diff.new 0 0 .Unchanged, 0⟩).setInfo (some { mode := .ComparingFiles, localSource := str "old" })

theorem overlayStart_reachable : Reachable overlayStart :=
  ⟨none, true, ⟨fun _ => Diff.new 0 0 .Unchanged, 0⟩, [.setInfo (some { mode := .ComparingFiles, localSource := str "old" })], rfl⟩

/-- The file to compare has the text `t`. -/
def overlayEnv (t : Str) : Env := { emptyEnv with isFile := fun p => decide (p = str "old"), contents := fun _ => t }

/-- A context diff that changes the second line of three. -/
def glueDiff : CDiff :=
  { files := [{ src := { name := str "old" }, dst := { name := str "new" },
                hunks := [{ srcLine := 1, dstLine := 1, blocks := [.context [str "a"], .change [str "b"] [str "B"], .context [str "c"]] }] }] }

theorem glueDiff_ok : glueDiff.Ok where
  files := by
    intro f hf
    simp only [glueDiff, List.mem_cons, List.not_mem_nil, or_false] at hf
    subst hf
    refine ⟨⟨⟨by decide, by decide, by decide⟩, by simp, by simp⟩, ⟨⟨by decide, by decide, by decide⟩, by simp, by simp⟩, ?_, by simp⟩
    intro h hh
    simp only [List.mem_cons, List.not_mem_nil, or_false] at hh
    subst hh
    exact ⟨by decide, by decide, by simp, by simp [CBlock.NonEmpty], by simp [Alternating, CBlock.isChange], by decide, by decide⟩
  headers := by
    intro f hf
    simp only [glueDiff, List.mem_cons, List.not_mem_nil, or_false] at hf
    subst hf
    have hcvs : glueDiff.cvs = false := by decide
    simp [HeadersOk, hcvs]
  first := by
    intro f fs e t ht
    simp only [glueDiff, List.cons.injEq] at e
    rw [← e.1] at ht
    simp at ht
  later := by
    intro f fs e g hg
    simp only [glueDiff, List.cons.injEq] at e
    rw [← e.2] at hg
    simp at hg
  trailer := by simp [glueDiff]

/-- Comparing `a b c d` with `a B c d` in the context format and saving writes `aBcd`: the four lines have become one. -/
example (st : Str) : ∃ s1 m, overlayStart.slotDiffProcessFinished (overlayEnv (str "a\nb\nc\nd\n")) ⟨1, .NormalExit, glueDiff.render.flatten, st⟩ = Res.ok s1 ∧
    s1.models = some [m] ∧ SavesGlued s1 m [⟨1, [str "a\n", str "b\n", str "c\n"], [str "a\n", str "B\n", str "c\n"]⟩] (str "a\nb\nc\nd\n")
      [str "a\n", str "B\n", str "c\n", str "d\n"] := by
  obtain ⟨s1, ms, fs, h1, h2, h3, h4, h5⟩ := C57_context_defect (e := overlayEnv (str "a\nb\nc\nd\n"))
    (r := ⟨1, .NormalExit, glueDiff.render.flatten, st⟩) overlayStart_reachable rfl (by decide) rfl glueDiff rfl glueDiff_ok
    ⟨_, List.mem_cons_self .., by simp⟩ (.inr ⟨rfl, rfl, rfl⟩) (fun _ => [str "a\n", str "B\n", str "c\n", str "d\n"])
    (by
      intro f hf _
      simp only [glueDiff, List.mem_cons, List.not_mem_nil, or_false] at hf
      subst hf
      exact .edit 0 ⟨1, [str "a\n", str "b\n", str "c\n"], [str "a\n", str "B\n", str "c\n"]⟩ [] [] [str "d\n"] [str "d\n"] (by decide) (.done _ _))
  have hfs : fs = glueDiff.files := List.perm_singleton.1 h3
  subst hfs
  cases ms with
  | nil => simp [glueDiff] at h4
  | cons m ms =>
    cases ms with
    | cons _ _ => simp [glueDiff] at h4
    | nil => exact ⟨s1, m, h1, h2, (h5 0 m _ rfl rfl).2⟩

/-- In the normal format: `b` replaced by `B` and `C`. -/
example (st : Str) : ∃ s1 m, overlayStart.slotDiffProcessFinished (overlayEnv (str "a\nb\nd\n"))
      ⟨1, .NormalExit, (NCmd.render (.change 2 [str "b"] 2 [str "B", str "C"])).flatten, st⟩ = Res.ok s1 ∧
    s1.models = some [m] ∧ SavesGlued s1 m [⟨2, [str "b\n"], [str "B\n", str "C\n"]⟩] (str "a\nb\nd\n")
      [str "a\n", str "B\n", str "C\n", str "d\n"] :=
  C57_normal_defect (e := overlayEnv (str "a\nb\nd\n"))
    (r := ⟨1, .NormalExit, (NCmd.render (.change 2 [str "b"] 2 [str "B", str "C"])).flatten, st⟩) overlayStart_reachable rfl (by decide) rfl
    [.change 2 [str "b"] 2 [str "B", str "C"]] (by simp) (by
      intro c hc
      simp only [List.mem_singleton] at hc
      subst hc
      exact ⟨by simp, by decide, by decide⟩) (by simp) (by simp [NCmd.replaces]) ⟨rfl, rfl⟩ _
    (.edit 0 ⟨2, [str "b\n"], [str "B\n", str "C\n"]⟩ [] [str "a\n"] [str "d\n"] [str "d\n"] (by decide) (.done _ _))

/-- In the normal format: `x` inserted behind `b` is saved before it, as `a xb c`. -/
example (st : Str) : ∃ s1 m, overlayStart.slotDiffProcessFinished (overlayEnv (str "a\nb\nc\n"))
      ⟨1, .NormalExit, (NCmd.render (.insert 2 3 [str "x"])).flatten, st⟩ = Res.ok s1 ∧ s1.models = some [m] ∧
      ∀ ops : List UserOp, (∀ op ∈ ops, op.Ok s1) → ∃ s', runUser ops s1 = Res.ok s' ∧
        ((∀ d ∈ (s'.store m).differences, (s'.heap.cell d).applied = false) → Writes s' m (str "a\nxb\nc\n")) := by
  obtain ⟨_, s1, m, h1, h2, _, h3⟩ := C57_insert_defect (e := overlayEnv (str "a\nb\nc\n"))
    (r := ⟨1, .NormalExit, (NCmd.render (.insert 2 3 [str "x"])).flatten, st⟩) overlayStart_reachable rfl (by decide) rfl
    [str "a\n"] (str "b\n") [str "c\n"] [str "x"] 3 rfl ⟨by simp, by decide, by decide⟩ ⟨rfl, rfl⟩ (by decide)
  refine ⟨s1, m, h1, h2, fun ops hops => ?_⟩
  obtain ⟨s', a, b, _⟩ := h3 ops hops
  exact ⟨s', a, b⟩

/-- A diff that does not belong to the file: the unified diff of C26, opened for a file with other text. -/
example (t st : Str) : ∃ s1 ms, exampleCompare.slotDiffProcessFinished { exampleDir with contents := fun _ => t }
      ⟨1, .NormalExit, exampleDiff.render.flatten, st⟩ = Res.ok s1 ∧ s1.models = some ms ∧ ms.length = 2 ∧
    ∀ m ∈ ms, ∃ ks, ks ≠ [] ∧ SavesOverlay s1 m ks (original { exampleDir with contents := fun _ => t } (str "old") (s1.store m).source) := by
  obtain ⟨p, hp, _, hr⟩ := C26_unified exampleDiff exampleDiff_ok (by simp [exampleDiff]) exampleDir.win exampleDir.cmp exampleCompare.heap
  cases hms : p.models with
  | none =>
    rw [hms] at hr
    have := hr _ (List.mem_cons_self ..)
    exact absurd this (by decide)
  | some xs =>
    rw [hms] at hr
    simp only at hr
    obtain ⟨fs, hfs, hmap⟩ := perm_of_map hr.2 rfl
    have hlen : xs.length = fs.length := by simpa using congrArg List.length hmap
    obtain ⟨s1, g1, g2, g3⟩ := C57_compare (e := { exampleDir with contents := fun _ => t })
      (r := ⟨1, .NormalExit, exampleDiff.render.flatten, st⟩) exampleCompare_reachable rfl (by decide) rfl hp hms (.inl rfl)
    refine ⟨s1, _, g1, g2, by rw [List.length_range', hlen, hfs.length_eq]; decide, ?_⟩
    intro m hm
    obtain ⟨k, x, rfl, hk⟩ := mem_range_model hm
    obtain ⟨q1, _, q3⟩ := g3 k x hk
    rw [q1]
    refine ⟨_, ?_, q3⟩
    have hkl : k < fs.length := hlen ▸ (List.getElem?_eq_some_iff.1 hk).1
    have hf : fs[k]? = some fs[k] := List.getElem?_eq_getElem hkl
    generalize fs[k] = f at hf
    have hv : x.view p.heap = f.view (unescapePath exampleDir.win) := by
      have := congrArg (fun l => l[k]?) hmap
      simp only [List.getElem?_map, hk, hf, Option.map_some, Option.some.injEq] at this
      exact this
    have hfm : f ∈ exampleDiff.files.filter UFile.changes := hfs.mem_iff.1 (List.mem_of_getElem? hf)
    have hh : x.hunks.map (Hunk.view p.heap) = f.hunks.map UHunk.view := congrArg MView.hunks hv
    rw [hh]
    rw [List.mem_filter] at hfm
    have hfm := hfm.1
    simp only [exampleDiff, List.mem_cons, List.not_mem_nil, or_false] at hfm
    rcases hfm with rfl | rfl <;> simp

/-- The same for a patch opened for a file: a normal diff. -/
example (t : Str) : ∃ s1, ((MLState.init none true ⟨fun _ => Diff.new 0 0 .Unchanged, 0⟩).setInfo
      (some { mode := .BlendingFile, localSource := str "old", localDestination := str "p" })).openAndDiff
        { (overlayEnv t) with contents := fun q => if q = str "p" then (exampleNormal.flatMap NCmd.render).flatten else t } = Res.ok (s1, true) ∧
    ∃ m, s1.models = some [m] ∧ (∀ d ∈ (s1.store m).differences, (s1.heap.cell d).applied = true) ∧
      SavesOverlay s1 m (exampleNormal.map NCmd.view) t := by
  obtain ⟨x, h', hp, hv⟩ := C32_normal exampleNormal exampleNormal_ok (by simp [exampleNormal]) false emptyEnv.cmp ⟨fun _ => Diff.new 0 0 .Unchanged, 0⟩
  obtain ⟨s1, g1, g2, g3⟩ := C57_patch
    (e := { (overlayEnv t) with contents := fun q => if q = str "p" then (exampleNormal.flatMap NCmd.render).flatten else t })
    (s := (MLState.init none true ⟨fun _ => Diff.new 0 0 .Unchanged, 0⟩).setInfo
      (some { mode := .BlendingFile, localSource := str "old", localDestination := str "p" }))
    ⟨none, true, ⟨fun _ => Diff.new 0 0 .Unchanged, 0⟩, [.setInfo (some { mode := .BlendingFile, localSource := str "old", localDestination := str "p" })], rfl⟩
    rfl hp rfl (.inr ⟨rfl, rfl, rfl⟩)
  obtain ⟨_, q2, q3⟩ := g3 0 x rfl
  refine ⟨s1, g1, _, g2, q2, ?_⟩
  have hhk : x.hunks.map (Hunk.view h') = exampleNormal.map NCmd.view := congrArg MView.hunks hv
  dsimp only at q3
  rw [hhk] at q3
  exact q3

/-- A hunk that applies to the old text of C34. -/
def agreeHunk : HView :=
  { srcLine := 3, dstLine := 3, function := [], type := .Normal,
    diffs := [unchanged 3 3 [str "x\n"], { unchanged 4 4 [str "old\n"] with type := .Change, dst := [str "new"] }] }

example : overlay HView.new 1 [agreeHunk] (split exampleOld) = exampleNew ∧ overlay HView.old 1 [agreeHunk] (split exampleOld) = split exampleOld :=
  C57_agrees (a := 0) (ks := [agreeHunk]) example_patches

end KompareDiff2
