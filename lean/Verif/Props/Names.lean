import Verif.Props.EndToEnd
/-
C43: which names the models have after opening a patch or a comparison.
-/
namespace KompareDiff2
open Spec

/-- **C43.** When a patch was opened for a file or a directory, whatever its format is, the models are those of the parsed patch in this
order; their names, both of them, are the names in the patch without the leading components, and their differences are marked as
`Info.applied` says. -/
theorem C43_patch_names {e : Env} {s s1 : MLState} {i : Info} (hs : Reachable s) (hi : s.info = some i) (h : s.openAndDiff e = Res.ok (s1, true)) :
    ∃ r xs ms, parse e.win e.cmp s.heap (split (e.contents i.localDestination)) = Res.ok r ∧ r.models = some xs ∧ s1.models = some ms ∧
      ms.length = xs.length ∧ ∀ (k m : Nat) (x : DModel), ms[k]? = some m → xs[k]? = some x →
        (s1.store m).source = lstripSeparators x.source i.depth ∧ (s1.store m).destination = lstripSeparators x.destination i.depth ∧
        ∀ d ∈ (s1.store m).differences, (s1.heap.cell d).applied = i.applied := by
  unfold MLState.openAndDiff at h
  rw [hi] at h
  obtain ⟨⟨t, ok⟩, h1, h⟩ := Res.bind_eq_ok.1 h
  obtain ⟨wt, _, _, r, hr, hh, hf, ht⟩ := parseDiffOutput_spec (hs.wf.keep (keep_clear s)) h1
  obtain ⟨_, ⟨j, i', hj, hi', hso⟩, _⟩ := parseDiffOutput_events h1
  have hj : s.info = some j := hj
  have hij : j = i := Option.some.inj (hj.symm.trans hi)
  subst hij
  have hdp : i'.depth = j.depth := by
    unfold Info.SameOperands at hso
    have q := congrArg Info.depth hso
    exact q
  have hap : i'.applied = j.applied := by
    unfold Info.SameOperands at hso
    have q := congrArg Info.applied hso
    exact q
  dsimp only at h
  split at h
  · cases h
  · rename_i hok
    obtain ⟨xs, m, d, hx, ho, ha, hst⟩ := ht (by simpa using hok)
    obtain ⟨u, hu, ou, wu, ku, su, iu, dep⟩ := setDepth_ready ho wt ⟨0, 0, m, d, ha⟩ hi'
    rw [hu, Res.bind_ok] at h
    obtain ⟨⟨v, b⟩, hv, h⟩ := Res.bind_eq_ok.1 h
    have nv := named_blendOriginal hv
    obtain ⟨v', b', hv', ov, wv, kv, _⟩ := blendOriginal_ok e ou wu j.localSource su
    have e1 := Res.ok.inj (hv.symm.trans hv')
    cases e1
    dsimp only at h nv
    split at h
    · cases h
    · obtain ⟨w, hw, h⟩ := Res.bind_eq_ok.1 h
      cases h
      obtain ⟨a1, a2, a3⟩ := named_update hw
      have b1 : w.show_.store = v.store := a1
      have b2 : w.show_.heap = v.heap := a2
      have b3 : w.show_.models = v.models := a3
      refine ⟨r, xs, _, hr, hx, b3.trans ov.models, by rw [List.length_range'], fun k m x hk hxk => ?_⟩
      have hm : m = s.clear.nextModel + k := range_getElem hk
      have hmem : m ∈ List.range' s.clear.nextModel xs.length := List.mem_of_getElem? hk
      obtain ⟨q1, q2, q3, q4, _⟩ := hst k x hxk
      rw [← hm] at q2 q3 q4
      rw [b1, b2]
      refine ⟨?_, ?_, ?_⟩
      · rw [nv.source, dep.source, if_pos hmem, q3, hdp]
      · rw [nv.destination, dep.destination, if_pos hmem, q4, hdp]
      · intro d hd
        have hd' : d ∈ (u.store m).differences := (kv.differences m) ▸ hd
        have hd'' : d ∈ (t.store m).differences := (dep.differences m) ▸ hd'
        rw [nv.heap.2 d (wu.diffs _ (wu.models _ (by rw [ou.models]; exact hmem)) d hd'), ← hap]
        exact dep.applied m hmem d hd''

/-- **C43.** After a comparison the names are those in the output of the diff program, and nothing is marked as applied. -/
theorem C43_compare_names {e : Env} {s s1 : MLState} {q : ProcessResult} (hs : Reachable s) (hq : q.finishedNormally = true)
    (h : s.slotDiffProcessFinished e q = Res.ok s1) {r : ParseResult} {xs : List DModel}
    (hr : parse e.win e.cmp s.heap (split q.stdout) = Res.ok r) (hx : r.models = some xs) :
    ∃ ms, s1.models = some ms ∧ ms.length = xs.length ∧ ∀ (k m : Nat) (x : DModel), ms[k]? = some m → xs[k]? = some x →
        (s1.store m).source = x.source ∧ (s1.store m).destination = x.destination ∧
        ∀ d ∈ (s1.store m).differences, (s1.heap.cell d).applied = false := by
  unfold MLState.slotDiffProcessFinished at h
  dsimp only at h
  rw [if_pos hq] at h
  obtain ⟨⟨t, ok⟩, h1, h⟩ := Res.bind_eq_ok.1 h
  obtain ⟨wt, _, _, r', hr', hh, hf, ht⟩ := parseDiffOutput_spec (hs.wf.keep (keep_emit s _)) h1
  have er : r' = r := Res.ok.inj (hr'.symm.trans hr)
  subst er
  cases ok with
  | false => rw [(hf rfl).1] at hx; cases hx
  | true =>
    obtain ⟨xs', m, d, hx', ho, ha, hst⟩ := ht rfl
    have : xs' = xs := Option.some.inj (hx'.symm.trans hx)
    subst this
    have app : ∀ (k : Nat) (x : DModel), xs'[k]? = some x → ∀ d ∈ x.differences, (t.heap.cell d).applied = false := by
      intro k x hk d hd
      rw [hh]
      exact (((parse_models hr).2 xs' hx).2.each x (List.mem_of_getElem? hk)).1.fresh_cell hd
    have fin : ∀ v : MLState, Named t v → (∀ x, (v.store x).differences = (t.store x).differences) → v.models = t.models →
        ∃ ms, v.models = some ms ∧ ms.length = xs'.length ∧ ∀ (k m : Nat) (x : DModel), ms[k]? = some m → xs'[k]? = some x →
          (v.store m).source = x.source ∧ (v.store m).destination = x.destination ∧ ∀ d ∈ (v.store m).differences, (v.heap.cell d).applied = false := by
      intro v n hd hm
      refine ⟨_, hm.trans ho.models, by rw [List.length_range'], fun k m x hk hxk => ?_⟩
      have hmk : m = (s.emit (.status .Parsing)).nextModel + k := range_getElem hk
      have hmem := List.mem_of_getElem? hk
      obtain ⟨q1, q2, q3, q4, _⟩ := hst k x hxk
      rw [← hmk] at q2 q3 q4
      refine ⟨(n.source m).trans q3, (n.destination m).trans q4, fun d hd' => ?_⟩
      have hd' : d ∈ (t.store m).differences := hd m ▸ hd'
      rw [n.heap.2 d (wt.diffs _ (wt.models _ (by rw [ho.models]; exact hmem)) d hd')]
      exact app k x hxk d (q2 ▸ hd')
    simp only [Bool.true_eq_false, if_false] at h
    split at h
    · cases h
    · rename_i i hi
      split at h
      · obtain ⟨⟨v, b⟩, hv, h⟩ := Res.bind_eq_ok.1 h
        obtain ⟨v0, hv0, h⟩ := Res.bind_eq_ok.1 h
        cases hv0
        obtain ⟨v', b', hv', ov, wv, kv, _⟩ := blendOriginal_ok e ho wt i.localSource ⟨0, 0, m, d, ha⟩
        have e1 := Res.ok.inj (hv.symm.trans hv')
        cases e1
        have nv := named_blendOriginal hv
        dsimp only at h nv
        obtain ⟨w, hw, h⟩ := Res.bind_eq_ok.1 h
        obtain ⟨w1, hw1, h⟩ := Res.bind_eq_ok.1 h
        cases hw1
        obtain ⟨w2, hw2, h⟩ := Res.bind_eq_ok.1 h
        cases hw2
        cases h
        obtain ⟨a1, a2, a3⟩ := named_update hw
        obtain ⟨ms, g1, g2, g3⟩ := fin v nv kv.differences (ov.models.trans ho.models.symm)
        refine ⟨ms, a3.trans g1, g2, fun k m x hk hxk => ?_⟩
        obtain ⟨p1, p2, p3⟩ := g3 k m x hk hxk
        have b1 : ∀ y : MLState, y.store = w.store → y.heap = w.heap → (y.store m).source = x.source ∧ (y.store m).destination = x.destination ∧
            ∀ d ∈ (y.store m).differences, (y.heap.cell d).applied = false := by
          intro y y1 y2
          rw [y1, y2, a1, a2]; exact ⟨p1, p2, p3⟩
        exact b1 _ rfl rfl
      · obtain ⟨v0, hv0, h⟩ := Res.bind_eq_ok.1 h
        cases hv0
        obtain ⟨w, hw, h⟩ := Res.bind_eq_ok.1 h
        obtain ⟨w1, hw1, h⟩ := Res.bind_eq_ok.1 h
        cases hw1
        obtain ⟨w2, hw2, h⟩ := Res.bind_eq_ok.1 h
        cases hw2
        cases h
        obtain ⟨a1, a2, a3⟩ := named_update hw
        obtain ⟨ms, g1, g2, g3⟩ := fin t (.refl t) (fun _ => rfl) rfl
        refine ⟨ms, a3.trans g1, g2, fun k m x hk hxk => ?_⟩
        obtain ⟨p1, p2, p3⟩ := g3 k m x hk hxk
        have b1 : ∀ y : MLState, y.store = w.store → y.heap = w.heap → (y.store m).source = x.source ∧ (y.store m).destination = x.destination ∧
            ∀ d ∈ (y.store m).differences, (y.heap.cell d).applied = false := by
          intro y y1 y2
          rw [y1, y2, a1, a2]; exact ⟨p1, p2, p3⟩
        exact b1 _ rfl rfl

/-- The hypotheses are met: the file `b.txt` and a patch for it. -/
example : ∃ s s1 i, Reachable s ∧ s.info = some i ∧ s.openAndDiff examplePatch = Res.ok (s1, true) := by
  have hr : Reachable ((MLState.init none true ⟨fun _ => Diff.new 0 0 .Unchanged, 0⟩).setInfo
      (some { mode := .BlendingFile, localSource := str "b.txt", localDestination := str "p.diff" })) :=
    ⟨none, true, ⟨fun _ => Diff.new 0 0 .Unchanged, 0⟩, [.setInfo (some { mode := .BlendingFile, localSource := str "b.txt", localDestination := str "p.diff" })], rfl⟩
  obtain ⟨s1, ms, fs, h1, _⟩ := C48_patch (e := examplePatch) hr
    rfl exampleOne (show (if str "p.diff" = str "p.diff" then exampleOne.render.flatten else exampleOld) = _ from if_pos rfl) exampleOne_ok ⟨_, List.mem_cons_self .., by decide⟩ (.inr ⟨rfl, rfl, by decide⟩) (fun _ => exampleNew) (by
      intro f hf hc
      simp only [exampleOne, exampleDiff, List.take_succ_cons, List.take_zero, List.mem_cons, List.not_mem_nil, or_false] at hf
      subst hf
      exact example_patches)
  exact ⟨_, s1, _, hr, rfl, h1⟩

/-- The hypotheses are met by the example comparison. -/
example (st : Str) : ∃ s1 ms, exampleCompare.slotDiffProcessFinished exampleDir ⟨1, .NormalExit, exampleDiff.render.flatten, st⟩ = Res.ok s1 ∧
    s1.models = some ms ∧ ms.length = 2 := by
  obtain ⟨s1, ms, fs, h1, h2, h3, h4, _⟩ := C48_compare (e := exampleDir) (r := ⟨1, .NormalExit, exampleDiff.render.flatten, st⟩)
    exampleCompare_reachable rfl (by decide) rfl exampleDiff rfl exampleDiff_ok ⟨_, List.mem_cons_self .., by decide⟩ (.inl (by decide))
    exampleNews example_originals
  exact ⟨s1, ms, h1, h2, by rw [h4, h3.length_eq]; decide⟩

end KompareDiff2
