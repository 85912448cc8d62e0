import Verif.Proofs.Perforce
import Verif.Props.Normal
/-
**C50.** Diffs written by Perforce, in the unified, the context and the normal format.
-/
namespace KompareDiff2
open Spec Re

theorem p4_result (k : P4Kind) (d : P4Diff) (ok : d.Ok k) (hne : d.files ≠ []) (win : Bool) (cmp : Str → Str → Int) (heap : Heap) :
    ∃ r, parse win cmp heap (split d.render.flatten) = Res.ok r ∧ r.malformed = false ∧
      (match r.models with
        | none => ∀ f ∈ d.files, f.changes = false
        | some ms => ms ≠ [] ∧ (ms.map (DModel.view r.heap)).Perm ((d.files.filter P4File.changes).map P4File.seen)) := by
  obtain ⟨st, h, hm, inv⟩ := parse_perforce k d ok hne win cmp heap
  refine ⟨finishParse cmp st, by rw [nlines_split _ (P4Diff.whole k d ok)]; exact h, hm, ?_⟩
  unfold finishParse
  simp only
  by_cases hz : 0 < st.models.length
  · rw [if_pos hz]
    simp only
    have hp := sortModels_perm cmp st.models
    refine ⟨?_, ?_⟩
    · intro e
      rw [e] at hp
      have := hp.length_eq
      simp only [List.length_nil] at this
      omega
    · rw [← inv.views]; exact hp.map _
  · rw [if_neg hz]
    simp only
    have h0 : st.models = [] := List.length_eq_zero_iff.1 (by omega)
    have := inv.views
    rw [h0] at this
    simp only [List.map_nil] at this
    have := List.map_eq_nil_iff.1 this.symm
    intro f hf
    have := List.filter_eq_nil_iff.1 this f hf
    simpa using this

/-- **C50.** For every well-formed Perforce diff, in any of the three formats, whose new files are named with `#` and
whose old names do not contain ` - `: the parser returns,
for every file that has a change and for no other, a model with the two file names (without the revisions) and exactly the hunks and
differences of the file, and the diff is not reported as malformed. -/
theorem C50_perforce (k : P4Kind) (d : P4Diff) (ok : d.Ok k) (hne : d.files ≠ [])
    (hr : ∀ f ∈ d.files, f.dstRevision ≠ none ∧ ¬ str " - " <:+: f.src) (win : Bool) (cmp : Str → Str → Int) (heap : Heap) :
    ∃ r, parse win cmp heap (split d.render.flatten) = Res.ok r ∧ r.malformed = false ∧
      (match r.models with
        | none => ∀ f ∈ d.files, hasChange f.body.hunks = false
        | some ms => ms ≠ [] ∧ (ms.map (DModel.view r.heap)).Perm
            ((d.files.filter (fun f => hasChange f.body.hunks)).map (fun f => p4View f.src f.dst f.body.hunks))) := by
  obtain ⟨r, h1, h2, h3⟩ := p4_result k d ok hne win cmp heap
  refine ⟨r, h1, h2, ?_⟩
  have e : (d.files.filter P4File.changes).map P4File.seen =
      (d.files.filter (fun f => hasChange f.body.hunks)).map (fun f => p4View f.src f.dst f.body.hunks) := by
    apply List.map_congr_left
    intro f hf
    obtain ⟨h1, h2⟩ := hr f (List.mem_filter.1 hf).1
    simp [P4File.seen, P4File.seenSrc, P4File.seenDst, P4File.split, h1, h2]
  rw [← e]
  exact h3

/-- **C50, defect.** A new file in the workspace, which Perforce names without `#` (`==== //depot/a#3 - /home/a ====`, the output of
`p4 diff`), loses its name: the hunks are found, but the name of the new file is empty in every model. -/
theorem C50_local_name_defect (k : P4Kind) (d : P4Diff) (ok : d.Ok k) (hne : d.files ≠ [])
    (hr : ∀ f ∈ d.files, f.dstRevision = none ∧ ¬ str " - " <:+: f.src) (win : Bool) (cmp : Str → Str → Int) (heap : Heap) :
    ∃ r, parse win cmp heap (split d.render.flatten) = Res.ok r ∧ r.malformed = false ∧
      (match r.models with
        | none => ∀ f ∈ d.files, hasChange f.body.hunks = false
        | some ms => ms ≠ [] ∧ (∀ m ∈ ms, m.destination = []) ∧ (ms.map (DModel.view r.heap)).Perm
            ((d.files.filter (fun f => hasChange f.body.hunks)).map (fun f => p4View f.src [] f.body.hunks))) := by
  obtain ⟨r, h1, h2, h3⟩ := p4_result k d ok hne win cmp heap
  refine ⟨r, h1, h2, ?_⟩
  have e : (d.files.filter P4File.changes).map P4File.seen =
      (d.files.filter (fun f => hasChange f.body.hunks)).map (fun f => p4View f.src [] f.body.hunks) := by
    apply List.map_congr_left
    intro f hf
    obtain ⟨h1, h2⟩ := hr f (List.mem_filter.1 hf).1
    simp [P4File.seen, P4File.seenSrc, P4File.seenDst, P4File.split, h1, h2]
  rw [e] at h3
  cases hm : r.models with
  | none => rw [hm] at h3; exact h3
  | some ms =>
    rw [hm] at h3
    refine ⟨h3.1, ?_, h3.2⟩
    intro m hms
    have : m.view r.heap ∈ (d.files.filter (fun f => hasChange f.body.hunks)).map (fun f => p4View f.src [] f.body.hunks) :=
      h3.2.mem_iff.1 (List.mem_map.2 ⟨m, hms, rfl⟩)
    obtain ⟨f, _, hf⟩ := List.mem_map.1 this
    exact (congrArg MView.destination hf).symm

/-- **C50, defect.** A text that Perforce is recognised for but that has no line `==== … - … ====`, as written by `p4 diff2`, which puts a
word after the second `====`: nothing is found, whatever changes follow, and nothing is reported. -/
theorem C50_diff2_defect (ls : List Str) (hg : ∃ pre l post, ls = pre ++ l :: post ∧ str "==== " <+: l ∧ ∀ l' ∈ pre, ¬ str "Index: " <+: l')
    (hh : ∀ l ∈ ls, ¬ PerforceHeaderLine l) (hq : ∀ l ∈ ls, ¬ str "\\ No newline" <+: l) (win : Bool) (cmp : Str → Str → Int) (heap : Heap) :
    parse win cmp heap ls = Res.ok { models := none, malformed := false, heap := heap } := by
  have hn : ∀ l ∈ ls, reP4Header.full l = none := fun l hl => (Re.full_none _ _).2 (fun x => hh l hl ((p4Header_lang l).1 x))
  have hend : ∀ st : PState, st.rest = ls → p4Header st st.rest = ({ st with rest := [] }, false) := by
    intro st e
    have := p4Header_skip st ls [] hn
    rw [List.append_nil] at this
    rw [e, this]; rfl
  unfold parse
  rw [(generator_iff ls).2.2 hg, clean_quiet ls hq]
  simp only [Res.bind_ok, parseLines]
  cases determineFormat .Perforce ls <;>
    simp [contextFiles, normalFiles, unifiedFiles, fileLoop, parseContextDiffHeader, parseUnifiedDiffHeader, parseNormalDiffHeader, hend, finishParse]

/-- **C50, defect.** An old file whose name contains ` - ` loses both names: the hunks are found, but both names are empty. -/
theorem C50_separator_defect (k : P4Kind) (d : P4Diff) (ok : d.Ok k) (hne : d.files ≠ []) (hr : ∀ f ∈ d.files, str " - " <:+: f.src)
    (win : Bool) (cmp : Str → Str → Int) (heap : Heap) :
    ∃ r, parse win cmp heap (split d.render.flatten) = Res.ok r ∧ r.malformed = false ∧
      (match r.models with
        | none => ∀ f ∈ d.files, hasChange f.body.hunks = false
        | some ms => ms ≠ [] ∧ (∀ m ∈ ms, m.source = [] ∧ m.destination = []) ∧ (ms.map (DModel.view r.heap)).Perm
            ((d.files.filter (fun f => hasChange f.body.hunks)).map (fun f => p4View [] [] f.body.hunks))) := by
  obtain ⟨r, h1, h2, h3⟩ := p4_result k d ok hne win cmp heap
  refine ⟨r, h1, h2, ?_⟩
  have e : (d.files.filter P4File.changes).map P4File.seen =
      (d.files.filter (fun f => hasChange f.body.hunks)).map (fun f => p4View [] [] f.body.hunks) := by
    apply List.map_congr_left
    intro f hf
    have h2 := hr f (List.mem_filter.1 hf).1
    simp [P4File.seen, P4File.seenSrc, P4File.seenDst, P4File.split, h2]
  rw [e] at h3
  cases hm : r.models with
  | none => rw [hm] at h3; exact h3
  | some ms =>
    rw [hm] at h3
    refine ⟨h3.1, ?_, h3.2⟩
    intro m hms
    have : m.view r.heap ∈ (d.files.filter (fun f => hasChange f.body.hunks)).map (fun f => p4View [] [] f.body.hunks) :=
      h3.2.mem_iff.1 (List.mem_map.2 ⟨m, hms, rfl⟩)
    obtain ⟨f, _, hf⟩ := List.mem_map.1 this
    exact ⟨(congrArg MView.source hf).symm, (congrArg MView.destination hf).symm⟩

/-- **C50.** All cases together, also mixed within one diff: which names are lost is decided for each file on its own, the hunks and
differences are always found. -/
theorem C50_each_file (k : P4Kind) (d : P4Diff) (ok : d.Ok k) (hne : d.files ≠ []) (win : Bool) (cmp : Str → Str → Int) (heap : Heap) :
    ∃ r, parse win cmp heap (split d.render.flatten) = Res.ok r ∧ r.malformed = false ∧
      (match r.models with
        | none => ∀ f ∈ d.files, hasChange f.body.hunks = false
        | some ms => ms ≠ [] ∧ (ms.map (DModel.view r.heap)).Perm
            ((d.files.filter (fun f => hasChange f.body.hunks)).map (fun f =>
              p4View (if str " - " <:+: f.src then [] else f.src)
                (if str " - " <:+: f.src ∨ f.dstRevision = none then [] else f.dst) f.body.hunks))) := by
  obtain ⟨r, h1, h2, h3⟩ := p4_result k d ok hne win cmp heap
  refine ⟨r, h1, h2, ?_⟩
  have e : (d.files.filter P4File.changes).map P4File.seen =
      (d.files.filter (fun f => hasChange f.body.hunks)).map (fun f =>
        p4View (if str " - " <:+: f.src then [] else f.src)
          (if str " - " <:+: f.src ∨ f.dstRevision = none then [] else f.dst) f.body.hunks) := by
    apply List.map_congr_left
    intro f _
    by_cases h1 : str " - " <:+: f.src <;> by_cases h2 : f.dstRevision = none <;>
      simp [P4File.seen, P4File.seenSrc, P4File.seenDst, P4File.split, h1, h2]
  rw [← e]
  exact h3

/-! ### Examples -/

/-- A file diff with given names and changes. -/
def exampleP4File (src : String) (rev : Nat) (dst : String) (r : Option (Option Nat)) (b : P4Body) : P4File :=
  { src := str src, srcRevision := rev, dst := str dst, dstRevision := r, body := b }

/-- Changes in the unified format, without a final newline in the new file. -/
def exampleP4Unified : P4Body :=
  .unified [{ srcLine := 3, dstLine := 3, function := some (str "int main()"), blocks := [.context [{ text := str "x" }],
    .change [{ text := str "old" }] [{ text := str "new", eol := false }]] }]

theorem exampleP4Unified_ok : exampleP4Unified.Ok := by
  intro h hh
  rw [List.mem_singleton.1 hh]
  exact ⟨⟨by decide, by decide, by decide, by decide⟩, ⟨by decide, by decide, by decide, by decide⟩,
    by intro f hf; simp only [Option.some.injEq] at hf; subst hf; decide,
    by intro b hb; simp only [List.mem_cons, List.not_mem_nil, or_false] at hb; rcases hb with rfl | rfl <;> simp [Block.NonEmpty],
    by simp [SeparatedBlocks, Block.Separated], by decide⟩

/-- Two files, the second without changes, and lines around them. -/
def exampleP4 (src dst : String) (r : Option (Option Nat)) (b e : P4Body) : P4Diff where
  files := [{ exampleP4File src 3 dst r b with preamble := [str "Change 12 by me"] },
    { exampleP4File src 12 dst r e with preamble := [str "diff of a file without changes"] }]
  trailer := [str "-- ", str "end"]

theorem exampleP4_ok (src dst : String) (r : Option (Option Nat)) (b e : P4Body) (hs : str src ≠ [] ∧ '#' ∉ str src ∧ '\n' ∉ str src)
    (hd : str dst ≠ [] ∧ '#' ∉ str dst ∧ '\n' ∉ str dst) (hb : b.Ok) (he : e.Ok) (hk : e.kind = b.kind) :
    (exampleP4 src dst r b e).Ok b.kind := by
  have bt : ∀ t ∈ [str "Change 12 by me", str "diff of a file without changes", str "-- "], P4Between t := by
    unfold P4Between
    intro t ht
    simp only [List.mem_cons, List.not_mem_nil, or_false] at ht
    rcases ht with rfl | rfl | rfl <;>
      refine ⟨by decide, by decide, by decide, by decide, by decide, ?_, ?_⟩ <;> simp [str] <;> intros <;> simp_all <;> decide
  have b2 : ∀ t ∈ [str "end"], P4Between t := by
    unfold P4Between
    intro t ht
    simp only [List.mem_cons, List.not_mem_nil, or_false] at ht
    subst ht
    refine ⟨by decide, by decide, by decide, by decide, by decide, ?_, ?_⟩ <;> simp [str]
  refine ⟨?_, ?_, ?_, ?_⟩
  · intro f hf
    simp only [exampleP4, List.mem_cons, List.not_mem_nil, or_false] at hf
    rcases hf with rfl | rfl
    · exact ⟨⟨hs, hd, fun t ht => bt t (by rw [List.mem_singleton.1 ht]; simp), hb⟩, rfl⟩
    · exact ⟨⟨hs, hd, fun t ht => bt t (by rw [List.mem_singleton.1 ht]; simp), he⟩, hk⟩
  · intro f fs h t ht
    simp only [exampleP4, List.cons.injEq] at h
    rw [← h.1] at ht
    rw [List.mem_singleton.1 ht]; decide
  · intro f fs h g hg t ts ht
    simp only [exampleP4, List.cons.injEq] at h
    rw [← h.2] at hg
    rw [List.mem_singleton.1 hg] at ht
    simp only [List.cons.injEq] at ht
    rw [← ht.1]; right; left; decide
  · refine ⟨?_, ?_⟩
    · intro t ht
      simp only [exampleP4, List.mem_cons, List.not_mem_nil, or_false] at ht
      rcases ht with rfl | rfl
      · exact bt _ (by simp)
      · exact b2 _ (by simp)
    · intro t ts h
      simp only [exampleP4, List.cons.injEq] at h
      rw [← h.1]; right; right; decide

/-- Changes in the context format. -/
def exampleP4Context : P4Body :=
  .context [{ srcLine := 1, dstLine := 1, blocks := [.context [str "a", str "b"], .insert [str "c"]] }]

theorem exampleP4Context_ok : exampleP4Context.Ok := by
  intro h hh
  rw [List.mem_singleton.1 hh]
  refine ⟨by decide, by decide, by simp, ?_, ?_, ⟨.insert [str "c"], by simp, rfl⟩, ?_⟩
  · intro b hb
    simp only [List.mem_cons, List.not_mem_nil, or_false] at hb
    rcases hb with rfl | rfl <;> simp [CBlock.NonEmpty]
  · simp [Alternating, CBlock.isChange]
  · decide

/-- Only the first file has changes. -/
theorem exampleP4_filter (src dst : String) (r : Option (Option Nat)) (b e : P4Body) (hb : hasChange b.hunks = true)
    (he : hasChange e.hunks = false) (g : P4File → MView) :
    ((exampleP4 src dst r b e).files.filter (fun f => hasChange f.body.hunks)).map g =
      [g { exampleP4File src 3 dst r b with preamble := [str "Change 12 by me"] }] := by
  simp [exampleP4, exampleP4File, hb, he]

theorem exampleP4_has (src dst : String) (r : Option (Option Nat)) (b e : P4Body) (hb : hasChange b.hunks = true) :
    ∃ f ∈ (exampleP4 src dst r b e).files, hasChange f.body.hunks = true :=
  ⟨_, List.mem_cons_self, hb⟩

theorem exampleP4_names (src dst : String) (r : Option (Option Nat)) (b e : P4Body) (p : Str → Option (Option Nat) → Prop)
    (h : p (str src) r) : ∀ f ∈ (exampleP4 src dst r b e).files, p f.src f.dstRevision := by
  intro f hf
  simp only [exampleP4, List.mem_cons, List.not_mem_nil, or_false] at hf
  rcases hf with rfl | rfl <;> exact h

/-- From the general theorem to one model. -/
theorem p4_one {r : ParseResult} {d : P4Diff} {v : MView} {q : Str → Str → Prop} (hm : r.malformed = false)
    (h : match r.models with
      | none => ∀ f ∈ d.files, hasChange f.body.hunks = false
      | some ms => ms ≠ [] ∧ (∀ m ∈ ms, q m.source m.destination) ∧ (ms.map (DModel.view r.heap)).Perm [v])
    (hc : ∃ f ∈ d.files, hasChange f.body.hunks = true) :
    ∃ m, r = { models := some [m], malformed := false, heap := r.heap } ∧ m.view r.heap = v := by
  cases r with
  | mk models malformed heap =>
    simp only at hm h
    subst hm
    cases models with
    | none =>
      obtain ⟨f, hf, hc⟩ := hc
      have := h f hf
      rw [hc] at this; simp at this
    | some ms =>
      have := h.2.2.length_eq
      match ms, h, this with
      | [m], h, _ => exact ⟨m, rfl, by simpa using h.2.2⟩

/-- A unified diff: the old name contains spaces and the new one ` - `; only the file with changes is returned. -/
example (win : Bool) (cmp : Str → Str → Int) (heap : Heap) : ∃ m h',
    parse win cmp heap (split (exampleP4 "//depot/a b.c" "//depot/c - d.c" (some (some 14)) exampleP4Unified (.unified [])).render.flatten) =
      Res.ok { models := some [m], malformed := false, heap := h' } ∧
    m.view h' = p4View (str "//depot/a b.c") (str "//depot/c - d.c") exampleP4Unified.hunks := by
  obtain ⟨r, h1, h2, h3⟩ := C50_perforce .unified (exampleP4 "//depot/a b.c" "//depot/c - d.c" (some (some 14)) exampleP4Unified (.unified []))
    (exampleP4_ok _ _ _ _ _ (by decide) (by decide) exampleP4Unified_ok (by intro h hh; simp at hh) rfl) (by simp [exampleP4])
    (exampleP4_names _ _ _ _ _ (fun s r => r ≠ none ∧ ¬ str " - " <:+: s) ⟨by simp, fun h => absurd (h.subset (show '-' ∈ str " - " by decide)) (by decide)⟩) win cmp heap
  rw [exampleP4_filter _ _ _ _ _ (by decide) (by decide)] at h3
  obtain ⟨m, e, hv⟩ := p4_one (q := fun _ _ => True) (v := p4View (str "//depot/a b.c") (str "//depot/c - d.c") exampleP4Unified.hunks) h2
    (by
      cases hm : r.models with
      | none => rw [hm] at h3; exact h3
      | some ms => rw [hm] at h3; exact ⟨h3.1, fun _ _ => trivial, h3.2⟩) (exampleP4_has _ _ _ _ _ (by decide))
  exact ⟨m, r.heap, by rw [h1]; exact congrArg _ e, hv⟩

/-- The text of that example. -/
example : (exampleP4 "//depot/a b.c" "//depot/c - d.c" (some (some 14)) exampleP4Unified (.unified [])).render.flatten =
    str ("Change 12 by me\n==== //depot/a b.c#3 - //depot/c - d.c#14 ====\n@@ -3,2 +3,2 @@ int main()\n x\n-old\n+new\n" ++
      "\\ No newline at end of file\ndiff of a file without changes\n==== //depot/a b.c#12 - //depot/c - d.c#14 ====\n-- \nend\n") := by
  simp [exampleP4, exampleP4File, exampleP4Unified, P4Diff.render, P4File.render, P4File.header, P4Body.render, revisionText, UHunk.render, UHunk.header, Spec.range, UHunk.srcCount, UHunk.dstCount, Block.old, Block.new, Block.render, decNat, str]
  decide

/-- A context diff. -/
example (win : Bool) (cmp : Str → Str → Int) (heap : Heap) : ∃ m h',
    parse win cmp heap (split (exampleP4 "//depot/a b.c" "//depot/c" (some none) exampleP4Context (.context [])).render.flatten) =
      Res.ok { models := some [m], malformed := false, heap := h' } ∧
    m.view h' = p4View (str "//depot/a b.c") (str "//depot/c") exampleP4Context.hunks := by
  obtain ⟨r, h1, h2, h3⟩ := C50_perforce .context (exampleP4 "//depot/a b.c" "//depot/c" (some none) exampleP4Context (.context []))
    (exampleP4_ok _ _ _ _ _ (by decide) (by decide) exampleP4Context_ok (by intro h hh; simp at hh) rfl) (by simp [exampleP4])
    (exampleP4_names _ _ _ _ _ (fun s r => r ≠ none ∧ ¬ str " - " <:+: s) ⟨by simp, fun h => absurd (h.subset (show '-' ∈ str " - " by decide)) (by decide)⟩) win cmp heap
  rw [exampleP4_filter _ _ _ _ _ (by decide) (by decide)] at h3
  obtain ⟨m, e, hv⟩ := p4_one (q := fun _ _ => True) (v := p4View (str "//depot/a b.c") (str "//depot/c") exampleP4Context.hunks) h2
    (by
      cases hm : r.models with
      | none => rw [hm] at h3; exact h3
      | some ms => rw [hm] at h3; exact ⟨h3.1, fun _ _ => trivial, h3.2⟩) (exampleP4_has _ _ _ _ _ (by decide))
  exact ⟨m, r.heap, by rw [h1]; exact congrArg _ e, hv⟩

/-- A normal diff of files in the workspace. -/
example (win : Bool) (cmp : Str → Str → Int) (heap : Heap) : ∃ m h',
    parse win cmp heap (split (exampleP4 "//depot/a" "/home/me/a" none (.normal exampleNormal) (.normal [])).render.flatten) =
      Res.ok { models := some [m], malformed := false, heap := h' } ∧
    m.view h' = p4View (str "//depot/a") [] (exampleNormal.map NCmd.view) := by
  obtain ⟨r, h1, h2, h3⟩ := C50_local_name_defect .normal (exampleP4 "//depot/a" "/home/me/a" none (.normal exampleNormal) (.normal []))
    (exampleP4_ok _ _ _ _ _ (by decide) (by decide) (show (P4Body.normal exampleNormal).Ok from exampleNormal_ok) (by intro h hh; simp at hh) rfl) (by simp [exampleP4])
    (exampleP4_names _ _ _ _ _ (fun s r => r = none ∧ ¬ str " - " <:+: s) ⟨by simp, fun h => absurd (h.subset (show '-' ∈ str " - " by decide)) (by decide)⟩) win cmp heap
  rw [exampleP4_filter _ _ _ _ _ (by decide) (by decide)] at h3
  obtain ⟨m, e, hv⟩ := p4_one (q := fun _ d => d = []) (v := p4View (str "//depot/a") [] (exampleNormal.map NCmd.view)) h2 h3
    (exampleP4_has _ _ _ _ _ (by decide))
  exact ⟨m, r.heap, by rw [h1]; exact congrArg _ e, hv⟩

/-- A name with the separator. -/
example (win : Bool) (cmp : Str → Str → Int) (heap : Heap) : ∃ m h',
    parse win cmp heap (split (exampleP4 "//depot/a - b" "//depot/c" (some (some 3)) exampleP4Unified (.unified [])).render.flatten) =
      Res.ok { models := some [m], malformed := false, heap := h' } ∧
    m.view h' = p4View [] [] exampleP4Unified.hunks := by
  obtain ⟨r, h1, h2, h3⟩ := C50_separator_defect .unified (exampleP4 "//depot/a - b" "//depot/c" (some (some 3)) exampleP4Unified (.unified []))
    (exampleP4_ok _ _ _ _ _ (by decide) (by decide) exampleP4Unified_ok (by intro h hh; simp at hh) rfl) (by simp [exampleP4])
    (exampleP4_names _ _ _ _ _ (fun s _ => str " - " <:+: s) ⟨str "//depot/a", str "b", by decide⟩) win cmp heap
  rw [exampleP4_filter _ _ _ _ _ (by decide) (by decide)] at h3
  obtain ⟨m, e, hv⟩ := p4_one (q := fun s d => s = [] ∧ d = []) (v := p4View [] [] exampleP4Unified.hunks) h2 h3
    (exampleP4_has _ _ _ _ _ (by decide))
  exact ⟨m, r.heap, by rw [h1]; exact congrArg _ e, hv⟩

/-- Output of `p4 diff2`. -/
def exampleDiff2 : List Str :=
  [str "==== //depot/a#1 (text) - //depot/b#2 (text) ==== content\n", str "1c1\n", str "< a\n", str "---\n", str "> b\n"]

/-- The change is not found. -/
example (win : Bool) (cmp : Str → Str → Int) (heap : Heap) :
    parse win cmp heap exampleDiff2 =
      Res.ok { models := none, malformed := false, heap := heap } :=
  C50_diff2_defect exampleDiff2 ⟨[], _, _, rfl, by decide, by simp⟩
    (by
      intro l hl
      simp only [exampleDiff2, List.mem_cons, List.not_mem_nil, or_false] at hl
      rintro ⟨s, t, e, _⟩
      have : str " ====\n" <:+ l := by rw [e]; exact List.suffix_append _ _
      rcases hl with rfl | rfl | rfl | rfl | rfl <;> revert this <;> decide)
    (by
      intro l hl
      simp only [exampleDiff2, List.mem_cons, List.not_mem_nil, or_false] at hl
      rcases hl with rfl | rfl | rfl | rfl | rfl <;> decide) win cmp heap

end KompareDiff2
