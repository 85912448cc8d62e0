import Verif.Proofs.Escape
import Verif.Proofs.Format
import Verif.Proofs.UnifiedDiff
import Verif.Proofs.NoHang
import Verif.Proofs.Blend
/-
Property theorems about the parser: C21-C26, C28, C31.
-/
namespace KompareDiff2
open Spec

/-! ### C21 – path escaping -/

/-- **C21.** Unescaping an escaped path gives the path back, on POSIX (`win = false`) and on Windows. -/
theorem C21_unescape_escape (win : Bool) (p : Str) : unescapePath win (escapePath win p) = p := unescape_escape win p

/-- **C21.** The escaped path contains a space only if it is enclosed in quotes; it is enclosed only for that reason. -/
theorem C21_space_only_in_quotes (win : Bool) (p : Str) :
    (' ' ∈ escapePath win p ↔ ' ' ∈ p) ∧ (' ' ∈ p ↔ ∃ q, escapePath win p = '"' :: q ++ ['"']) := by
  have hsub : ∀ (c : Char) (a : Str) (s : Str), c ≠ ' ' → ' ' ∉ a → (' ' ∈ subst1 c a s ↔ ' ' ∈ s) := by
    intro c a s hc ha
    simp only [subst1, List.mem_flatMap]
    constructor
    · rintro ⟨x, hx, h⟩
      split at h
      · exact absurd h ha
      · simp only [List.mem_singleton] at h; rw [h]; exact hx
    · intro h
      exact ⟨' ', h, by rw [if_neg (Ne.symm hc)]; simp⟩
  have hcore : ' ' ∈ escapeCore win p ↔ ' ' ∈ p := by
    unfold escapeCore
    rw [hsub _ _ _ (by decide) (by decide)]
    cases win
    · simp only [Bool.false_eq_true, if_false]; exact hsub _ _ _ (by decide) (by decide)
    · simp
  rw [escapePath_eq]
  have hhead := escapeCore_head win p
  by_cases h : ' ' ∈ escapeCore win p
  · have hc : (escapeCore win p).contains ' ' = true := by simpa using h
    rw [hc, if_pos rfl]
    exact ⟨⟨fun _ => hcore.1 h, fun _ => by simp [h]⟩, ⟨fun _ => ⟨_, rfl⟩, fun _ => hcore.1 h⟩⟩
  · have hc : (escapeCore win p).contains ' ' = false := by simpa using h
    rw [hc, if_neg (by simp)]
    refine ⟨hcore, ⟨fun h2 => absurd (hcore.2 h2) h, ?_⟩⟩
    rintro ⟨q, e⟩
    rw [e] at hhead
    simp at hhead

/-- A path with quote, backslash and space: the escaped form is as expected. -/
example : escapePath false (str "a \"b\\c") = str "\"a \\\"b\\\\c\"" ∧ escapePath true (str "a \"b\\c") = str "\"a \\\"b\\c\"" := by decide

/-! ### C22 – lines -/

/-- **C22.** `split` cuts the text into lines, loses nothing, and there is only one way to do it. -/
theorem C22_split (s : Str) :
    LineList (split s) ∧ (split s).flatten = s ∧ ∀ ls, LineList ls → ls.flatten = s → ls = split s := by
  refine ⟨splitAux_lines [] s (by simp), ?_, ?_⟩
  · simpa [split] using splitAux_flatten [] s
  · rintro ls h rfl; exact (split_flatten h).symm

/-- **C22.** Every line is non-empty, and contains a newline only as its last character; every line but the last has one. -/
theorem C22_split_lines (s : Str) :
    ∀ pre l post, split s = pre ++ l :: post →
      l ≠ [] ∧ ((∃ t, '\n' ∉ t ∧ l = t ++ ['\n']) ∨ (post = [] ∧ '\n' ∉ l)) := by
  intro pre l post e
  have h := (C22_split s).1
  refine ⟨h.ne_nil l (by simp [e]), ?_⟩
  rcases h.at pre l post e with h | h
  · exact .inl h
  · exact .inr ⟨h.1, h.2.2⟩

example : split (str "ab\n\nc") = [str "ab\n", str "\n", str "c"] := by decide

/-! ### C23 – remarks about a missing newline -/

/-- **C23.** Every list of lines either starts with a remark, or consists of lines each followed by remarks. -/
theorem C23_every_list (ls : List Str) :
    (∃ m ms, ls = m :: ms ∧ Remark m) ∨ ∃ gs : List Remarked, (∀ g ∈ gs, g.Ok) ∧ ls = gs.flatMap Remarked.raw := groups_exist ls

/-- **C23.** Cleaning removes the remarks and keeps the other lines: unchanged without remark; cut at the newline with one
remark (empty if there is no newline to cut at); emptied with more than one remark. -/
theorem C23_clean (gs : List Remarked) (h : ∀ g ∈ gs, g.Ok) :
    ∃ out, cleanUpCrap (gs.flatMap Remarked.raw) = Res.ok out ∧ out.length = gs.length ∧
      ∀ (i : Nat) (g : Remarked) (o : Str), gs[i]? = some g → out[i]? = some o →
        (g.remarks = [] → o = g.line) ∧
        (g.remarks.length = 1 → (∀ t u, '\n' ∉ t → g.line = t ++ '\n' :: u → o = t) ∧ ('\n' ∉ g.line → o = [])) ∧
        (2 ≤ g.remarks.length → o = []) := by
  refine ⟨_, cleanUpLoop_groups gs h [], by simp, ?_⟩
  intro i g o hg ho
  simp only [List.nil_append, List.getElem?_map, hg, Option.map_some, Option.some.injEq] at ho
  rw [foldl_truncate] at ho
  refine ⟨?_, ?_, ?_⟩
  · intro h0; simpa [h0] using ho.symm
  · intro h1
    rw [h1] at ho
    simp only at ho
    refine ⟨?_, ?_⟩
    · intro t u ht e
      rw [← ho, e]
      unfold truncateAtNewline
      rw [if_pos (by simp), List.takeWhile_append_of_pos]
      · simp
      · intro a ha
        have : a ≠ '\n' := fun e => ht (e ▸ ha)
        simpa using this
    · intro hn; rw [← ho]; exact truncate_nil _ hn
  · intro h2
    split at ho
    · omega
    · omega
    · exact ho.symm

/-- **C23 (defect).** A list starting with a remark: the code moves an iterator in front of the first line (undefined behaviour). -/
theorem C23_leading_remark_ub (m : Str) (ms : List Str) (h : Remark m) : cleanUpCrap (m :: ms) = Res.ub := by
  have : (str "\\ No newline").isPrefixOf m = true := by rw [List.isPrefixOf_iff_prefix]; exact h
  simp [cleanUpCrap, cleanUpLoop, this]

/-- **C23.** Without remarks nothing changes. -/
theorem C23_clean_plain (ls : List Str) (h : ∀ l ∈ ls, ¬ Remark l) : cleanUpCrap ls = Res.ok ls := by
  have := cleanUpLoop_groups (ls.map (fun l => ⟨l, []⟩)) (by
    intro g hg
    obtain ⟨l, hl, rfl⟩ := List.mem_map.1 hg
    exact ⟨h l hl, by simp⟩) []
  simp only [List.flatMap_map, Remarked.raw, List.map_map, List.nil_append] at this
  unfold cleanUpCrap
  have e1 : (ls.flatMap fun a => [a]) = ls := by induction ls with | nil => rfl | cons a ls _ => simp
  have e2 : List.map ((fun g : Remarked => List.foldl (fun l _ => truncateAtNewline l) g.line g.remarks) ∘ fun l => { line := l, remarks := [] }) ls = ls := by
    conv => rhs; rw [← List.map_id ls]
    rfl
  rw [e1, e2] at this
  exact this

example : cleanUpCrap [str "-a\n", str "\\ No newline at end of file\n", str "+b\n"] = Res.ok [str "-a", str "+b\n"] := by decide
example : Remarked.Ok ⟨str "-a\n", [str "\\ No newline at end of file\n"]⟩ := by
  refine ⟨?_, ?_⟩
  · unfold Remark; decide
  · intro m hm; simp only [List.mem_singleton] at hm; subst hm; unfold Remark; decide

/-! ### C24 – generator -/

/-- **C24.** A diff is taken for CVS iff an `Index: ` line occurs that no `==== ` line precedes; for Perforce iff a `==== ` line
occurs that no `Index: ` line precedes; otherwise for the output of plain diff. -/
theorem C24_generator (ls : List Str) :
    (determineGenerator ls = .CVSDiff ↔ ∃ pre l post, ls = pre ++ l :: post ∧ str "Index: " <+: l ∧ ∀ l' ∈ pre, ¬ str "==== " <+: l') ∧
    (determineGenerator ls = .Perforce ↔ ∃ pre l post, ls = pre ++ l :: post ∧ str "==== " <+: l ∧ ∀ l' ∈ pre, ¬ str "Index: " <+: l') ∧
    (determineGenerator ls = .Diff ↔ ∀ l ∈ ls, ¬ str "Index: " <+: l ∧ ¬ str "==== " <+: l) := by
  refine ⟨(generator_iff ls).1, (generator_iff ls).2, ?_⟩
  induction ls with
  | nil => simp [determineGenerator]
  | cons l ls ih =>
    simp only [determineGenerator, List.isPrefixOf_iff_prefix, List.forall_mem_cons]
    by_cases h1 : str "Index: " <+: l
    · simp [h1]
    · by_cases h2 : str "==== " <+: l
      · simp [h1, h2]
      · rw [if_neg h1, if_neg h2, ih]; simp [h1, h2]

example : determineGenerator [str "x\n", str "Index: a\n", str "==== b\n"] = .CVSDiff ∧
    determineGenerator [str "==== b\n", str "Index: a\n"] = .Perforce := by decide

/-! ### C25 – format -/

/-- **C25.** The format is the one shown by the first line that shows any; it is unknown iff no line shows one. -/
theorem C25_format (g : Generator) (ls : List Str) (f : Format) :
    determineFormat g ls = f ↔
      (f = .UnknownFormat ∧ ∀ l ∈ ls, ∀ f', ¬ Shows g l f') ∨
      ∃ pre l post, ls = pre ++ l :: post ∧ (∀ l' ∈ pre, ∀ f', ¬ Shows g l' f') ∧ Shows g l f := determineFormat_iff g ls f

/-- **C25.** No line shows two formats, so the order in which the code tries the patterns does not matter for `Shows`. -/
theorem C25_shows_unique (g : Generator) (l : Str) (f f' : Format) (h : Shows g l f) (h' : Shows g l f') : f = f' := by
  rw [← shows_of_lineFormat] at h h'
  rw [h] at h'; simpa using h'

/-- **C25.** The first line decides: `--- ` unified, `*** ` context, `12c34` normal (plain diff). -/
theorem C25_first_line (l : Str) (ls : List Str) :
    (str "--- " <+: l → determineFormat .Diff (l :: ls) = .Unified) ∧
    (str "*** " <+: l → determineFormat .Diff (l :: ls) = .Context) ∧
    (NormalCmd l → determineFormat .Diff (l :: ls) = .Normal) := by
  refine ⟨fun h => ?_, fun h => ?_, fun h => ?_⟩ <;>
    exact (determineFormat_iff _ _ _).2 (.inr ⟨[], l, ls, rfl, by simp, h⟩)

/-- **C25.** For input in an unknown format, an ed script or an RCS diff, no models are returned and nothing is reported. -/
theorem C25_unsupported (win : Bool) (cmp : Str → Str → Int) (g : Generator) (heap : Heap) (ls : List Str)
    (h : determineFormat g ls = .UnknownFormat ∨ determineFormat g ls = .Ed ∨ determineFormat g ls = .RCS) :
    parseLines win cmp g heap ls = Res.ok { models := none, malformed := false, heap := heap } := by
  unfold parseLines
  rcases h with h | h | h <;> simp [h]

example : determineFormat .Diff [str "diff a b\n", str "1,2c3\n", str "--- x\n"] = .Normal ∧
    determineFormat .Perforce [str "--- x\n", str "@@ -1 +1 @@\n"] = .Unified := by decide
example : NormalCmd (str "12,14c9\n") :=
  ⟨'1', ['2', ',', '1', '4'], 'c', '9', ['\n'], rfl, by decide, by decide, by decide, by decide⟩

/-! ### C26 – unified diffs -/

/-- **C26.** For every well-formed unified diff, parsing its text reports no error and returns one model for every file that has
changes, and each model shows exactly what the diff says: names, time stamps, hunks, line numbers, functions, differences. -/
theorem C26_unified (d : UDiff) (ok : d.Ok) (hne : d.files ≠ []) (win : Bool) (cmp : Str → Str → Int) (heap : Heap) :
    ∃ r, parse win cmp heap (split d.render.flatten) = Res.ok r ∧ r.malformed = false ∧
      (match r.models with
        | none => ∀ f ∈ d.files, f.changes = false
        | some ms => ms ≠ [] ∧
            (ms.map (DModel.view r.heap)).Perm ((d.files.filter UFile.changes).map (UFile.view (unescapePath win)))) := by
  obtain ⟨st, h, hm, inv⟩ := parse_unified d ok hne win cmp heap
  refine ⟨finishParse cmp st, by rw [UDiff.split_text d ok]; exact h, hm, ?_⟩
  unfold finishParse
  simp only
  by_cases hz : 0 < st.models.length
  · rw [if_pos hz]
    simp only
    have hp := sortModels_perm cmp st.models
    refine ⟨?_, ?_⟩
    · intro e
      rw [e] at hp
      have := hp.length_eq
      simp only [List.length_nil] at this
      omega
    · rw [← inv.views]; exact hp.map _
  · rw [if_neg hz]
    simp only
    have h0 : st.models = [] := List.length_eq_zero_iff.1 (by omega)
    have := inv.views
    rw [h0] at this
    simp only [List.map_nil] at this
    have := List.map_eq_nil_iff.1 this.symm
    intro f hf
    have := List.filter_eq_nil_iff.1 this f hf
    simpa using this

theorem blockViews_counts (bs : List Block) : ∀ a b, ((blockViews a b bs).flatMap DView.src).length = (bs.map (fun b => b.old.length)).sum ∧
    ((blockViews a b bs).flatMap DView.dst).length = (bs.map (fun b => b.new.length)).sum := by
  induction bs with
  | nil => intro a b; exact ⟨rfl, rfl⟩
  | cons k bs ih =>
    intro a b
    obtain ⟨h1, h2⟩ := ih (a + k.old.length) (b + k.new.length)
    constructor
    · rw [blockViews, List.flatMap_cons, List.length_append, h1, List.map_cons, List.sum_cons]
      cases k <;> simp [Block.view, Block.old]
    · rw [blockViews, List.flatMap_cons, List.length_append, h2, List.map_cons, List.sum_cons]
      cases k <;> simp [Block.view, Block.new]

/-- **C19.** The numbers of lines reported by the hunks of a parsed diff (`sourceLineCount`, `destinationLineCount`) are the counts in the
headers of the diff. -/
theorem C19_reported_counts (d : UDiff) (ok : d.Ok) (hne : d.files ≠ []) (win : Bool) (cmp : Str → Str → Int) (heap : Heap) :
    ∃ r, parse win cmp heap (split d.render.flatten) = Res.ok r ∧
      ∀ m ∈ r.models.getD [], ∃ f ∈ d.files, m.source = unescapePath win f.src.name ∧
        m.hunks.map (fun k => (k.slcOn r.heap, k.dlcOn r.heap)) = f.hunks.map (fun u => (u.srcCount, u.dstCount)) := by
  obtain ⟨r, h, _, hr⟩ := C26_unified d ok hne win cmp heap
  refine ⟨r, h, fun m hm => ?_⟩
  cases hms : r.models with
  | none => rw [hms] at hm; cases hm
  | some ms =>
    rw [hms] at hr hm
    obtain ⟨f, hf, e⟩ := List.mem_map.1 (hr.2.mem_iff.1 (List.mem_map_of_mem hm))
    refine ⟨f, (List.mem_filter.1 hf).1, ?_, ?_⟩
    · exact (congrArg MView.source e).symm
    · have e2 : f.hunks.map UHunk.view = m.hunks.map (Hunk.view r.heap) := congrArg MView.hunks e
      have e3 := congrArg (List.map (fun v : HView => (v.old.length, v.new.length))) e2
      rw [List.map_map, List.map_map] at e3
      rw [show (fun k : Hunk Nat => (k.slcOn r.heap, k.dlcOn r.heap)) = (fun v : HView => (v.old.length, v.new.length)) ∘ Hunk.view r.heap from
        funext fun k => by rw [slcOn_view, dlcOn_view]; rfl, ← e3]
      refine List.map_congr_left fun u _ => ?_
      obtain ⟨q1, q2⟩ := blockViews_counts u.blocks u.srcLine u.dstLine
      exact Prod.ext q1 q2

/-- **C26.** With one file with changes there is exactly one model and it shows that file. -/
theorem C26_unified_single (d : UDiff) (ok : d.Ok) (f : UFile) (hf : d.files = [f]) (hc : f.changes = true) (win : Bool)
    (cmp : Str → Str → Int) (heap : Heap) :
    ∃ m h', parse win cmp heap (split d.render.flatten) = Res.ok { models := some [m], malformed := false, heap := h' } ∧
      m.view h' = f.view (unescapePath win) := by
  obtain ⟨r, h, hm, hr⟩ := C26_unified d ok (by simp [hf]) win cmp heap
  cases hms : r.models with
  | none =>
    rw [hms] at hr
    simp only at hr
    have := hr f (by simp [hf])
    rw [hc] at this
    exact absurd this (by simp)
  | some ms =>
    rw [hms] at hr
    simp only [hf, List.filter_cons, hc, if_true, List.filter_nil, List.map_cons, List.map_nil] at hr
    have hp := hr.2
    have hs := List.perm_singleton.1 hp
    cases ms with
    | nil => simp at hs
    | cons m ms =>
      cases ms with
      | cons m' ms => simp at hs
      | nil =>
        simp only [List.map_cons, List.map_nil, List.cons.injEq, and_true] at hs
        refine ⟨m, r.heap, ?_, hs⟩
        rw [h]
        cases r
        simp only at hms hm
        rw [hms, hm]

/-- A diff of two files in the style of `svn diff`, with a missing final newline and an added file, is well-formed. -/
def exampleDiff : UDiff where
  files := [
    { preamble := [str "Index: b.txt"], src := { name := str "b.txt", stamp := some (str "2024") }, dst := { name := str "b.txt" },
      hunks := [
        { srcLine := 3, dstLine := 3, function := some (str "int main()"), blocks := [.context [{ text := str "x" }],
            .change [{ text := str "old" }] [{ text := str "new", eol := false }]] }] },
    { preamble := [str "Index: a.txt", str "====="], src := { name := str "a.txt", stamp := some (str "2024") }, dst := { name := str "a.txt" },
      hunks := [{ srcLine := 1, dstLine := 1, shortDst := true, blocks := [.change [] [{ text := str "only" }]] }] }]
  trailer := [str "-- ", str "2.44"]

theorem exampleDiff_ok : exampleDiff.Ok := by
  have hu : ∀ h ∈ exampleDiff.files.flatMap UFile.hunks, h.Ok := by
    intro h hh
    simp only [exampleDiff, List.flatMap_cons, List.flatMap_nil, List.append_nil, List.cons_append, List.nil_append, List.mem_cons,
      List.not_mem_nil, or_false] at hh
    rcases hh with rfl | rfl
    · exact ⟨⟨by decide, by decide, by decide, by decide⟩, ⟨by decide, by decide, by decide, by decide⟩,
        by intro f hf; simp only [Option.some.injEq] at hf; subst hf; decide,
        by intro b hb; simp only [List.mem_cons, List.not_mem_nil, or_false] at hb; rcases hb with rfl | rfl <;> simp [Block.NonEmpty],
        by simp [SeparatedBlocks, Block.Separated], by decide⟩
    · exact ⟨⟨by decide, by decide, by decide, by decide⟩, ⟨by decide, by decide, by decide, by decide⟩,
        by intro f hf; simp at hf,
        by intro b hb; simp only [List.mem_cons, List.not_mem_nil, or_false] at hb; subst hb; simp [Block.NonEmpty],
        by simp [SeparatedBlocks], by decide⟩
  have hh : ∀ n s : Str, (n ≠ [] ∧ '\t' ∉ n ∧ '\n' ∉ n) → (s ≠ [] ∧ '\t' ∉ s ∧ '\n' ∉ s) → Header.Ok { name := n, stamp := some s } := by
    intro n s h1 h2
    exact ⟨h1, by intro ts hts; simp only [Option.some.injEq] at hts; subst hts; exact h2, by intro e he; simp at he⟩
  have hh' : ∀ n : Str, (n ≠ [] ∧ '\t' ∉ n ∧ '\n' ∉ n) → Header.Ok { name := n } := by
    intro n h1
    exact ⟨h1, by intro ts hts; simp at hts, by intro e he; simp at he⟩
  have hb : ∀ f ∈ exampleDiff.files, ∀ t ∈ f.preamble, BetweenLine t := by
    simp only [exampleDiff, BetweenLine]; decide
  refine ⟨?_, ?_, ?_, ?_⟩
  · intro f hf
    refine ⟨?_, ?_, fun h hm => hu h (List.mem_flatMap.2 ⟨f, hf, hm⟩), hb f hf⟩
    · simp only [exampleDiff, List.mem_cons, List.not_mem_nil, or_false] at hf
      rcases hf with rfl | rfl <;> exact hh _ _ (by decide) (by decide)
    · simp only [exampleDiff, List.mem_cons, List.not_mem_nil, or_false] at hf
      rcases hf with rfl | rfl <;> exact hh' _ (by decide)
  · intro f fs e
    simp only [exampleDiff, List.cons.injEq] at e
    obtain ⟨rfl, rfl⟩ := e
    refine ⟨?_, fun _ => by simp⟩
    intro t ht
    simp only [List.mem_cons, List.not_mem_nil, or_false] at ht
    subst ht
    refine ⟨by unfold BetweenLine; decide, by decide, ?_, ?_⟩
    · intro x s e; simp only [str] at e; have : x = 'I' := (List.cons.inj e).1.symm; subst this; decide
    · intro x y s e h; simp only [str] at e; have : x = 'I' := (List.cons.inj e).1.symm; subst this; exact absurd h (by decide)
  · intro f fs e g hg t ts ht
    simp only [exampleDiff, List.cons.injEq] at e
    obtain ⟨rfl, rfl⟩ := e
    simp only [List.mem_cons, List.not_mem_nil, or_false] at hg
    subst hg
    simp only [List.cons.injEq] at ht
    left; rw [← ht.1]; decide
  · refine ⟨by simp only [exampleDiff, BetweenLine]; decide, ?_⟩
    intro t ts e
    simp only [exampleDiff, List.cons.injEq] at e
    right; right; rw [← e.1]; decide

example : exampleDiff.Ok ∧ exampleDiff.files ≠ [] ∧ exampleDiff.files.filter UFile.changes = exampleDiff.files :=
  ⟨exampleDiff_ok, by simp [exampleDiff], by decide⟩

/-! ### C28 – termination -/

/-- **C28.** The parser terminates on every list of lines, in every format and for every generator: none of its loops runs for ever
(each is given fuel that only its input length determines, and the fuel is never used up). -/
theorem C28_parser_terminates (win : Bool) (cmp : Str → Str → Int) (heap : Heap) (ls : List Str) :
    parse win cmp heap ls ≠ Res.hang := parse_ends win cmp heap ls

/-! ### C31 – order of the models -/

/-- **C31.** The list of models returned is sorted by source directory and source file, never empty, and contains the models found
(each as often as it was found). -/
theorem C31_sorted (cmp : Str → Str → Int) (ho : Orders cmp) (st : PState) :
    match (finishParse cmp st).models with
    | none => st.models = []
    | some ms => ms ≠ [] ∧ ms.Perm st.models ∧ ms.Pairwise (sourceLe cmp) := by
  unfold finishParse
  simp only
  by_cases hz : 0 < st.models.length
  · rw [if_pos hz]
    have hp := sortModels_perm cmp st.models
    refine ⟨?_, hp, sortModels_sorted ho _⟩
    intro e
    rw [e] at hp
    have := hp.length_eq
    simp only [List.length_nil] at this
    omega
  · rw [if_neg hz]
    exact List.length_eq_zero_iff.1 (by omega)

/-- **C31.** For every input: the models that `parse` returns are sorted. -/
theorem C31_parse_sorted (win : Bool) (cmp : Str → Str → Int) (ho : Orders cmp) (heap : Heap) (ls : List Str) (r : ParseResult)
    (ms : List DModel) (h : parse win cmp heap ls = Res.ok r) (hm : r.models = some ms) :
    ms ≠ [] ∧ ms.Pairwise (sourceLe cmp) := by
  have key : ∀ st, finishParse cmp st = r → ms ≠ [] ∧ ms.Pairwise (sourceLe cmp) := by
    intro st e
    have := C31_sorted cmp ho st
    rw [e, hm] at this
    exact ⟨this.1, this.2.2⟩
  unfold parse at h
  simp only [Res.bind_eq_ok] at h
  obtain ⟨cl, _, h⟩ := h
  unfold parseLines at h
  simp only at h
  split at h
  · simp only [Res.bind_eq_ok, Res.ok.injEq] at h; obtain ⟨st, _, h⟩ := h; exact key st h
  · simp only [Res.bind_eq_ok, Res.ok.injEq] at h; obtain ⟨st, _, h⟩ := h; exact key st h
  · simp only [Res.bind_eq_ok, Res.ok.injEq] at h; obtain ⟨st, _, h⟩ := h; exact key st h
  · simp only [Res.ok.injEq] at h
    rw [← h] at hm
    simp at hm

/-- A comparison that orders strings: by length. -/
example : Orders (fun a b => (a.length : Int) - b.length) := ⟨fun a b => by omega, fun a b c => by omega⟩

example (heap : Heap) : ∃ r, parse false (fun _ _ => 0) heap (split exampleDiff.render.flatten) = Res.ok r ∧
    ∀ m ∈ r.models.getD [], ∃ f ∈ exampleDiff.files, m.source = unescapePath false f.src.name ∧
      m.hunks.map (fun k => (k.slcOn r.heap, k.dlcOn r.heap)) = f.hunks.map (fun u => (u.srcCount, u.dstCount)) :=
  C19_reported_counts exampleDiff exampleDiff_ok (by decide) false _ heap

end KompareDiff2
