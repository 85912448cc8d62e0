import Verif.Proofs.NormalDiff
import Verif.Props.Parser
/-
Property theorems about the normal format: C32.
-/
namespace KompareDiff2
open Spec Re

/-! ### C32 – normal diffs -/

/-- **C32.** For every well-formed normal diff of one file, parsing its text reports no error and returns exactly one model; its hunks
are the commands, each with one difference of the right kind, at the written line numbers and with exactly the written lines (without
the newlines). -/
theorem C32_normal (cs : List NCmd) (ok : ∀ c ∈ cs, c.Ok) (hne : cs ≠ []) (win : Bool) (cmp : Str → Str → Int) (heap : Heap) :
    ∃ m h', parse win cmp heap (split (cs.flatMap NCmd.render).flatten) = Res.ok { models := some [m], malformed := false, heap := h' } ∧
      m.view h' = normalView [] [] cs := by
  obtain ⟨m, h', h1, h2, _⟩ := parse_normal cs ok hne win cmp heap
  refine ⟨m, h', ?_, h2⟩
  rw [nlines_split _ (fun l hl => (ncmds_lines cs ok l hl).2)]
  exact h1

/-- A normal diff with all three kinds of commands. -/
def exampleNormal : List NCmd :=
  [.insert 3 4 [str "new", str "lines"], .delete 7 [str "--- gone"] 8, .change 10 [str "a", str ""] 11 [str "> b"]]

theorem exampleNormal_ok : ∀ c ∈ exampleNormal, c.Ok := by
  intro c hc
  simp only [exampleNormal, List.mem_cons, List.not_mem_nil, or_false] at hc
  rcases hc with rfl | rfl | rfl
  · exact ⟨by simp, by decide, by decide⟩
  · exact ⟨by simp, by decide, by decide⟩
  · exact ⟨by simp, by decide, by decide⟩

/-- The text of the example. -/
example : (exampleNormal.flatMap NCmd.render).flatten =
    str "3a4,5\n> new\n> lines\n7d8\n< --- gone\n10,11c11\n< a\n< \n---\n> > b\n" := by
  simp [exampleNormal, NCmd.render, NCmd.command, NCmd.body, shortRange, markedLine, decNat, str]
  decide

example (heap : Heap) : ∃ m h', parse false (fun _ _ => 0) heap (split (exampleNormal.flatMap NCmd.render).flatten) =
    Res.ok { models := some [m], malformed := false, heap := h' } ∧ m.view h' = normalView [] [] exampleNormal :=
  C32_normal exampleNormal exampleNormal_ok (by simp [exampleNormal]) false _ heap

/-- **C32, several files (with a defect).** For every normal diff of several files, with `diff OPTIONS OLD NEW` lines, all files that have
commands are returned, each with its names and exactly its commands.  The defect: the diff is *always* reported as malformed, because
after the last file the parser starts again at the first line. -/
theorem C32_several_files_defect (fs : List NFile) (ok : ∀ f ∈ fs, f.Ok) (hc : ∃ f ∈ fs, f.cmds ≠ []) (win : Bool) (cmp : Str → Str → Int)
    (heap : Heap) :
    ∃ ms h', parse win cmp heap (split (fs.flatMap NFile.render).flatten) = Res.ok { models := some ms, malformed := true, heap := h' } ∧
      (ms.map (DModel.view h')).Perm
        ((fs.filter (fun f => decide (f.cmds ≠ []))).map (fun f => normalView (unescapePath win f.src) (unescapePath win f.dst) f.cmds)) := by
  obtain ⟨st, h1, h2, inv⟩ := parse_normal_files fs ok hc win cmp heap
  have hv := inv.views
  have hpos : st.models.length > 0 := by
    have := congrArg List.length hv
    simp only [List.length_map] at this
    rw [this]
    obtain ⟨f, hf, hfc⟩ := hc
    exact List.length_pos_of_mem (List.mem_filter.2 ⟨hf, by simp [hasCmds, hfc]⟩)
  refine ⟨sortModels cmp st.models, st.heap, ?_, ?_⟩
  · rw [nlines_split]
    · rw [h1]
      simp only [finishParse, hpos, if_true, h2]
    · intro l hl
      obtain ⟨f, hf, hl⟩ := List.mem_flatMap.1 hl
      exact (NFile.lines_ok f (ok f hf) l hl).2
  · have hp := (sortModels_perm cmp st.models).map (DModel.view st.heap)
    rw [hv] at hp
    exact hp

/-- A name without a leading dash does not begin with an option. -/
theorem noDash_noOption {n : Str} (h : n.head? ≠ some '-') : ∀ w, OptionWord w → ¬ (w ++ [' ']) <+: (n ++ [' ']) := by
  intro w hw hp
  obtain ⟨k, _, _, e⟩ := hw
  cases n with
  | nil => rcases e with rfl | rfl <;> exact absurd (prefix_head hp) (by decide)
  | cons x n => rcases e with rfl | rfl <;> exact h (by rw [← prefix_head hp]; rfl)

/-- Two files of a recursive comparison. -/
def exampleNormalFiles : List NFile :=
  [{ options := [str "-r", str "--color=auto"], src := str "old/a b.txt", dst := str "new/a.txt", cmds := exampleNormal },
   { preamble := [str "Only in old: x"], options := [str "-r"], src := str "old/c", dst := str "new/c", cmds := [.delete 1 [str "x"] 0] }]

theorem exampleNormalFiles_ok : ∀ f ∈ exampleNormalFiles, f.Ok := by
  intro f hf
  simp only [exampleNormalFiles, List.mem_cons, List.not_mem_nil, or_false] at hf
  have o1 : OptionWord (str "-r") := ⟨str "r", by decide, by unfold OptionChar; decide, .inl rfl⟩
  have o2 : OptionWord (str "--color=auto") := ⟨str "color=auto", by decide, by unfold OptionChar; decide, .inr rfl⟩
  rcases hf with rfl | rfl
  · refine ⟨⟨⟨by decide, noDash_noOption (by decide)⟩, by decide⟩, ?_, by simp, exampleNormal_ok⟩
    intro w hw
    simp only [List.mem_cons, List.not_mem_nil, or_false] at hw
    rcases hw with rfl | rfl
    · exact o1
    · exact o2
  · refine ⟨⟨⟨by decide, noDash_noOption (by decide)⟩, by decide⟩, ?_, ?_, ?_⟩
    · intro w hw
      simp only [List.mem_cons, List.not_mem_nil, or_false] at hw
      rw [hw]; exact o1
    · intro t ht
      simp only [List.mem_cons, List.not_mem_nil, or_false] at ht
      subst ht
      refine ⟨⟨⟨by decide, ?_, ?_, ?_⟩, ?_, ?_, ?_⟩, ?_, ?_, ?_, ?_⟩
      all_goals first
        | (rw [← List.isPrefixOf_iff_prefix]; decide)
        | (intro x s e; have := congrArg List.head? e; simp [str] at this; rw [← this]; decide)
        | (intro x y s e hx; have := congrArg List.head? e; simp [str] at this; rw [← this] at hx; exact absurd hx (by decide))
    · intro c hc
      simp only [List.mem_cons, List.not_mem_nil, or_false] at hc
      subst hc
      exact ⟨by simp, by decide, by decide⟩

example (heap : Heap) : ∃ ms h', parse false (fun _ _ => 0) heap (split (exampleNormalFiles.flatMap NFile.render).flatten) =
    Res.ok { models := some ms, malformed := true, heap := h' } ∧ ms.length = 2 := by
  obtain ⟨ms, h', h1, h2⟩ := C32_several_files_defect exampleNormalFiles exampleNormalFiles_ok
    ⟨_, by simp [exampleNormalFiles]; exact .inl rfl, by simp [exampleNormal]⟩ false (fun _ _ => 0) heap
  exact ⟨ms, h', h1, by have := h2.length_eq; simpa [exampleNormalFiles, exampleNormal] using this⟩

/-! ### Options that are taken for names -/

theorem word_noOption {b s : Str} (hs : ' ' ∉ b) (hb : ¬ OptionWord b) : ∀ w, OptionWord w → ¬ (w ++ [' ']) <+: ((b ++ ' ' :: s) ++ [' ']) := by
  intro w hw hp
  have p2 : (b ++ [' ']) <+: ((b ++ ' ' :: s) ++ [' ']) := ⟨s ++ [' '], by simp⟩
  have hws := optionWord_noSpace hw
  have no : ∀ u v : Str, ' ' ∉ v → (u ++ [' ']) <+: (v ++ [' ']) → u = v := by
    intro u v hv ⟨t, e⟩
    cases t with
    | nil => simp only [List.append_nil] at e; exact List.append_cancel_right e
    | cons x t =>
      exfalso
      apply hv
      have : (u ++ [' ']) ++ (x :: t).dropLast = v := by
        have := congrArg List.dropLast e
        rw [List.dropLast_append_of_ne_nil (by simp)] at this
        simpa using this
      rw [← this]; simp
  rcases Nat.le_total (w ++ [' ']).length (b ++ [' ']).length with hl | hl
  · exact hb (no w b hs (List.prefix_of_prefix_length_le hp p2 hl) ▸ hw)
  · exact hb (no b w hws (List.prefix_of_prefix_length_le p2 hp hl) ▸ hw)

/-- **C32, defect.** An option with a character other than letters, digits, `=` and `"` – such as `--ignore-case`, `--exclude=*.o` or the
separator `--` – is not recognised: it becomes part of the name of the old file. -/
theorem C32_option_defect (b src dst : Str) (cs : List NCmd) (ok : ∀ c ∈ cs, c.Ok) (hne : cs ≠ []) (hb : ' ' ∉ b ∧ '\n' ∉ b)
    (hbad : ¬ OptionWord b) (hs : '\n' ∉ src) (hd : '\n' ∉ dst ∧ ' ' ∉ dst) (win : Bool) (cmp : Str → Str → Int) (heap : Heap) :
    ∃ m h', parse win cmp heap (split ((str "diff " ++ b ++ ' ' :: src ++ ' ' :: dst ++ ['\n']) :: cs.flatMap NCmd.render).flatten) =
        Res.ok { models := some [m], malformed := true, heap := h' } ∧
      m.view h' = normalView (unescapePath win (b ++ ' ' :: src)) (unescapePath win dst) cs := by
  have okf : NFile.Ok { src := b ++ ' ' :: src, dst := dst, cmds := cs } :=
    ⟨⟨⟨by simp [hb.2, hs], word_noOption hb.1 hbad⟩, hd⟩, by simp, by simp, ok⟩
  obtain ⟨ms, h', h1, h2⟩ := C32_several_files_defect [{ src := b ++ ' ' :: src, dst := dst, cmds := cs }] (by simpa using okf)
    ⟨_, by simp; rfl, hne⟩ win cmp heap
  simp only [ne_eq, hne, not_false_eq_true, decide_true, List.filter_cons_of_pos, List.filter_nil, List.map_cons, List.map_nil] at h2
  have hs' := List.perm_singleton.1 h2
  cases ms with
  | nil => simp at hs'
  | cons m ms =>
    cases ms with
    | cons m' ms => simp at hs'
    | nil =>
      simp only [List.map_cons, List.map_nil, List.cons.injEq, and_true] at hs'
      refine ⟨m, h', ?_, hs'⟩
      rw [← h1]
      simp [NFile.render, NFile.header]

/-- `--ignore-case` is such an option. -/
theorem ignoreCase_bad : ¬ OptionWord (str "--ignore-case") := by
  rintro ⟨n, _, hn, e | e⟩
  · have e' : n = str "-ignore-case" := (congrArg List.tail e).symm
    exact (optionChar_ne (hn '-' (by rw [e']; decide))).2 rfl
  · have e' : n = str "ignore-case" := (congrArg (fun l => l.tail.tail) e).symm
    exact (optionChar_ne (hn '-' (by rw [e']; decide))).2 rfl

example (heap : Heap) : ∃ m h', parse false (fun _ _ => 0) heap
      (split ((str "diff " ++ str "--ignore-case" ++ ' ' :: str "old" ++ ' ' :: str "new" ++ ['\n']) :: exampleNormal.flatMap NCmd.render).flatten) =
        Res.ok { models := some [m], malformed := true, heap := h' } ∧
      m.view h' = normalView (str "--ignore-case old") (str "new") exampleNormal := by
  obtain ⟨m, h', h1, h2⟩ := C32_option_defect (str "--ignore-case") (str "old") (str "new") exampleNormal exampleNormal_ok (by simp [exampleNormal])
    (by decide) ignoreCase_bad (by decide) (by decide) false (fun _ _ => 0) heap
  exact ⟨m, h', h1, h2⟩

/-! ### Line numbers -/

/-- The unified diff (without context) of the insertion of `ls` after line `after`. -/
def insertionUnified (src dst : Str) (after dstLine : Nat) (ls : List Str) : UDiff :=
  { files := [{ src := { name := src }, dst := { name := dst },
                hunks := [{ srcLine := after + 1, dstLine := dstLine, blocks := [.change [] (ls.map (fun t => { text := t }))] }] }] }

/-- **C32, defect.** The same insertion is placed differently, depending on the format it was read from: from a normal diff the
difference gets the number of the line *before* the insertion, from a unified diff the number of the line *after* it; and the lines
lack their newlines when read from a normal diff. -/
theorem C32_insert_position_defect (after dst : Nat) (ls : List Str) (hne : ls ≠ []) (ha : after + 1 ≤ 2147483647) (hd : dst ≤ 2147483647)
    (hl : ls.length ≤ 2147483647) (ht : ∀ t ∈ ls, '\n' ∉ t ∧ t.length < 65534) (s d : Str) (hs : s ≠ [] ∧ '\t' ∉ s ∧ '\n' ∉ s)
    (hdn : d ≠ [] ∧ '\t' ∉ d ∧ '\n' ∉ d) (win : Bool) (cmp : Str → Str → Int) (heap : Heap) :
    (∃ m h' v, parse win cmp heap (split (NCmd.render (.insert after dst ls)).flatten) = Res.ok { models := some [m], malformed := false, heap := h' } ∧
      (m.view h').differences = [v] ∧ v.type = .Insert ∧ v.srcLine = (after : Int) ∧ v.dstLine = (dst : Int) ∧ v.dst = ls) ∧
    (∃ m h' v, parse win cmp heap (split (insertionUnified s d after dst ls).render.flatten) = Res.ok { models := some [m], malformed := false, heap := h' } ∧
      (m.view h').differences = [v] ∧ v.type = .Insert ∧ v.srcLine = ((after + 1 : Nat) : Int) ∧ v.dstLine = (dst : Int) ∧ v.dst = ls.map (· ++ ['\n'])) := by
  constructor
  · obtain ⟨m, h', h1, h2⟩ := C32_normal [.insert after dst ls] (by
      intro c hc
      simp only [List.mem_singleton] at hc
      subst hc
      exact ⟨hne, ⟨by simp only [NCmd.lineNumbers]; omega, hd⟩, fun t h => (ht t (by simpa [NCmd.old, NCmd.new] using h)).1⟩) (by simp) win cmp heap
    refine ⟨m, h', _, by simpa using h1, by rw [h2]; rfl, rfl, rfl, rfl, rfl⟩
  · have hlen : (ls.map (fun t => ({ text := t } : Line))).length = ls.length := by simp
    have okd : (insertionUnified s d after dst ls).Ok := by
      refine ⟨?_, ?_, ?_, ?_⟩
      · intro f hf
        simp only [insertionUnified, List.mem_singleton] at hf
        subst hf
        refine ⟨⟨hs, by simp, by simp⟩, ⟨hdn, by simp, by simp⟩, ?_, by simp⟩
        intro h hh
        simp only [List.mem_singleton] at hh
        subst hh
        refine ⟨⟨by simp, by simp, ha, ?_⟩, ⟨by simp, ?_, hd, ?_⟩, by simp, ?_, by simp [SeparatedBlocks], ?_⟩
        · simp [UHunk.srcCount, Block.old]
        · simp only [UHunk.dstCount, Block.new, List.map_cons, List.map_nil, List.sum_cons, List.sum_nil, Nat.add_zero, hlen]
          intro h0
          exact absurd (List.length_eq_zero_iff.1 h0) hne
        · simp only [UHunk.dstCount, Block.new, List.map_cons, List.map_nil, List.sum_cons, List.sum_nil, Nat.add_zero, hlen]
          exact hl
        · intro b hb
          simp only [List.mem_singleton] at hb
          subst hb
          exact .inr (by simpa using hne)
        · intro b hb l hl
          simp only [List.mem_singleton] at hb
          subst hb
          simp only [Block.old, Block.new, List.nil_append, List.mem_map] at hl
          obtain ⟨t, h, rfl⟩ := hl
          exact ht t h
      · intro f fs e
        simp only [insertionUnified, List.cons.injEq] at e
        rw [← e.1]
        refine ⟨by simp, ?_⟩
        rintro (⟨g, hg, t, ht, _⟩ | ⟨t, ht, _⟩)
        · simp only [insertionUnified, List.mem_singleton] at hg
          subst hg
          simp at ht
        · simp [insertionUnified] at ht
      · intro f fs e g hg
        simp only [insertionUnified, List.cons.injEq] at e
        rw [← e.2] at hg
        simp at hg
      · simp [insertionUnified]
    obtain ⟨m, h', h1, h2⟩ := C26_unified_single (insertionUnified s d after dst ls) okd _ rfl (by simp [UFile.changes, Block.isChange]) win cmp heap
    refine ⟨m, h', _, h1, by rw [h2]; simp only [UFile.view, UHunk.view, blockViews, Block.view, List.flatMap_cons, List.flatMap_nil, List.append_nil]; rfl, ?_, rfl, rfl, ?_⟩
    · simp
    · simp [Line.value, Function.comp_def]

example (heap : Heap) : ∃ m h' v, parse false (fun _ _ => 0) heap (split (NCmd.render (.insert 3 4 [str "x"])).flatten) =
      Res.ok { models := some [m], malformed := false, heap := h' } ∧
      (m.view h').differences = [v] ∧ v.type = .Insert ∧ v.srcLine = 3 ∧ v.dstLine = 4 ∧ v.dst = [str "x"] :=
  (C32_insert_position_defect 3 4 [str "x"] (by simp) (by decide) (by decide) (by decide) (by decide) (str "a") (str "b") (by decide) (by decide)
    false (fun _ _ => 0) heap).1

/-! ### Lines without newline -/

/-- **C32, defect.** When the last removed line of a change has no newline, the remark about it ends the reading: of this change only the
removed lines before that line are kept, all added lines are lost, and so is everything that follows – and the diff is reported as
malformed although it is a correct normal diff. -/
theorem C32_no_newline_defect (cs : List NCmd) (ok : ∀ c ∈ cs, c.Ok) (src dst : Nat) (removed : List Str) (last : Str) (added : List Str)
    (okc : NCmd.Ok (.change src (removed ++ [last]) dst added)) (more : List Str) (hmore : QuietLines more)
    (hdiff : ∀ l ∈ more, ¬ str "diff " <+: l) (win : Bool) (cmp : Str → Str → Int) (heap : Heap) :
    ∃ m h', parse win cmp heap (cs.flatMap NCmd.render ++ NCmd.command (.change src (removed ++ [last]) dst added) ::
          (removed.map (markedLine '<') ++ markedLine '<' last :: noNewlineMarker :: str "---\n" :: (added.map (markedLine '>') ++ more))) =
        Res.ok { models := some [m], malformed := true, heap := h' } ∧
      m.view h' = normalView [] [] (cs ++ [.change src removed dst []]) := by
  let B : Str := '<' :: ' ' :: last
  let c : NCmd := .change src (removed ++ [last]) dst added
  let X : List Str := str "---\n" :: (added.map (markedLine '>') ++ more)
  have hlast : '\n' ∉ last := okc.lines last (by simp [NCmd.old])
  have hrem : ∀ t ∈ removed, '\n' ∉ t := fun t h => okc.lines t (by simp [NCmd.old, h])
  have hadd : ∀ t ∈ added, '\n' ∉ t := fun t h => okc.lines t (by simp [NCmd.new, h])
  have hBnl : '\n' ∉ B := by simp [B, hlast]
  have hcs := ncmds_lines cs ok
  have hc := NCmd.lines_ok c okc
  have hcmd : NLine c.command := (hc _ (by simp [NCmd.render])).1
  have hrl : ∀ l ∈ removed.map (markedLine '<'), NLine l := fun l hl => (marked_lines (.inl rfl) removed hrem l hl).1
  have hal : ∀ l ∈ added.map (markedLine '>'), NLine l := fun l hl => (marked_lines (.inr rfl) added hadd l hl).1
  have hll : NLine (markedLine '<' last) := (marked_lines (.inl rfl) [last] (by simpa using hlast) _ (by simp)).1
  have hBl : NLine B := ⟨'<', _, rfl, by simp⟩
  have hdl : NLine (str "---\n") := ⟨'-', _, rfl, by simp⟩
  have plain : ∀ l, ¬ str "\\ No newline" <+: l → (str "\\ No newline").isPrefixOf l = false := fun l h => notPrefix_bool h
  have hclean : cleanUpCrap (cs.flatMap NCmd.render ++ c.command :: (removed.map (markedLine '<') ++ markedLine '<' last :: noNewlineMarker :: X)) =
      Res.ok (cs.flatMap NCmd.render ++ c.command :: (removed.map (markedLine '<') ++ B :: X)) := by
    apply Cleans.run
    refine Cleans.append (Cleans.id _ (fun l hl => plain l (hcs l hl).1.quiet.2.2.1)) (Cleans.cons (plain _ hcmd.quiet.2.2.1) ?_)
    refine Cleans.append (Cleans.id _ (fun l hl => plain l (hrl l hl).quiet.2.2.1)) ?_
    have hb : Cleans [markedLine '<' last, noNewlineMarker] [B] := by
      intro before rest
      exact cleanUpLoop_marked before B noNewlineMarker rest (by simpa [B] using not_marker (by decide)) (by simp [B, hlast]) (by decide)
    refine hb.append (Cleans.id X (fun l hl => plain l ?_))
    simp only [X, List.mem_cons, List.mem_append] at hl
    rcases hl with rfl | hl | hl
    · exact hdl.quiet.2.2.1
    · exact (hal l hl).quiet.2.2.1
    · exact (hmore l hl).2.2
  have hXq : ∀ l ∈ X, ¬ str "Index: " <+: l ∧ ¬ str "==== " <+: l ∧ ¬ str "diff " <+: l := by
    intro l hl
    simp only [X, List.mem_cons, List.mem_append] at hl
    rcases hl with rfl | hl | hl
    · exact ⟨hdl.quiet.1, hdl.quiet.2.1, hdl.quiet.2.2.2⟩
    · exact ⟨(hal l hl).quiet.1, (hal l hl).quiet.2.1, (hal l hl).quiet.2.2.2⟩
    · exact ⟨(hmore l hl).1, (hmore l hl).2.1, hdiff l hl⟩
  have hgen : determineGenerator (cs.flatMap NCmd.render ++ c.command :: (removed.map (markedLine '<') ++ markedLine '<' last :: noNewlineMarker :: X)) = .Diff := by
    apply generator_diff
    intro l hl
    simp only [List.mem_cons, List.mem_append] at hl
    rcases hl with hl | rfl | hl | rfl | rfl | hl
    · exact ⟨(hcs l hl).1.quiet.1, (hcs l hl).1.quiet.2.1⟩
    · exact ⟨hcmd.quiet.1, hcmd.quiet.2.1⟩
    · exact ⟨(hrl l hl).quiet.1, (hrl l hl).quiet.2.1⟩
    · exact ⟨hll.quiet.1, hll.quiet.2.1⟩
    · constructor <;> (rw [← List.isPrefixOf_iff_prefix]; decide)
    · exact ⟨(hXq l hl).1, (hXq l hl).2.1⟩
  have hnone : ∀ l ∈ cs.flatMap NCmd.render ++ c.command :: (removed.map (markedLine '<') ++ B :: X), reNormalDiffHeader.full l = none := by
    intro l hl
    apply normalHeader_none
    simp only [List.mem_cons, List.mem_append] at hl
    rcases hl with hl | rfl | hl | rfl | hl
    · exact (hcs l hl).1.quiet.2.2.2
    · exact hcmd.quiet.2.2.2
    · exact (hrl l hl).quiet.2.2.2
    · exact hBl.quiet.2.2.2
    · exact (hXq l hl).2.2
  have hfmt : determineFormat .Diff (cs.flatMap NCmd.render ++ c.command :: (removed.map (markedLine '<') ++ B :: X)) = .Normal := by
    cases cs with
    | nil => simp only [List.flatMap_nil, List.nil_append, determineFormat, command_format c]
    | cons c' cs => simp only [List.flatMap_cons, NCmd.render, List.cons_append, determineFormat, command_format c']
  have hBrem : reNormalBodyRemoved.full B = none := by
    cases hx : reNormalBodyRemoved.full B with
    | none => rfl
    | some k =>
      obtain ⟨x, t, _, _, e, _⟩ := reBody_full.1 hx
      exact absurd (by rw [e]; simp) hBnl
  have hBdiv : reNormalDivider.full B = none := by
    rw [Re.full_none, reNormalDivider, lang_text]
    intro e
    exact absurd (congrArg List.head? e) (by simp [B, str])
  have hrun : captureRun reNormalBodyRemoved (removed.map (markedLine '<') ++ B :: X) = (removed, B :: X) :=
    captureRun_marked (fun x => decide (x = '<')) '<' rfl removed hrem (B :: X) (by
      intro l hl; simp only [List.head?_cons, Option.some.injEq] at hl; rw [← hl]; exact hBrem)
  have hbody : normalHunkBody .Change ((src : Nat) : Int) ((dst : Nat) : Int) (removed.map (markedLine '<') ++ B :: X) =
      (removed.foldl Diff.addSource (Diff.new ((src : Nat) : Int) ((dst : Nat) : Int) .Change), B :: X) := by
    simp [normalHunkBody, hrun, hBdiv]
  obtain ⟨x0, s0, ec, hx0⟩ := command_head c
  have hstops : NStops (c.command :: (removed.map (markedLine '<') ++ B :: X)) := by
    constructor <;> (intro l hl; simp only [List.head?_cons, Option.some.injEq] at hl; rw [← hl, ec])
    · exact (digit_body_none hx0).1
    · exact (digit_body_none hx0).2
  show ∃ m h', parse win cmp heap (cs.flatMap NCmd.render ++ c.command ::
          (removed.map (markedLine '<') ++ markedLine '<' last :: noNewlineMarker :: X)) = _ ∧ _
  unfold parse
  rw [hclean, hgen]
  generalize hL : cs.flatMap NCmd.render ++ c.command :: (removed.map (markedLine '<') ++ B :: X) = L at hfmt hnone ⊢
  simp only [Res.bind_ok, parseLines, hfmt, normalFiles, fileLoop, parseNormalDiffHeader, normalHeader]
  have hloop := normalHeaderLoop_skip reNormalDiffHeader (fun c => DModel.new (unescapePath win (c.get 1)) (unescapePath win (c.get 2))) L [] hnone
  rw [List.append_nil] at hloop
  rw [hloop]
  simp only [normalHeaderLoop, if_true, Res.bind_ok, normalHunks]
  obtain ⟨k, hk⟩ : ∃ k, L.length + 1 = (k + 2) + cs.length := by
    refine ⟨L.length + 1 - cs.length - 2, ?_⟩
    have := render_length cs
    have : L.length = (cs.flatMap NCmd.render).length + (1 + (removed.length + (1 + X.length))) := by rw [← hL]; simp; omega
    omega
  rw [hk]
  obtain ⟨st', g1, g2, g3, g4, _, _, g5, g6, g7⟩ := ncmds_run cs ok (c.command :: (removed.map (markedLine '<') ++ B :: X)) hstops (k + 2)
    { lines := L, rest := L, heap := heap, cur := {}, models := [], single := true, malformed := false } hL.symm (empty_blank.parsed _)
  rw [g1]
  have hc1 : normalHunkHeader c.command = some (.Change, ((src : Nat) : Int), ((dst : Nat) : Int)) := command_ok c okc
  generalize hD : removed.foldl Diff.addSource (Diff.new ((src : Nat) : Int) ((dst : Nat) : Int) .Change) = D at hbody
  have hDv : D.view = { type := .Change, srcLine := src, dstLine := dst, tracking := src, src := removed, dst := [], applied := false, unsaved := false, conflicts := false } := by
    rw [← hD]; exact built_view _ _ .Change removed []
  have h1 : parseNormalHunk st' = Res.ok (some { (st'.addHunk ((src : Nat) : Int) ((dst : Nat) : Int) [] [(D, true)]) with rest := B :: X }) := by
    unfold parseNormalHunk
    rw [g2]
    simp only [hc1, hbody]
  have hf : Entries.Flagged [(D, true)] := by
    intro e he
    simp only [List.mem_singleton] at he
    subst he
    have h : D.type = .Change := congrArg DView.type hDv
    simp only
    rw [h]
    simp
  have hp := addHunk_parsed st' ((src : Nat) : Int) ((dst : Nat) : Int) [] [(D, true)] g6 hf trivial
  have hv := addHunk_view st' ((src : Nat) : Int) ((dst : Nat) : Int) [] [(D, true)] g6 hf
  have e2 : hunkLoop parseNormalHunk (k + 2) st' = Res.ok { (st'.addHunk ((src : Nat) : Int) ((dst : Nat) : Int) [] [(D, true)]) with rest := B :: X } := by
    rw [hunkLoop, h1, Res.bind_ok]
    refine normalLoop_stop _ k ?_
    intro l hl
    simp only [List.head?_cons, Option.some.injEq] at hl
    rw [← hl]
    refine command_none ?_
    intro x hx
    simp only [B, List.head?_cons, Option.some.injEq] at hx
    rw [← hx]; unfold IsDigit; decide
  rw [e2]
  have hview : (st'.addHunk ((src : Nat) : Int) ((dst : Nat) : Int) [] [(D, true)]).cur.view
      (st'.addHunk ((src : Nat) : Int) ((dst : Nat) : Int) [] [(D, true)]).heap = normalView [] [] (cs ++ [.change src removed dst []]) := by
    have hvw : hunkView ((src : Nat) : Int) ((dst : Nat) : Int) [] [(D, true)] = NCmd.view (.change src removed dst []) := by
      simp only [hunkView, NCmd.view, List.map_cons, List.map_nil, hDv]
      rfl
    rw [hv, g7, hvw]
    simp only [List.map_cons, List.map_nil, hDv]
    simp [ncmdDiffs, NCmd.view, NCmd.type, NCmd.lineNumbers, NCmd.old, NCmd.new, DModel.view, normalView, DModel.source, DModel.destination]
  have hd : (st'.addHunk ((src : Nat) : Int) ((dst : Nat) : Int) [] [(D, true)]).cur.differences.length > 0 := by
    have := congrArg (fun v => v.differences.length) hview
    simp [DModel.view, normalView, NCmd.view] at this
    omega
  have hm : (st'.addHunk ((src : Nat) : Int) ((dst : Nat) : Int) [] [(D, true)]).models = [] := g3
  refine ⟨_, _, ?_, hview⟩
  simp only [Res.bind_ok, PState.keepModel, if_pos hd, ne_eq, reduceCtorEq, not_false_eq_true, if_true, finishParse, hm]
  simp [sortModels, insertModel]

/-- A concrete case: `printf 'a\nb' > old; printf 'a\nc\n' > new; diff old new`. -/
example (heap : Heap) : ∃ m h', parse false (fun _ _ => 0) heap ([] ++ NCmd.command (.change 1 ([str "a"] ++ [str "b"]) 1 [str "x", str "c"]) ::
          ([str "a"].map (markedLine '<') ++ markedLine '<' (str "b") :: noNewlineMarker :: str "---\n" :: ([str "x", str "c"].map (markedLine '>') ++ []))) =
        Res.ok { models := some [m], malformed := true, heap := h' } ∧
      m.view h' = normalView [] [] [.change 1 [str "a"] 1 []] :=
  C32_no_newline_defect [] (by simp) 1 1 [str "a"] (str "b") [str "x", str "c"] ⟨by simp, by decide, by decide⟩ [] (fun l h => by simp at h) (by simp)
    false (fun _ _ => 0) heap

/-! ### CVS -/

theorem cvsInfo_line {t : Str} (h : PreambleLine t) : ∀ x s, t ++ ['\n'] = x :: s → ¬ IsDigit x := by
  intro x s e
  cases t with
  | nil =>
    simp only [List.nil_append, List.cons.injEq] at e
    rw [← e.1]; unfold IsDigit; decide
  | cons y t =>
    simp only [List.cons_append, List.cons.injEq] at e
    rw [← e.1]
    exact h.2.2.1 y t rfl

theorem cvsNormal_guarded (fs : List CvsNFile) (ok : ∀ f ∈ fs, f.Ok) : Guarded (fs.flatMap CvsNFile.render) := by
  induction fs with
  | nil => exact trivial
  | cons f fs ih =>
    have okf := ok f (by simp)
    simp only [List.flatMap_cons, CvsNFile.render, List.cons_append, List.append_assoc]
    refine ⟨fun _ h hh => ?_, Guarded.append ?_ (Guarded.append ?_ (ih (fun f hf => ok f (by simp [hf]))))⟩
    · cases e : f.info with
      | nil => exact absurd e okf.hasInfo
      | cons t ts =>
        rw [e] at hh
        simp only [List.map_cons, List.cons_append, List.head?_cons, Option.some.injEq] at hh
        rw [← hh]
        refine command_none ?_
        intro x hx
        cases e2 : t ++ ['\n'] with
        | nil => simp at e2
        | cons y s =>
          rw [e2] at hx
          simp only [List.head?_cons, Option.some.injEq] at hx
          rw [← hx]
          exact cvsInfo_line (okf.info t (by rw [e]; simp)).1 y s e2
    · intro l hl hp
      obtain ⟨t, ht, rfl⟩ := List.mem_map.1 hl
      exact (okf.info t ht).2 (prefix_newline (by decide) (List.isPrefixOf_iff_prefix.2 hp))
    · intro l hl
      exact (ncmds_lines f.cmds okf.cmds l hl).1.quiet.1

/-- **C32, defect.** No normal diff written by `cvs diff` is ever read: the library recognises generator and format, but looks for the
commands directly after the `Index: ` line, where `cvs` writes information lines.  The result is no model at all, and a report that the
diff is malformed. -/
theorem C32_cvs_defect (fs : List CvsNFile) (ok : ∀ f ∈ fs, f.Ok) (hc : ∃ f ∈ fs, f.cmds ≠ []) (win : Bool) (cmp : Str → Str → Int) (heap : Heap) :
    determineGenerator (split (fs.flatMap CvsNFile.render).flatten) = .CVSDiff ∧
    determineFormat .CVSDiff (split (fs.flatMap CvsNFile.render).flatten) = .Normal ∧
    parse win cmp heap (split (fs.flatMap CvsNFile.render).flatten) = Res.ok { models := none, malformed := true, heap := heap } := by
  have hwhole : ∀ l ∈ fs.flatMap CvsNFile.render, WholeLine l := by
    intro l hl
    obtain ⟨f, hf, hl⟩ := List.mem_flatMap.1 hl
    simp only [CvsNFile.render, List.mem_cons, List.mem_append, List.mem_map] at hl
    rcases hl with rfl | ⟨t, ht, rfl⟩ | hl
    · exact ⟨str "Index: " ++ f.name, by simp [(ok f hf).name]; decide, rfl⟩
    · exact ⟨t, ((ok f hf).info t ht).1.1.1, rfl⟩
    · exact (ncmds_lines f.cmds (ok f hf).cmds l hl).2
  rw [nlines_split _ hwhole]
  have hgen : determineGenerator (fs.flatMap CvsNFile.render) = .CVSDiff := by
    cases fs with
    | nil => obtain ⟨f, hf, _⟩ := hc; simp at hf
    | cons f fs =>
      simp only [List.flatMap_cons, CvsNFile.render, List.cons_append, determineGenerator]
      rw [if_pos (List.isPrefixOf_iff_prefix.2 ⟨f.name ++ ['\n'], by simp⟩)]
  have hfmt : determineFormat .CVSDiff (fs.flatMap CvsNFile.render) = .Normal := by
    clear hgen hwhole
    induction fs with
    | nil => obtain ⟨f, hf, _⟩ := hc; simp at hf
    | cons f fs ih =>
      have okf := ok f (by simp)
      have e : (f :: fs).flatMap CvsNFile.render = ((str "Index: " ++ f.name) :: f.info).map (· ++ ['\n']) ++
          (f.cmds.flatMap NCmd.render ++ fs.flatMap CvsNFile.render) := by simp [CvsNFile.render]
      have hidx : PreambleLine (str "Index: " ++ f.name) := by
        refine ⟨⟨by simp [okf.name]; decide, ?_, ?_, ?_⟩, ?_, ?_, ?_⟩
        · intro h; exact absurd (prefix_head h) (by decide)
        · intro h; exact absurd (prefix_head h) (by decide)
        · intro h; exact absurd (prefix_head h) (by decide)
        · intro h; exact absurd (prefix_head h) (by decide)
        · intro x s e
          have : 'I' = x := (List.cons.inj e).1
          rw [← this]; decide
        · intro x y s e hx
          have : 'I' = x := (List.cons.inj e).1
          rw [← this] at hx; exact absurd hx (by decide)
      rw [e, format_skip]
      · cases hcm : f.cmds with
        | cons c cs =>
          have h1 : lineFormat c.command (formatPatterns .CVSDiff) = some .Normal := by
            simp [formatPatterns, lineFormat, (normal_iff _).2 (command_normal c)]
          simp only [List.flatMap_cons, NCmd.render, List.cons_append, determineFormat, h1]
        | nil =>
          refine ih (fun f hf => ok f (by simp [hf])) ?_
          obtain ⟨g, hg, hgc⟩ := hc
          rcases List.mem_cons.1 hg with rfl | hg
          · exact absurd hcm hgc
          · exact ⟨g, hg, hgc⟩
      · intro l hl
        obtain ⟨t, ht, rfl⟩ := List.mem_map.1 hl
        refine preamble_format .CVSDiff (by simp) t ?_
        rcases List.mem_cons.1 ht with rfl | ht
        · exact hidx
        · exact (okf.info t ht).1
  have hclean : cleanUpCrap (fs.flatMap CvsNFile.render) = Res.ok (fs.flatMap CvsNFile.render) := by
    refine clean_quiet _ (fun l hl => ?_)
    obtain ⟨f, hf, hl⟩ := List.mem_flatMap.1 hl
    simp only [CvsNFile.render, List.mem_cons, List.mem_append, List.mem_map] at hl
    rcases hl with rfl | ⟨t, ht, rfl⟩ | hl
    · intro h; exact absurd (prefix_head h) (by decide)
    · intro hp; exact ((ok f hf).info t ht).1.1.2.2.2 (prefix_newline (by decide) (List.isPrefixOf_iff_prefix.2 hp))
    · exact (ncmds_lines f.cmds (ok f hf).cmds l hl).1.quiet.2.2.1
  refine ⟨hgen, hfmt, ?_⟩
  have hg := cvsNormal_guarded fs ok
  have hfirst : ∃ l ls, fs.flatMap CvsNFile.render = l :: ls ∧ normalHunkHeader l = none := by
    cases fs with
    | nil => obtain ⟨f, hf, _⟩ := hc; simp at hf
    | cons f fs =>
      refine ⟨_, _, by simp only [List.flatMap_cons, CvsNFile.render, List.cons_append]; rfl, command_none ?_⟩
      intro x hx
      have : 'I' = x := by simpa [str] using hx
      rw [← this]; unfold IsDigit; decide
  unfold parse
  rw [hclean, hgen]
  generalize fs.flatMap CvsNFile.render = L at hfmt hg hfirst ⊢
  simp only [Res.bind_ok, parseLines, hfmt, normalFiles, normalHeader]
  obtain ⟨st', k1, k2, k3, k4, k5, k6, k7⟩ := cvs_loop win (L.length + 1)
    { lines := L, rest := L, heap := heap, cur := {}, models := [], single := false, malformed := false } hg (by simp) rfl
  rw [k1]
  obtain ⟨l, ls, rfl, hl⟩ := hfirst
  simp only at k2 k7
  have hstop : normalHunks st' = Res.ok st' := normalLoop_stop st' _ (by
    intro h hh
    rw [k2] at hh
    simp only [List.head?_cons, Option.some.injEq] at hh
    rw [← hh]; exact hl)
  have hkeep : st'.keepModel = st' := by simp [PState.keepModel, k6]
  simp only [Res.bind_ok, k5, if_true, hstop, hkeep, k2, ne_eq, reduceCtorEq, not_false_eq_true, finishParse, k4, k7]
  simp

/-- A `cvs diff`. -/
def exampleCvsNormal : List CvsNFile :=
  [{ name := str "a.txt", info := [str "=======", str "RCS file: /cvs/a.txt,v", str "retrieving revision 1.1", str "diff -r1.1 a.txt"],
     cmds := exampleNormal }]

theorem exampleCvsNormal_ok : ∀ f ∈ exampleCvsNormal, f.Ok := by
  intro f hf
  simp only [exampleCvsNormal, List.mem_singleton] at hf
  subst hf
  refine ⟨by decide, by simp, ?_, exampleNormal_ok⟩
  intro t ht
  simp only [List.mem_cons, List.not_mem_nil, or_false] at ht
  rcases ht with rfl | rfl | rfl | rfl
  all_goals
    refine ⟨⟨⟨by decide, ?_, ?_, ?_⟩, ?_, ?_, ?_⟩, ?_⟩
    all_goals first
      | (rw [← List.isPrefixOf_iff_prefix]; decide)
      | (intro x s e; have := congrArg List.head? e; simp [str] at this; rw [← this]; decide)
      | (intro x y s e hx; have := congrArg List.head? e; simp [str] at this; rw [← this] at hx; exact absurd hx (by decide))
      | (intro x y s e hx; have := congrArg (fun l => l.tail.head?) e; simp [str] at this; rw [← this]; decide)

example (heap : Heap) : parse false (fun _ _ => 0) heap (split (exampleCvsNormal.flatMap CvsNFile.render).flatten) =
    Res.ok { models := none, malformed := true, heap := heap } :=
  (C32_cvs_defect exampleCvsNormal exampleCvsNormal_ok ⟨_, by simp [exampleCvsNormal]; rfl, by simp [exampleNormal]⟩ false _ heap).2.2

end KompareDiff2
