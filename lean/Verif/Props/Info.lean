import Verif.Model.Info
import Verif.Proofs.Decimal
/-
Properties of `Info`, `DiffSettings`, `lstripSeparators` and of the command line for the diff program: C42–C45.
-/
namespace KompareDiff2

/-! ## C42 -/

/-- C42: everything that belongs to one side is exchanged with the other side, and nothing else changes. -/
theorem C42_swap (i : Info) :
    i.swap.source = i.destination ∧ i.swap.destination = i.source ∧
    i.swap.localSource = i.localDestination ∧ i.swap.localDestination = i.localSource ∧
    i.swap.sourceTempDir = i.destinationTempDir ∧ i.swap.destinationTempDir = i.sourceTempDir ∧
    i.swap.mode = i.mode ∧ i.swap.diffMode = i.diffMode ∧ i.swap.format = i.format ∧ i.swap.generator = i.generator ∧
    i.swap.depth = i.depth ∧ i.swap.applied = i.applied :=
  ⟨rfl, rfl, rfl, rfl, rfl, rfl, rfl, rfl, rfl, rfl, rfl, rfl⟩

/-- C42: swapping twice changes nothing. -/
theorem C42_swap_involutive (i : Info) : i.swap.swap = i := rfl

example : ({ localSource := str "a", localDestination := str "b", depth := 2 } : Info).swap =
    { localSource := str "b", localDestination := str "a", depth := 2 } := rfl

/-! ## C43 -/

theorem findIdx?_split {c : Char} {a b : Str} (ha : c ∉ a) : (a ++ c :: b).findIdx? (fun x => decide (x = c)) = some a.length := by
  induction a with
  | nil => rw [List.nil_append, List.findIdx?_cons]; simp
  | cons x a ih =>
    simp only [List.mem_cons, not_or] at ha
    rw [List.cons_append, List.findIdx?_cons, ih ha.2]
    simp [Ne.symm ha.1]

theorem findIdx?_none_of {c : Char} {a : Str} (ha : c ∉ a) : a.findIdx? (fun x => decide (x = c)) = none := by
  rw [List.findIdx?_eq_none_iff]
  intro x hx
  simp only [decide_eq_false_iff_not]
  rintro rfl; exact ha hx

theorem lstripLoop_none {s : Str} (hs : '/' ∉ s) (n pos : Nat) : lstripLoop s (n + 1) pos = none := by
  unfold lstripLoop indexOfFrom
  rw [findIdx?_none_of (fun h => hs (List.mem_of_mem_drop h))]

theorem lstripLoop_at {a b : Str} (n : Nat) : lstripLoop (a ++ '/' :: b) n a.length = some a.length := by
  induction n with
  | zero => rfl
  | succ n ih =>
    unfold lstripLoop indexOfFrom
    have : ((a ++ '/' :: b).drop a.length).findIdx? (fun x => decide (x = '/')) = some 0 := by
      rw [List.drop_left, List.findIdx?_cons]; simp
    rw [this]
    exact ih

/-- C43: with depth 1 everything up to and including the first `/` is removed; without a `/` nothing is left. -/
theorem C43_strip_one (a b : Str) (ha : '/' ∉ a) :
    lstripSeparators (a ++ '/' :: b) 1 = b ∧ lstripSeparators a 1 = [] := by
  constructor
  · have h : lstripLoop (a ++ '/' :: b) 1 0 = some a.length := by
      unfold lstripLoop indexOfFrom
      rw [List.drop_zero, findIdx?_split ha]
      simp [lstripLoop]
    unfold lstripSeparators
    rw [h]
    simp
  · unfold lstripSeparators
    rw [lstripLoop_none ha]

/-- C43, defect: a greater depth removes no more than depth 1. -/
theorem C43_depth_defect (s : Str) (n : Nat) : lstripSeparators s (n + 1) = lstripSeparators s 1 := by
  by_cases hs : '/' ∈ s
  · obtain ⟨a, b, rfl, ha⟩ := List.eq_append_cons_of_mem hs
    have h : ∀ k, lstripLoop (a ++ '/' :: b) (k + 1) 0 = some a.length := by
      intro k
      show (match indexOfFrom '/' (a ++ '/' :: b) 0 with | none => none | some p => lstripLoop (a ++ '/' :: b) k p) = _
      unfold indexOfFrom
      rw [List.drop_zero, findIdx?_split ha]
      simp only [Nat.zero_add]
      exact lstripLoop_at k
    unfold lstripSeparators
    rw [h n, h 0]
  · unfold lstripSeparators
    rw [lstripLoop_none hs, lstripLoop_none hs]

/-- C43, defect: with depth 0 the first character is removed. -/
theorem C43_zero_defect (s : Str) : lstripSeparators s 0 = s.drop 1 := rfl

/-- C43: so "remove `n` leading components" fails for every path with at least two separators and `n = 2`. -/
theorem C43_intended_refuted (a b c : Str) (ha : '/' ∉ a) (_hb : '/' ∉ b) :
    lstripSeparators (a ++ '/' :: (b ++ '/' :: c)) 2 = b ++ '/' :: c ∧ b ++ '/' :: c ≠ c := by
  refine ⟨by rw [C43_depth_defect, (C43_strip_one a _ ha).1], fun h => ?_⟩
  have := congrArg List.length h
  simp at this
  omega

example : lstripSeparators (str "src/lib/a.c") 1 = str "lib/a.c" ∧ lstripSeparators (str "src/lib/a.c") 2 = str "lib/a.c" ∧
    lstripSeparators (str "src/lib/a.c") 0 = str "rc/lib/a.c" ∧ lstripSeparators (str "a.c") 1 = [] := by decide

/-! ## C44 -/

/-- C44: loading after saving restores every setting, whatever was stored before. -/
theorem C44_load_save (s : Settings) (c : Config) : Settings.load (s.save c) = s := by
  simp [Settings.load, Settings.save, Config.readText, Config.readInt, Config.readBool, Config.readList, Config.write]

/-- The keys written to the group "Diff Options". -/
def settingsKeys : List String :=
  ["DiffProgram", "LinesOfContext", "Format", "LargeFiles", "IgnoreWhiteSpace", "IgnoreAllWhiteSpace", "IgnoreEmptyLines",
   "IgnoreChangesInCase", "IgnoreChangesDueToTabExpansion", "IgnoreRegExp", "IgnoreRegExpText", "IgnoreRegExpTextHistory",
   "CreateSmallerDiff", "ConvertTabsToSpaces", "ShowCFunctionChange", "CompareRecursively", "NewFiles"]

/-- The keys written to the group "Exclude File Options". -/
def excludeKeys : List String := ["Pattern", "PatternList", "File", "FileURL", "FileHistoryList"]

/-- C44: saving changes no other entry of the configuration. -/
theorem C44_save_frame (s : Settings) (c : Config) (g k : String)
    (h : ¬ (g = "Diff Options" ∧ k ∈ settingsKeys) ∧ ¬ (g = "Exclude File Options" ∧ k ∈ excludeKeys)) : s.save c g k = c g k := by
  simp only [settingsKeys, excludeKeys, List.mem_cons, List.not_mem_nil, or_false, not_and, not_or] at h
  by_cases h1 : g = "Diff Options"
  · have := h.1 h1
    simp [Settings.save, Config.write, this, h1]
  · by_cases h2 : g = "Exclude File Options"
    · have := h.2 h2
      simp [Settings.save, Config.write, this, h2]
    · simp [Settings.save, Config.write, h1, h2]

/-- C44: saving overwrites all of them: the result depends on the earlier configuration only in the other entries. -/
theorem C44_save_all (s : Settings) (c c' : Config) (g k : String)
    (h : (g = "Diff Options" ∧ k ∈ settingsKeys) ∨ (g = "Exclude File Options" ∧ k ∈ excludeKeys)) :
    s.save c g k = s.save c' g k ∧ s.save c g k ≠ none := by
  rcases h with ⟨rfl, h⟩ | ⟨rfl, h⟩
  · simp only [settingsKeys, List.mem_cons, List.not_mem_nil, or_false] at h
    rcases h with rfl | rfl | rfl | rfl | rfl | rfl | rfl | rfl | rfl | rfl | rfl | rfl | rfl | rfl | rfl | rfl | rfl <;>
      simp [Settings.save, Config.write]
  · simp only [excludeKeys, List.mem_cons, List.not_mem_nil, or_false] at h
    rcases h with rfl | rfl | rfl | rfl | rfl <;> simp [Settings.save, Config.write]

/-- C44: what is used when nothing was ever saved: unified format with three lines of context, large files, smaller diff, recursively,
new files as empty, the first `diff` in the path. -/
theorem C44_defaults : Settings.load (fun _ _ => none) =
    { linesOfContext := 3, format := Format.number .Unified, largeFiles := true, createSmallerDiff := true, recursive := true, newFiles := true } :=
  rfl

example : Settings.load (({ diffProgram := str "/bin/diff", linesOfContext := 7, ignoreRegExpTextHistory := [str "x", str "y"] } : Settings).save
    (fun _ _ => some (.int 5))) = { diffProgram := str "/bin/diff", linesOfContext := 7, ignoreRegExpTextHistory := [str "x", str "y"] } :=
  C44_load_save _ _

/-! ## C45 -/

/-- An option of the diff program: a switch, or a switch with a value in the next argument. -/
inductive DiffOption where
  | flag (c : Char)
  | value (c : Char) (v : Str)
  deriving DecidableEq

/-- The arguments an option consists of. -/
def DiffOption.render : DiffOption → List Str
  | .flag c => [['-', c]]
  | .value c v => [['-', c], v]

/-- The file name pattern excluded by an option. -/
def DiffOption.excludes : DiffOption → Option Str
  | .value c v => if c = 'x' then some v else none
  | .flag _ => none

/-- The switches asked for by the settings.  In particular none of them is `-a`. -/
def Settings.wantsFlag (s : Settings) (c : Char) : Prop :=
  (c = 'n' ∧ s.format = Format.number .RCS) ∨ (c = 'e' ∧ s.format = Format.number .Ed) ∨ (c = 'y' ∧ s.format = 5) ∨
  (c = 'H' ∧ s.largeFiles = true) ∨ (c = 'b' ∧ s.ignoreWhiteSpace = true) ∨ (c = 'w' ∧ s.ignoreAllWhiteSpace = true) ∨
  (c = 'B' ∧ s.ignoreEmptyLines = true) ∨ (c = 'E' ∧ s.ignoreChangesDueToTabExpansion = true) ∨ (c = 'd' ∧ s.createSmallerDiff = true) ∨
  (c = 'i' ∧ s.ignoreChangesInCase = true) ∨ (c = 'p' ∧ s.showCFunctionChange = true) ∨ (c = 't' ∧ s.convertTabsToSpaces = true) ∨
  (c = 'r' ∧ s.recursive = true) ∨ (c = 'N' ∧ s.newFiles = true)

/-- The switches with values asked for by the settings. -/
def Settings.wantsValue (s : Settings) (c : Char) (v : Str) : Prop :=
  (c = 'U' ∧ s.format = Format.number .Unified ∧ v = decInt s.linesOfContext) ∨
  (c = 'C' ∧ s.format = Format.number .Context ∧ v = decInt s.linesOfContext) ∨
  (c = 'I' ∧ s.ignoreRegExp = true ∧ v = s.ignoreRegExpText ∧ v ≠ []) ∨
  (c = 'x' ∧ s.excludeFilePattern = true ∧ v ∈ s.excludeFilePatternList) ∨
  (c = 'X' ∧ s.excludeFilesFile = true ∧ v = s.excludeFilesFileURL ∧ v ≠ [])

/-- The options in the order in which they are added. -/
def Settings.options (s : Settings) : List DiffOption :=
  (if s.format = 4 then [.value 'U' (decInt s.linesOfContext)]
   else if s.format = 0 then [.value 'C' (decInt s.linesOfContext)]
   else if s.format = 3 then [.flag 'n']
   else if s.format = 1 then [.flag 'e']
   else if s.format = 5 then [.flag 'y']
   else []) ++
  (if s.largeFiles then [.flag 'H'] else []) ++ (if s.ignoreWhiteSpace then [.flag 'b'] else []) ++
  (if s.ignoreAllWhiteSpace then [.flag 'w'] else []) ++ (if s.ignoreEmptyLines then [.flag 'B'] else []) ++
  (if s.ignoreChangesDueToTabExpansion then [.flag 'E'] else []) ++ (if s.createSmallerDiff then [.flag 'd'] else []) ++
  (if s.ignoreChangesInCase then [.flag 'i'] else []) ++
  (if s.ignoreRegExp = true ∧ s.ignoreRegExpText ≠ [] then [.value 'I' s.ignoreRegExpText] else []) ++
  (if s.showCFunctionChange then [.flag 'p'] else []) ++ (if s.convertTabsToSpaces then [.flag 't'] else []) ++
  (if s.recursive then [.flag 'r'] else []) ++ (if s.newFiles then [.flag 'N'] else []) ++
  (if s.excludeFilePattern then s.excludeFilePatternList.map (.value 'x') else []) ++
  (if s.excludeFilesFile = true ∧ s.excludeFilesFileURL ≠ [] then [.value 'X' s.excludeFilesFileURL] else [])

theorem mem_optional (b : Prop) [Decidable b] (x : DiffOption) (l : List DiffOption) : x ∈ (if b then l else []) ↔ b ∧ x ∈ l := by
  split <;> simp [*]

theorem options_flag (s : Settings) (c : Char) : DiffOption.flag c ∈ s.options ↔ s.wantsFlag c := by
  unfold Settings.options Settings.wantsFlag Format.number
  simp only [List.mem_append, mem_optional, List.mem_map, List.mem_singleton, DiffOption.flag.injEq, reduceCtorEq, and_false, false_and,
    exists_false, or_false]
  have hf : (DiffOption.flag c ∈ (if s.format = 4 then [DiffOption.value 'U' (decInt s.linesOfContext)]
      else if s.format = 0 then [.value 'C' (decInt s.linesOfContext)] else if s.format = 3 then [.flag 'n']
      else if s.format = 1 then [.flag 'e'] else if s.format = 5 then [.flag 'y'] else [])) ↔
      (c = 'n' ∧ s.format = 3) ∨ (c = 'e' ∧ s.format = 1) ∨ (c = 'y' ∧ s.format = 5) := by
    split
    · simp [*]
    · split
      · simp [*]
      · split
        · simp [*]
        · split
          · simp [*]
          · split <;> simp [*]
  rw [hf]
  simp only [or_assoc, and_comm]

theorem options_value (s : Settings) (c : Char) (v : Str) : DiffOption.value c v ∈ s.options ↔ s.wantsValue c v := by
  unfold Settings.options Settings.wantsValue Format.number
  simp only [List.mem_append, mem_optional, List.mem_map, List.mem_singleton, DiffOption.value.injEq, reduceCtorEq, and_false, false_or,
    or_false]
  have hf : (DiffOption.value c v ∈ (if s.format = 4 then [DiffOption.value 'U' (decInt s.linesOfContext)]
      else if s.format = 0 then [.value 'C' (decInt s.linesOfContext)] else if s.format = 3 then [.flag 'n']
      else if s.format = 1 then [.flag 'e'] else if s.format = 5 then [.flag 'y'] else [])) ↔
      (c = 'U' ∧ s.format = 4 ∧ v = decInt s.linesOfContext) ∨ (c = 'C' ∧ s.format = 0 ∧ v = decInt s.linesOfContext) := by
    split
    · simp [*]
    · split
      · simp [*]
      · split
        · simp [*]
        · split
          · simp [*]
          · split <;> simp [*]
  rw [hf]
  have hx : (∃ a, a ∈ s.excludeFilePatternList ∧ 'x' = c ∧ a = v) ↔ c = 'x' ∧ v ∈ s.excludeFilePatternList :=
    ⟨fun ⟨a, h1, h2, h3⟩ => ⟨h2.symm, h3 ▸ h1⟩, fun ⟨h1, h2⟩ => ⟨v, h2, h1.symm, rfl⟩⟩
  rw [hx]
  constructor
  · rintro (((h | h) | h) | h)
    · rcases h with h | h
      · exact .inl h
      · exact .inr (.inl h)
    · exact .inr (.inr (.inl ⟨h.2.1, h.1.1, h.2.2, h.2.2 ▸ h.1.2⟩))
    · exact .inr (.inr (.inr (.inl ⟨h.2.1, h.1, h.2.2⟩)))
    · exact .inr (.inr (.inr (.inr ⟨h.2.1, h.1.1, h.2.2, h.2.2 ▸ h.1.2⟩)))
  · rintro (h | h | h | h | h)
    · exact .inl (.inl (.inl (.inl h)))
    · exact .inl (.inl (.inl (.inr h)))
    · exact .inl (.inl (.inr ⟨⟨h.2.1, h.2.2.1 ▸ h.2.2.2⟩, h.1, h.2.2.1⟩))
    · exact .inl (.inr ⟨h.2.1, h.1, h.2.2⟩)
    · exact .inr ⟨⟨h.2.1, h.2.2.1 ▸ h.2.2.2⟩, h.1, h.2.2.1⟩

theorem flatMap_optional (b : Prop) [Decidable b] (l : List DiffOption) :
    (if b then l else []).flatMap DiffOption.render = if b then l.flatMap DiffOption.render else [] := by
  split <;> rfl

/-- C45: the command line is the program (the configured one, or `diff`), followed by options which are exactly those asked for by the
settings: each switch at most once, the patterns for excluded files in their order. -/
theorem C45_command_line (s : Settings) :
    ∃ opts : List DiffOption,
      s.commandLine = (if s.diffProgram = [] then str "diff" else s.diffProgram) :: opts.flatMap DiffOption.render ∧
      (∀ c, DiffOption.flag c ∈ opts ↔ s.wantsFlag c) ∧ (∀ c v, DiffOption.value c v ∈ opts ↔ s.wantsValue c v) ∧
      (∀ c, opts.count (.flag c) ≤ 1) ∧
      opts.filterMap DiffOption.excludes = (if s.excludeFilePattern then s.excludeFilePatternList else []) := by
  refine ⟨s.options, ?_, options_flag s, options_value s, ?_, ?_⟩
  · have e1 : (if s.diffProgram = [] then [str "diff"] else [s.diffProgram]) = [if s.diffProgram = [] then str "diff" else s.diffProgram] := by
      split <;> rfl
    have ef : (if s.format = 4 then [DiffOption.value 'U' (decInt s.linesOfContext)]
        else if s.format = 0 then [.value 'C' (decInt s.linesOfContext)] else if s.format = 3 then [.flag 'n']
        else if s.format = 1 then [.flag 'e'] else if s.format = 5 then [.flag 'y'] else []).flatMap DiffOption.render =
        (if s.format = 4 then [str "-U", decInt s.linesOfContext]
         else if s.format = 0 then [str "-C", decInt s.linesOfContext]
         else if s.format = 3 then [str "-n"]
         else if s.format = 1 then [str "-e"]
         else if s.format = 5 then [str "-y"]
         else []) := by
      repeat' split
      all_goals rfl
    unfold Settings.commandLine Settings.options switchIf
    simp only [List.flatMap_append, flatMap_optional, List.append_assoc, ef, e1]
    simp only [Bool.and_eq_true, decide_eq_true_eq, List.flatMap_map]
    rfl
  · intro c
    have h1 : ∀ (b : Prop) [Decidable b] (x : Char), (if b then [DiffOption.flag x] else []).count (.flag c) ≤ if x = c then 1 else 0 := by
      intro b _ x
      by_cases hb : b
      · rw [if_pos hb]; simp [List.count_singleton]
      · rw [if_neg hb]; simp
    have h2 : ∀ (b : Prop) [Decidable b] (x : Char) (v : Str), (if b then [DiffOption.value x v] else []).count (.flag c) = 0 := by
      intro b _ x v
      split <;> simp [List.count_singleton]
    have h3 : (if s.excludeFilePattern then s.excludeFilePatternList.map (DiffOption.value 'x') else []).count (.flag c) = 0 := by
      rw [List.count_eq_zero, mem_optional]
      simp
    have h4 : (if s.format = 4 then [DiffOption.value 'U' (decInt s.linesOfContext)]
        else if s.format = 0 then [.value 'C' (decInt s.linesOfContext)] else if s.format = 3 then [.flag 'n']
        else if s.format = 1 then [.flag 'e'] else if s.format = 5 then [.flag 'y'] else []).count (.flag c) ≤
        if c = 'n' ∨ c = 'e' ∨ c = 'y' then 1 else 0 := by
      by_cases hc : c = 'n' ∨ c = 'e' ∨ c = 'y'
      · rw [if_pos hc]
        repeat' split
        all_goals exact Nat.le_trans (List.count_le_length) (by simp)
      · rw [if_neg hc]
        simp only [not_or] at hc
        repeat' split
        all_goals simp [List.count_singleton, Ne.symm hc.1, Ne.symm hc.2.1, Ne.symm hc.2.2]
    unfold Settings.options
    simp only [List.count_append, h2, h3, Nat.add_zero]
    have := h1 (s.largeFiles = true) 'H'
    have := h1 (s.ignoreWhiteSpace = true) 'b'
    have := h1 (s.ignoreAllWhiteSpace = true) 'w'
    have := h1 (s.ignoreEmptyLines = true) 'B'
    have := h1 (s.ignoreChangesDueToTabExpansion = true) 'E'
    have := h1 (s.createSmallerDiff = true) 'd'
    have := h1 (s.ignoreChangesInCase = true) 'i'
    have := h1 (s.showCFunctionChange = true) 'p'
    have := h1 (s.convertTabsToSpaces = true) 't'
    have := h1 (s.recursive = true) 'r'
    have := h1 (s.newFiles = true) 'N'
    have hs : (if c = 'n' ∨ c = 'e' ∨ c = 'y' then 1 else 0) + (if 'H' = c then 1 else 0) + (if 'b' = c then 1 else 0) +
        (if 'w' = c then 1 else 0) + (if 'B' = c then 1 else 0) + (if 'E' = c then 1 else 0) + (if 'd' = c then 1 else 0) +
        (if 'i' = c then 1 else 0) + (if 'p' = c then 1 else 0) + (if 't' = c then 1 else 0) + (if 'r' = c then 1 else 0) +
        (if 'N' = c then 1 else 0) ≤ 1 := by
      by_cases e : c = 'n' ∨ c = 'e' ∨ c = 'y'
      · rcases e with rfl | rfl | rfl <;> decide
      rw [if_neg e]
      by_cases e : 'H' = c
      · subst e; decide
      by_cases e : 'b' = c
      · subst e; decide
      by_cases e : 'w' = c
      · subst e; decide
      by_cases e : 'B' = c
      · subst e; decide
      by_cases e : 'E' = c
      · subst e; decide
      by_cases e : 'd' = c
      · subst e; decide
      by_cases e : 'i' = c
      · subst e; decide
      by_cases e : 'p' = c
      · subst e; decide
      by_cases e : 't' = c
      · subst e; decide
      by_cases e : 'r' = c
      · subst e; decide
      simp only [*, if_false]
      split <;> decide
    omega
  · have h0 : ∀ (b : Prop) [Decidable b] (x : DiffOption), x.excludes = none → (if b then [x] else []).filterMap DiffOption.excludes = [] := by
      intro b _ x hx
      split <;> simp [hx]
    have h4 : (if s.format = 4 then [DiffOption.value 'U' (decInt s.linesOfContext)]
        else if s.format = 0 then [.value 'C' (decInt s.linesOfContext)] else if s.format = 3 then [.flag 'n']
        else if s.format = 1 then [.flag 'e'] else if s.format = 5 then [.flag 'y'] else []).filterMap DiffOption.excludes = [] := by
      repeat' split
      all_goals rfl
    have h5 : (if s.excludeFilePattern then s.excludeFilePatternList.map (DiffOption.value 'x') else []).filterMap DiffOption.excludes =
        if s.excludeFilePattern then s.excludeFilePatternList else [] := by
      split
      · rw [List.filterMap_map]
        exact List.filterMap_some
      · rfl
    unfold Settings.options
    simp only [List.filterMap_append, h4, h5, h0 _ (.flag _) rfl, h0 _ (.value 'I' _) rfl, h0 _ (.value 'X' _) rfl, List.append_nil, List.nil_append]

/-- C45: the operands follow the options after `--`, the source first: a file by its path relative to the directory of the process, and
the text given instead of a file as `-`, with the text itself on the standard input. -/
theorem C45_operands (rel : Str → Str) (s : Settings) (mode : Mode) (source destination : Str) :
    processArgs rel (some s) .Custom mode source destination =
      Res.ok (s.commandLine ++ [str "--", if mode = .ComparingStringFile then str "-" else rel source,
          if mode = .ComparingFileString then str "-" else rel destination],
        if mode = .ComparingFileString then some destination else if mode = .ComparingStringFile then some source else none) := rfl

/-- C45: in the default mode the settings decide only the program and the number of lines of context. -/
theorem C45_default (rel : Str → Str) (s : Settings) (mode : Mode) (source destination : Str) :
    processArgs rel (some s) .Default mode source destination =
      Res.ok ([if s.diffProgram = [] then str "diff" else s.diffProgram, str "-dr", str "-U", decInt s.linesOfContext, str "--",
          if mode = .ComparingStringFile then str "-" else rel source, if mode = .ComparingFileString then str "-" else rel destination],
        if mode = .ComparingFileString then some destination else if mode = .ComparingStringFile then some source else none) := by
  unfold processArgs defaultCommandLine
  by_cases h : s.diffProgram = []
  · simp [h]
  · simp [h]

/-- C45: settings that were made but neither loaded nor changed run `diff -U 0` on the two files. -/
theorem C45_new_settings (rel : Str → Str) {mode : Mode} (hm : mode = .ComparingFiles ∨ mode = .ComparingDirs) (source destination : Str) :
    processArgs rel (some {}) .Custom mode source destination =
      Res.ok ([str "diff", str "-U", str "0", str "--", rel source, rel destination], none) := by
  have e : ({} : Settings).commandLine = [str "diff", str "-U", str "0"] := by
    have z : decInt 0 = str "0" := by
      show decNat 0 = _
      rw [decNat]; decide
    rw [← z]
    rfl
  rw [C45_operands, e]
  rcases hm with rfl | rfl <;> rfl

/-- C45: without settings the process cannot be created, in any mode. -/
theorem C45_null_settings_ub (rel : Str → Str) (dm : DiffMode) (mode : Mode) (source destination : Str) :
    processArgs rel none dm mode source destination = Res.ub := by
  cases dm <;> rfl

example : processArgs id (some { excludeFilePattern := true, excludeFilePatternList := [str "*.o", str "*.a"], recursive := true, linesOfContext := 3 })
    .Custom .ComparingFileString (str "a.c") (str "int x;") =
    Res.ok ([str "diff", str "-U", decInt 3, str "-r", str "-x", str "*.o", str "-x", str "*.a", str "--", str "a.c", str "-"], some (str "int x;")) := by
  simp [C45_operands, Settings.commandLine, switchIf]

end KompareDiff2
