import Verif.Proofs.NormalFlag
import Verif.Props.ShownNormal
/-
C30: the malformed flag of the normal parser.
-/
namespace KompareDiff2
open Spec

/-- **C30.** Whatever the lines are, there is exactly one place where the commands at their beginning end. -/
theorem C30_normal_rest (ls : List Str) : ∃ rest, AfterCommands ls (some rest) ∧ rest <:+ ls ∧ ∀ r, AfterCommands ls r → r = some rest := by
  let st : PState := { lines := ls, rest := ls, heap := { cell := fun _ => Diff.new 0 0, next := 0 }, cur := {}, models := [], single := false, malformed := false }
  have hf : FoundAll HView.NormalOk st.heap st := start_found _ _ _
  cases h : normalHunks st with
  | ub => exact absurd h (normalHunkLoop_defined _ _)
  | hang => exact absurd h (normalHunks_ends st)
  | ok s =>
    obtain ⟨hs, g, _⟩ := (normalHunks_shown _ st s h).shown st.heap (hf.start (st' := st) rfl rfl empty_blank)
    refine ⟨s.rest, ⟨hs, _, rfl, g⟩, ?_, ?_⟩
    · obtain ⟨top, e, _⟩ := normalShown_top g
      exact ⟨top, e.symm⟩
    · rintro r ⟨hs', rest', rfl, g'⟩
      rw [(normalShown_det g g').2]

/-- **C30.** Normal format, not Perforce: `malformed` is set exactly if the lines do not consist of commands only, from the first to the
last.  (So the flag says nothing about files with headers.) -/
theorem C30_normal_malformed_iff (win : Bool) (cmp : Str → Str → Int) (g : Generator) (heap : Heap) (lines rest : List Str) (r : ParseResult)
    (hg : g ≠ .Perforce) (hf : determineFormat g lines = .Normal) (hr : AfterCommands lines (some rest))
    (h : parseLines win cmp g heap lines = Res.ok r) : r.malformed = true ↔ rest ≠ [] := by
  unfold parseLines at h
  simp only [hf] at h
  obtain ⟨st, hst, h⟩ := Res.bind_eq_ok.1 h
  simp only [Res.ok.injEq] at h
  obtain ⟨hs, rest', e, hn⟩ := hr
  simp only [Option.some.injEq] at e
  subst e
  rw [← h]
  exact (normalFiles_flag (start_found _ heap lines) rfl rfl rfl hst).2 hg hs rest hn

/-- **C30 (defect).** Every normal diff that has a file header anywhere – what `diff -r` and `cvs diff` write – is reported as malformed,
however well formed it is. -/
theorem C30_normal_header_defect (win : Bool) (cmp : Str → Str → Int) (g : Generator) (heap : Heap) (lines : List Str) (l : Str) (hg : g ≠ .Perforce)
    (hf : determineFormat g lines = .Normal) (hl : l ∈ lines) (hd : (normalOpening g).first l) :
    ∃ r, parseLines win cmp g heap lines = Res.ok r ∧ r.malformed = true := by
  obtain ⟨r, h⟩ := C72_normal_defined win cmp g heap lines hf
  obtain ⟨rest, hr, _⟩ := C30_normal_rest lines
  refine ⟨r, h, (C30_normal_malformed_iff win cmp g heap lines rest r hg hf hr h).2 ?_⟩
  rintro rfl
  obtain ⟨hs, rest', e, hn⟩ := hr
  simp only [Option.some.injEq] at e
  subst e
  obtain ⟨top, e1, ht⟩ := normalShown_top hn
  rw [e1, List.append_nil] at hl
  exact commands_noHeader hg (ht l hl) hd

/-- **C30.** Normal format, Perforce: `malformed` is set exactly if after the commands of some file the next line exists and is neither a
file header nor begins with `Index: `, `diff ` or `-- `. -/
theorem C30_perforce_normal_malformed_iff (win : Bool) (cmp : Str → Str → Int) (heap : Heap) (lines : List Str) (stops : List (List Str))
    (out : Outcome) (r : ParseResult) (hf : determineFormat .Perforce lines = .Normal)
    (hr : Reading (normalOpening .Perforce) AfterCommands lines stops out) (h : parseLines win cmp .Perforce heap lines = Res.ok r) :
    r.malformed = true ↔ ∃ rest ∈ stops, BadStop (normalOpening .Perforce) rest := by
  unfold parseLines at h
  simp only [hf] at h
  obtain ⟨st, hst, h⟩ := Res.bind_eq_ok.1 h
  simp only [Res.ok.injEq] at h
  rw [← h]
  exact (normalFiles_flag (start_found _ heap lines) rfl rfl rfl hst).1 rfl stops out hr

/-- **C30.** Every text has such a reading. -/
theorem C30_perforce_normal_reading (lines : List Str) : ∃ stops out, Reading (normalOpening .Perforce) AfterCommands lines stops out := by
  refine reading_total _ (fun ls => ?_) lines
  obtain ⟨rest, h1, h2, _⟩ := C30_normal_rest ls
  exact .inr ⟨rest, h1, h2.length_le⟩

/-! ### The hypotheses are met -/

/-- A directory with one changed file, as `diff -r` writes it. -/
example (win : Bool) (cmp : Str → Str → Int) (heap : Heap) :
    ∃ r, parseLines win cmp .Diff heap [str "diff -r a/x b/x\n", str "1a2\n", str "> new\n"] = Res.ok r ∧ r.malformed = true := by
  refine C30_normal_header_defect win cmp .Diff heap _ (str "diff -r a/x b/x\n") (by simp) (by decide) (by simp) ⟨str "-r a/x b/x", by decide, by decide, by decide⟩

/-- The Perforce theorem applies: the format is recognised, the lines have a reading, and the parser returns. -/
example (cmp : Str → Str → Int) (heap : Heap) : ∃ stops out r,
    Reading (normalOpening .Perforce) AfterCommands [str "==== //d/x#1 - /h/x ====\n", str "1a2\n", str "> new\n", str "?\n"] stops out ∧
    parseLines false cmp .Perforce heap [str "==== //d/x#1 - /h/x ====\n", str "1a2\n", str "> new\n", str "?\n"] = Res.ok r ∧
    (r.malformed = true ↔ ∃ rest ∈ stops, BadStop (normalOpening .Perforce) rest) := by
  have hf : determineFormat .Perforce [str "==== //d/x#1 - /h/x ====\n", str "1a2\n", str "> new\n", str "?\n"] = .Normal := by decide
  obtain ⟨stops, out, hr⟩ := C30_perforce_normal_reading [str "==== //d/x#1 - /h/x ====\n", str "1a2\n", str "> new\n", str "?\n"]
  obtain ⟨r, h⟩ := C72_normal_defined false cmp .Perforce heap _ hf
  exact ⟨stops, out, r, hr, h, C30_perforce_normal_malformed_iff false cmp heap _ stops out r hf hr h⟩

end KompareDiff2
