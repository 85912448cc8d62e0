import Verif.Spec.Parsed
/-
What it means to apply a diff to a file: no reference to the way the library does it.
-/
namespace KompareDiff2
namespace Spec

/-- Replace the lines `old`, the first of which has number `line`, by the lines `new`. -/
structure Edit where
  line : Int
  old : List Str
  new : List Str
  deriving Repr, DecidableEq

/-- `Patches pos es file out`: the edits apply in order and without offset to `file`, whose first line has number `pos + 1`, and
give `out`. -/
inductive Patches : Nat → List Edit → List Str → List Str → Prop where
  | done (pos : Nat) (rest : List Str) : Patches pos [] rest rest
  | edit (pos : Nat) (e : Edit) (es : List Edit) (keep file out : List Str) : e.line = (pos + keep.length + 1 : Nat) →
      Patches (pos + keep.length + e.old.length) es file out →
      Patches pos (e :: es) (keep ++ e.old ++ file) (keep ++ e.new ++ out)

/-- Lines of the old file shown by a hunk. -/
def HView.old (k : HView) : List Str := k.diffs.flatMap DView.src
/-- Lines of the new file shown by a hunk. -/
def HView.new (k : HView) : List Str := k.diffs.flatMap DView.dst
/-- The edit a hunk stands for. -/
def HView.edit (k : HView) : Edit := { line := k.srcLine, old := k.old, new := k.new }
/-- A hunk whose differences follow each other and whose unchanged lines are the same on both sides; this holds for all hunks of parsed
diffs. -/
def HView.Coherent (k : HView) : Prop :=
  Contiguous k.srcLine k.dstLine k.diffs ∧ ∀ v ∈ k.diffs, v.type = .Unchanged → v.src = v.dst

/-- The edit a difference stands for. -/
def DView.edit (d : DView) : Edit := { line := d.srcLine, old := d.src, new := d.dst }

/-- The edit a hunk of a unified diff stands for. -/
def UHunk.edit (h : UHunk) : Edit where
  line := h.srcLine
  old := h.blocks.flatMap (fun b => b.old.map Line.value)
  new := h.blocks.flatMap (fun b => b.new.map Line.value)

/-- The lines `ls`, unchanged, from line `a` of the old and line `b` of the new file. -/
def unchanged (a b : Int) (ls : List Str) : DView where
  type := .Unchanged
  srcLine := a
  dstLine := b
  tracking := a
  src := ls
  dst := ls
  applied := false
  unsaved := false
  conflicts := false

/-- The changes of a list of hunks that are not marked as applied. -/
def pending (hs : List HView) : List DView := (hs.flatMap HView.diffs).filter (fun d => d.type ≠ .Unchanged ∧ d.applied = false)

end Spec
end KompareDiff2
