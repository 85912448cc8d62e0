import Verif.Spec.Unified
/-
What a client may rely on for every model returned by the parser, whatever the input was.
-/
namespace KompareDiff2
namespace Spec

/-- A difference nobody has touched yet. -/
def DView.Fresh (v : DView) : Prop := v.applied = false ∧ v.unsaved = false ∧ v.conflicts = false ∧ v.tracking = v.srcLine

/-- The type says which sides hold lines; unchanged lines are the same on both sides. -/
def DView.SidesAgree (v : DView) : Prop :=
  match v.type with
  | .Unchanged => v.src = v.dst ∧ v.src ≠ []
  | .Insert => v.src = [] ∧ v.dst ≠ []
  | .Delete => v.src ≠ [] ∧ v.dst = []
  | .Change => v.src ≠ [] ∧ v.dst ≠ []

/-- Each difference starts where the previous one ended, on both sides. -/
def Contiguous : Int → Int → List DView → Prop
  | _, _, [] => True
  | a, b, v :: vs => v.srcLine = a ∧ v.dstLine = b ∧ Contiguous (a + v.src.length) (b + v.dst.length) vs

/-- A hunk of a unified diff. -/
def HView.UnifiedOk (h : HView) : Prop :=
  h.type = .Normal ∧ Contiguous h.srcLine h.dstLine h.diffs ∧ ∀ v ∈ h.diffs, v.Fresh ∧ v.SidesAgree

/-- What a correct split of `path` into directory and file name is. -/
def SplitOf (path dir file : Str) : Prop :=
  dir ++ file = path ∧ '/' ∉ file ∧ (dir = [] ∨ dir.getLast? = some '/')

end Spec

/-- The directories and file names of a model are those of the names in the diff. -/
def DModel.PathsFit (m : DModel) : Prop :=
  Spec.SplitOf m.source m.sourcePath m.sourceFile ∧ Spec.SplitOf m.destination m.destinationPath m.destinationFile

/-- The pointers held by the hunks of a model, in order. -/
def DModel.hunkIds (m : DModel) : List Nat := m.hunks.flatMap (fun k => k.diffs)

/-- A model as the parser returns it: the differences are exactly the changed ones of the hunks, in order and without
repetition; nothing is applied or selected; every hunk satisfies `P`. -/
structure Parsed (P : Spec.HView → Prop) (h : Heap) (m : DModel) : Prop where
  nodup : m.hunkIds.Nodup
  alloc : ∀ i ∈ m.hunkIds, i < h.next
  differences : m.differences = m.hunkIds.filter (fun i => decide ((h.cell i).type ≠ .Unchanged))
  connected : m.connected = m.differences
  initial : m.appliedCount = 0 ∧ m.diffIndex = 0 ∧ m.selected = none ∧ m.blended = false
  hunks : ∀ k ∈ m.hunks, P (k.view h)
  paths : m.PathsFit

end KompareDiff2

namespace KompareDiff2
namespace Spec

/-- As `SidesAgree`, but a change may have an empty side (as the context format allows). -/
def DView.SidesAgreeContext (v : DView) : Prop :=
  match v.type with
  | .Unchanged => v.src = v.dst ∧ v.src ≠ []
  | .Insert => v.src = [] ∧ v.dst ≠ []
  | .Delete => v.src ≠ [] ∧ v.dst = []
  | .Change => v.src ≠ [] ∨ v.dst ≠ []

/-- A hunk of a context diff. -/
def HView.ContextOk (h : HView) : Prop :=
  h.type = .Normal ∧ Contiguous h.srcLine h.dstLine h.diffs ∧ ∀ v ∈ h.diffs, v.Fresh ∧ v.SidesAgreeContext

/-- A hunk of a normal diff: one difference, at the position of the hunk (its body may be incomplete). -/
def HView.NormalOk (h : HView) : Prop :=
  h.type = .Normal ∧ ∃ v, h.diffs = [v] ∧ v.srcLine = h.srcLine ∧ v.dstLine = h.dstLine ∧ v.Fresh ∧ v.type ≠ .Unchanged ∧
    (v.type = .Insert → v.src = []) ∧ (v.type = .Delete → v.dst = [])

end Spec

/-- The models returned by one call of the parser, on a heap that had `h0.next` objects before the call: each is as described by
`Parsed` and has a difference; no `Difference` object is shared by two hunks or two models, and all of them are new. -/
structure ParsedModels (P : Spec.HView → Prop) (h0 h : Heap) (ms : List DModel) : Prop where
  each : ∀ m ∈ ms, Parsed P h m ∧ m.differences ≠ []
  disjoint : (ms.flatMap DModel.hunkIds).Nodup
  fresh : ∀ m ∈ ms, ∀ i ∈ m.hunkIds, h0.next ≤ i
  kept : ∀ i, i < h0.next → h.cell i = h0.cell i

end KompareDiff2
