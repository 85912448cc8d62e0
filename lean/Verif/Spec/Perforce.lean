import Verif.Spec.Normal
/-
Specification of diffs as written by Perforce: every file begins with a line `==== OLD#REVISION - NEW ====`; the rest is in the unified,
the context or the normal format.  Independent of the parser model.
-/
namespace KompareDiff2
namespace Spec

/-- The three formats. -/
inductive P4Kind where
  | unified
  | context
  | normal
  deriving Repr, DecidableEq

/-- The changes of one file, in one of the formats. -/
inductive P4Body where
  | unified (hs : List UHunk)
  | context (hs : List CHunk)
  | normal (cs : List NCmd)
  deriving Repr, DecidableEq

/-- The format. -/
def P4Body.kind : P4Body → P4Kind
  | .unified _ => .unified
  | .context _ => .context
  | .normal _ => .normal

/-- The lines as written. -/
def P4Body.render : P4Body → List Str
  | .unified hs => hs.flatMap UHunk.render
  | .context hs => hs.flatMap CHunk.render
  | .normal cs => cs.flatMap NCmd.render

/-- Well-formed. -/
def P4Body.Ok : P4Body → Prop
  | .unified hs => ∀ h ∈ hs, h.Ok
  | .context hs => ∀ h ∈ hs, h.Ok
  | .normal cs => ∀ c ∈ cs, c.Ok

/-- The hunks a client sees. -/
def P4Body.hunks : P4Body → List HView
  | .unified hs => hs.map UHunk.view
  | .context hs => hs.map CHunk.view
  | .normal cs => cs.map NCmd.view

/-- The diff of one file: lines before it, the name of the old file and its revision, the name of the new file and what follows it: nothing
(a file in the workspace), `#`, or `#` and a revision. -/
structure P4File where
  preamble : List Str := []
  src : Str
  srcRevision : Nat
  dst : Str
  dstRevision : Option (Option Nat)
  body : P4Body
  deriving Repr, DecidableEq

/-- What is written after the name of the new file. -/
def revisionText : Option (Option Nat) → Str
  | none => []
  | some none => ['#']
  | some (some n) => '#' :: decNat n

/-- The header line. -/
def P4File.header (f : P4File) : Str :=
  str "==== " ++ (f.src ++ '#' :: decNat f.srcRevision) ++ str " - " ++ (f.dst ++ revisionText f.dstRevision) ++ str " ====\n"

/-- The diff of one file as written. -/
def P4File.render (f : P4File) : List Str := f.preamble.map (· ++ ['\n']) ++ f.header :: f.body.render

/-- A diff: the files and lines after the last one. -/
structure P4Diff where
  files : List P4File
  trailer : List Str := []
  deriving Repr, DecidableEq

/-- The lines of a diff. -/
def P4Diff.render (d : P4Diff) : List Str := d.files.flatMap P4File.render ++ d.trailer.map (· ++ ['\n'])

/-- A line between files: not a file header, not a "no newline" remark, and not the beginning of changes in one of the formats. -/
def P4Between (t : Str) : Prop :=
  '\n' ∉ t ∧ ¬ str "==== " <+: t ∧ ¬ str "\\ No newline" <+: t ∧ ¬ str "@@" <+: t ∧ ¬ List.replicate 15 '*' <+: t ∧
    (∀ x s, t = x :: s → ¬ ('0' ≤ x ∧ x ≤ '9')) ∧
    (∀ x y s, t = x :: y :: s → x = 'a' ∨ x = 'c' ∨ x = 'd' → ¬ ('0' ≤ y ∧ y ≤ '9'))

/-- A well-formed file diff: the names have no `#` (Perforce writes it as `%23`). -/
structure P4File.Ok (f : P4File) : Prop where
  src : f.src ≠ [] ∧ '#' ∉ f.src ∧ '\n' ∉ f.src
  dst : f.dst ≠ [] ∧ '#' ∉ f.dst ∧ '\n' ∉ f.dst
  between : ∀ t ∈ f.preamble, P4Between t
  body : f.body.Ok

/-- A well-formed diff in the format `k`. -/
structure P4Diff.Ok (k : P4Kind) (d : P4Diff) : Prop where
  files : ∀ f ∈ d.files, f.Ok ∧ f.body.kind = k
  first : ∀ f fs, d.files = f :: fs → ∀ t ∈ f.preamble, ¬ str "Index: " <+: t
  later : ∀ f fs, d.files = f :: fs → ∀ g ∈ fs, ∀ t ts, g.preamble = t :: ts → SeparatorLine t
  trailer : (∀ t ∈ d.trailer, P4Between t) ∧ ∀ t ts, d.trailer = t :: ts → SeparatorLine t

/-- The model a client sees for names and hunks; a Perforce diff has no time stamps. -/
def p4View (src dst : Str) (hunks : List HView) : MView :=
  { source := src, destination := dst, sourceTimestamp := [], destinationTimestamp := [], sourceRevision := [], destinationRevision := [],
    hunks := hunks, differences := (hunks.flatMap HView.diffs).filter (fun d => d.type ≠ .Unchanged), appliedCount := 0 }

/-- The hunks contain a change. -/
def hasChange (hunks : List HView) : Bool := hunks.any (fun h => h.diffs.any (fun d => d.type ≠ .Unchanged))

end Spec
end KompareDiff2
