import Verif.Spec.Parsed
/-
Specification for writing a model as a diff and reading it again (C20): which models can be written, and what comes back.
Everything is said about what a client sees of a model (`MView`), not about the code.
-/
namespace KompareDiff2
namespace Spec

/-- A complete line: text without newline, then a newline (and not longer than the pattern library can match). -/
def TextLine (l : Str) : Prop := ∃ t, l = t ++ ['\n'] ∧ '\n' ∉ t ∧ t.length < 65534

/-- A difference that can be written: its lines fit its type and are complete. -/
structure DView.Writable (d : DView) : Prop where
  kind : match d.type with
    | .Unchanged => d.src ≠ [] ∧ d.dst = d.src
    | .Insert => d.src = [] ∧ d.dst ≠ []
    | .Delete => d.src ≠ [] ∧ d.dst = []
    | .Change => d.src ≠ [] ∧ d.dst ≠ []
  lines : ∀ l ∈ d.src ++ d.dst, TextLine l

/-- Two neighbouring differences can be told apart in a diff text. -/
def DView.Apart (d d' : DView) : Prop :=
  (d.type = .Unchanged → d'.type ≠ .Unchanged) ∧ (d.type ≠ .Unchanged → d'.type ≠ .Unchanged → d.dst ≠ [] ∧ d'.src ≠ [])

/-- All neighbours can be told apart. -/
def AllApart : List DView → Prop
  | [] => True
  | [_] => True
  | d :: d' :: ds => d.Apart d' ∧ AllApart (d' :: ds)

/-- Number of lines of a hunk in the old file. -/
def HView.srcCount (h : HView) : Nat := (h.diffs.map (fun d => d.src.length)).sum
/-- Number of lines of a hunk in the new file. -/
def HView.dstCount (h : HView) : Nat := (h.diffs.map (fun d => d.dst.length)).sum

/-- How far the line number of a side moves: an empty side moves by one line, any other side stays. -/
def drift (count : Nat) : Int := if count = 0 then 1 else 0

/-- A hunk that can be written. -/
structure HView.Writable (h : HView) : Prop where
  diffs : ∀ d ∈ h.diffs, d.Writable
  placed : Contiguous h.srcLine h.dstLine h.diffs
  apart : AllApart h.diffs
  function : '\n' ∉ h.function
  src : 0 ≤ h.srcLine ∧ h.srcLine + drift h.srcCount ≤ 2147483647 ∧ h.srcCount ≤ 2147483647
  dst : 0 ≤ h.dstLine ∧ h.dstLine + drift h.dstCount ≤ 2147483647 ∧ h.dstCount ≤ 2147483647

/-- A field of a header line. -/
def HeaderField (s : Str) : Prop := s ≠ [] ∧ '\t' ∉ s ∧ '\n' ∉ s

/-- The hunks that are part of the diff (not those added to show the whole file). -/
def MView.ownHunks (v : MView) : List HView := v.hunks.filter (fun k => k.type ≠ .AddedByBlend)

/-- A model that can be written: names and time stamps are there and have no tab or newline. -/
structure MView.Writable (v : MView) : Prop where
  source : HeaderField v.source
  destination : HeaderField v.destination
  sourceTimestamp : HeaderField v.sourceTimestamp
  destinationTimestamp : HeaderField v.destinationTimestamp
  sourceRevision : '\n' ∉ v.sourceRevision
  destinationRevision : '\n' ∉ v.destinationRevision
  hunks : ∀ k ∈ v.ownHunks, k.Writable

/-- The model contains a change. -/
def MView.hasChange (v : MView) : Bool := v.ownHunks.any (fun k => k.diffs.any (fun d => d.type ≠ .Unchanged))

/-! ### What comes back -/

/-- A difference read again: at lines shifted by `a` and `b`, not applied, nothing unsaved. -/
def DView.reread (a b : Int) (d : DView) : DView :=
  { d with srcLine := d.srcLine + a, dstLine := d.dstLine + b, tracking := d.srcLine + a, applied := false, unsaved := false, conflicts := false }

/-- A hunk read again. -/
def HView.reread (h : HView) : HView :=
  { srcLine := h.srcLine + drift h.srcCount, dstLine := h.dstLine + drift h.dstCount, function := h.function, type := .Normal,
    diffs := h.diffs.map (DView.reread (drift h.srcCount) (drift h.dstCount)) }

/-- A model read again: names and time stamps, no revisions, the hunks of the diff, their changes. -/
def MView.reread (v : MView) : MView :=
  { source := v.source, destination := v.destination, sourceTimestamp := v.sourceTimestamp, destinationTimestamp := v.destinationTimestamp,
    sourceRevision := [], destinationRevision := [], hunks := v.ownHunks.map HView.reread,
    differences := (v.ownHunks.flatMap (fun k => k.reread.diffs)).filter (fun d => d.type ≠ .Unchanged), appliedCount := 0 }

/-- A model as a parser delivers it: nothing applied, no hunks added by blending, and its differences are the changes of its hunks. -/
structure MView.Fresh (v : MView) : Prop where
  hunks : ∀ k ∈ v.hunks, k.type = .Normal ∧ ∀ d ∈ k.diffs, d.Fresh
  differences : v.differences = (v.hunks.flatMap (fun k => k.diffs)).filter (fun d => d.type ≠ .Unchanged)
  appliedCount : v.appliedCount = 0

/-- A model without a source time stamp (and without revision), with lines that can be written and do not look like the first line of a header
when they are removed. -/
structure MView.Unstamped (v : MView) : Prop where
  hunks : ∀ k ∈ v.ownHunks, k.Writable
  source : '\t' ∉ v.source ∧ '\n' ∉ v.source
  destination : '\n' ∉ v.destination
  stamp : v.sourceTimestamp = []
  revision : v.sourceRevision = []
  second : '\n' ∉ v.destinationTimestamp ∧ '\n' ∉ v.destinationRevision
  removed : ∀ k ∈ v.ownHunks, ∀ d ∈ k.diffs, ∀ l ∈ d.src, ¬ str "-- " <+: l

/-! ### Diffs that survive reading and writing -/

/-- A hunk without empty side whose lines all end with a newline. -/
def UHunk.Full (h : UHunk) : Prop := h.srcCount ≠ 0 ∧ h.dstCount ≠ 0 ∧ ∀ b ∈ h.blocks, ∀ l ∈ b.old ++ b.new, l.eol = true

/-- A file diff of such hunks, with time stamps, and names that are not empty. -/
structure UFile.Full (unesc : Str → Str) (f : UFile) : Prop where
  hunks : ∀ h ∈ f.hunks, h.Full
  stamps : f.src.stamp ≠ none ∧ f.dst.stamp ≠ none
  names : unesc f.src.name ≠ [] ∧ unesc f.dst.name ≠ []

/-- The form in which the library itself writes: counts are never left out, names are escaped, no extra field, no empty function text and a space before it. -/
structure UFile.Canonical (win : Bool) (f : UFile) : Prop where
  noPreamble : f.preamble = []
  names : escapePath win (unescapePath win f.src.name) = f.src.name ∧ escapePath win (unescapePath win f.dst.name) = f.dst.name
  extra : f.src.extra = none ∧ f.dst.extra = none
  hunks : ∀ h ∈ f.hunks, h.shortSrc = false ∧ h.shortDst = false ∧ h.function ≠ some [] ∧ h.gap = true

end Spec
end KompareDiff2
