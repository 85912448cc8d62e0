import Verif.Spec.Reading
import Verif.Spec.Parsed
/-
What a client is shown of arbitrary lines: which files, hunks and differences stand in a text, whatever the text is.
Independent of the parser model (the data types and the name unescaping apart).
-/
namespace KompareDiff2
namespace Spec

/-! ### Files -/

/-- What the header of a file says. -/
structure FileNames where
  source : Str
  destination : Str
  sourceTimestamp : Str := []
  destinationTimestamp : Str := []
  deriving Repr, DecidableEq

/-- The changes among the differences of some hunks. -/
def changesOf (hs : List HView) : List DView := (hs.flatMap (fun h => h.diffs)).filter (fun d => d.type ≠ .Unchanged)

/-- A file with hunks, as seen by a client. -/
def FileNames.view (f : FileNames) (hs : List HView) : MView :=
  { source := f.source, destination := f.destination, sourceTimestamp := f.sourceTimestamp, destinationTimestamp := f.destinationTimestamp,
    sourceRevision := [], destinationRevision := [], hunks := hs, differences := changesOf hs, appliedCount := 0 }

/-- A file without changes is not shown. -/
def FileNames.shown (f : FileNames) (hs : List HView) : List MView := if changesOf hs = [] then [] else [f.view hs]

/-- How the files of a format are written: the lines that may open a header, and the complete headers. -/
structure FileForm where
  first : Str → Prop
  header : List Str → FileNames → Prop

/-- `ShowsFiles o Hunks lines files`: the lines show the given files in this order, where `Hunks ls hs rest` says that the lines `ls` begin
with the hunks `hs`, and `rest` are the lines after them. -/
inductive ShowsFiles (o : FileForm) (Hunks : List Str → List HView → List Str → Prop) : List Str → List MView → Prop where
  /-- no further header -/
  | finished (ls : List Str) : (∀ l ∈ ls, ¬ o.first l) → ShowsFiles o Hunks ls []
  /-- what looked like a header is none: nothing further is shown -/
  | abandoned (pre : List Str) (l l2 : Str) (ls : List Str) : (∀ x ∈ pre, ¬ o.first x) → o.first l → (∀ f, ¬ o.header [l] f) →
      (∀ f, ¬ o.header [l, l2] f) → ShowsFiles o Hunks (pre ++ l :: l2 :: ls) []
  /-- a file -/
  | file (pre hdr ls rest : List Str) (f : FileNames) (hs : List HView) (ms : List MView) : (∀ x ∈ pre, ¬ o.first x) → o.header hdr f →
      Hunks ls hs rest → ShowsFiles o Hunks rest ms → ShowsFiles o Hunks (pre ++ (hdr ++ ls)) (f.shown hs ++ ms)

/-! ### Headers -/

/-- `--- name` or `--- name<tab>time` or `--- name<tab>time<tab>…` (with another prefix for the second line). -/
def StampedLine (pre : String) (l name time : Str) : Prop :=
  ∃ tail, l = str pre ++ name ++ tail ++ ['\n'] ∧ name ≠ [] ∧ '\t' ∉ name ∧
    (tail = [] ∧ time = [] ∨
      ∃ more, tail = '\t' :: time ++ more ∧ time ≠ [] ∧ '\t' ∉ time ∧ (more = [] ∨ ∃ e, more = '\t' :: e ∧ '\n' ∉ e))

/-- `==== source - destination ====`; the source ends at the first separator. -/
def PerforceLine (l s t : Str) : Prop :=
  l = str "==== " ++ s ++ str " - " ++ t ++ str " ====\n" ∧ '\n' ∉ s ∧ '\n' ∉ t ∧
    ∀ s' t', l = str "==== " ++ s' ++ str " - " ++ t' ++ str " ====\n" → s.length ≤ s'.length

/-- `name#revision`; anything else has no name.  For the destination the number may be missing. -/
def PerforceName (bare : Bool) (s name : Str) : Prop :=
  (∃ d, s = name ++ '#' :: d ∧ name ≠ [] ∧ '#' ∉ name ∧ (Digits d ∨ bare = true ∧ d = [])) ∨
    (name = [] ∧ ¬ ∃ n d, s = n ++ '#' :: d ∧ n ≠ [] ∧ '#' ∉ n ∧ (Digits d ∨ bare = true ∧ d = []))

/-- How Perforce writes files, in every format. -/
def perforceForm : FileForm where
  first := PerforceHeaderLine
  header hdr f := ∃ l s t, hdr = [l] ∧ PerforceLine l s t ∧ PerforceName false s f.source ∧ PerforceName true t f.destination ∧
    f.sourceTimestamp = [] ∧ f.destinationTimestamp = []

/-- How files are written in a unified diff; `unesc` undoes the escaping of names. -/
def unifiedForm (unesc : Str → Str) : Generator → FileForm
  | .Perforce => perforceForm
  | _ =>
    { first := UnifiedHeaderLine "--- "
      header := fun hdr f => ∃ l1 l2 s t, hdr = [l1, l2] ∧ StampedLine "--- " l1 s f.sourceTimestamp ∧
        StampedLine "+++ " l2 t f.destinationTimestamp ∧ f.source = unesc s ∧ f.destination = unesc t }

/-! ### Unified hunks -/

/-- The number written in decimal if it is an `int`, otherwise 0. -/
def number (d : Str) : Int := if decimal d ≤ intMax then (decimal d : Int) else 0

/-- Nothing, which stands for 1, or `,n`. -/
def WrittenCount (s : Str) (n : Nat) : Prop := s = [] ∧ n = 1 ∨ ∃ d, s = ',' :: d ∧ Digits d ∧ n = decimal d

/-- The text after one space, if there is one. -/
def afterSpace (t : Str) : Str := if t.head? = some ' ' then t.drop 1 else t

/-- `@@ -a,n +b,m @@ f`: the hunk begins at `x` and `y`.  In front of an empty range the number of the line before is written. -/
def UnifiedHead (l : Str) (x y : Int) (n m : Nat) (f : Str) : Prop :=
  ∃ a b na nb t, l = str "@@ -" ++ a ++ na ++ str " +" ++ b ++ nb ++ str " @@" ++ t ++ ['\n'] ∧ Digits a ∧ Digits b ∧ '\n' ∉ t ∧
    WrittenCount na n ∧ WrittenCount nb m ∧ f = afterSpace t ∧
    x = (if n = 0 then number a + 1 else number a) ∧ y = (if m = 0 then number b + 1 else number b)

/-- How a difference is written in a unified diff. -/
def DView.unifiedLines (v : DView) : List Str :=
  if v.type = .Unchanged then v.src.map (' ' :: ·) else v.src.map ('-' :: ·) ++ v.dst.map ('+' :: ·)

/-- Two consecutive differences are as long as possible: unchanged lines are not divided, and after removed lines without added ones,
or before added lines without removed ones, there is no other change. -/
def DView.Separate (v w : DView) : Prop :=
  if v.type = .Unchanged then w.type ≠ .Unchanged else w.type = .Unchanged ∨ v.dst ≠ [] ∧ w.src ≠ []

/-- All consecutive differences are. -/
def AllSeparate : List DView → Prop
  | [] => True
  | [_] => True
  | v :: w :: vs => v.Separate w ∧ AllSeparate (w :: vs)

/-- The hunks at the beginning of some lines of a unified diff.  A hunk with a count that is not an `int` is skipped, its lines then
stand where a hunk header should stand. -/
inductive UnifiedShown : List Str → List HView → List Str → Prop where
  | stop (ls : List Str) : (∀ l, ls.head? = some l → ¬ ∃ n m, HunkHeaderLine l n m) → UnifiedShown ls [] ls
  | skipped (l : Str) (ls : List Str) (n m : Nat) (hs : List HView) (rest : List Str) : HunkHeaderLine l n m → intMax < n ∨ intMax < m →
      UnifiedShown ls hs rest → UnifiedShown (l :: ls) hs rest
  | hunk (l : Str) (ls after : List Str) (n m : Nat) (h : HView) (hs : List HView) (rest : List Str) :
      UnifiedHead l h.srcLine h.dstLine n m h.function → n ≤ intMax → m ≤ intMax → UnifiedBody n m (ls ++ after) after →
      ls = h.diffs.flatMap DView.unifiedLines → AllSeparate h.diffs → h.UnifiedOk →
      UnifiedShown after hs rest → UnifiedShown (l :: (ls ++ after)) (h :: hs) rest

/-! ### Everything stands in the text -/

/-- `HunksStand T hs ls rest`: the hunks stand in the lines one after the other, without overlap, before `rest`; `T h t` says how a hunk is
written. -/
inductive HunksStand (T : HView → List Str → Prop) : List HView → List Str → List Str → Prop where
  | nil (rest : List Str) : HunksStand T [] rest rest
  | cons (gap t ls rest : List Str) (h : HView) (hs : List HView) : T h t → HunksStand T hs ls rest →
      HunksStand T (h :: hs) (gap ++ (t ++ ls)) rest

/-- The files stand in the lines one after the other, without overlap: each with its header and, after it, its hunks. -/
inductive FilesStand (o : FileForm) (T : HView → List Str → Prop) : List MView → List Str → Prop where
  | nil (ls : List Str) : FilesStand o T [] ls
  | cons (gap hdr ls rest : List Str) (f : FileNames) (hs : List HView) (ms : List MView) : o.header hdr f → HunksStand T hs ls rest →
      FilesStand o T ms rest → FilesStand o T (f.view hs :: ms) (gap ++ (hdr ++ ls))

/-- How a hunk is written in a unified diff: its header, and then the lines of its differences. -/
def UnifiedText (h : HView) (t : List Str) : Prop :=
  ∃ l n m, t = l :: h.diffs.flatMap DView.unifiedLines ∧ UnifiedHead l h.srcLine h.dstLine n m h.function

end Spec
end KompareDiff2
