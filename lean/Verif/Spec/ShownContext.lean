import Verif.Spec.Shown
import Verif.Spec.Context
/-
What a client is shown of arbitrary lines in the context format.
Independent of the parser model (the data types and the name unescaping apart).
-/
namespace KompareDiff2
namespace Spec

/-! ### Headers -/

/-- `*** name` or `*** name<tab>time` (with another prefix for the second line). -/
def DatedLine (pre : String) (l name time : Str) : Prop :=
  ∃ tail, l = str pre ++ name ++ tail ++ ['\n'] ∧ name ≠ [] ∧ '\t' ∉ name ∧
    (tail = [] ∧ time = [] ∨ tail = '\t' :: time ∧ time ≠ [] ∧ '\t' ∉ time)

/-- `*** name<tab>time<tab>revision`, as written by CVS. -/
def CvsLine1 (l name rev : Str) : Prop :=
  ∃ ts, l = str "*** " ++ name ++ '\t' :: ts ++ '\t' :: rev ++ ['\n'] ∧ name ≠ [] ∧ '\t' ∉ name ∧ ts ≠ [] ∧ '\t' ∉ ts ∧ '\n' ∉ rev

/-- `--- name<tab>time` or `--- name<tab>time<tab>revision`, as written by CVS; `rev` begins with the tab. -/
def CvsLine2 (l name rev : Str) : Prop :=
  ∃ ts, l = str "--- " ++ name ++ '\t' :: ts ++ rev ++ ['\n'] ∧ name ≠ [] ∧ '\t' ∉ name ∧ ts ≠ [] ∧ '\t' ∉ ts ∧
    (rev = [] ∨ ∃ r, rev = '\t' :: r ∧ '\n' ∉ r)

/-- How files are written in a context diff.  What is shown as time stamps of a CVS diff is the revision, the second one with the tab
before it. -/
def contextForm (unesc : Str → Str) : Generator → FileForm
  | .Perforce => perforceForm
  | .CVSDiff =>
    { first := CvsHeaderLine1
      header := fun hdr f => ∃ l1 l2 s t, hdr = [l1, l2] ∧ CvsLine1 l1 s f.sourceTimestamp ∧ CvsLine2 l2 t f.destinationTimestamp ∧
        f.source = unesc s ∧ f.destination = unesc t }
  | .Diff =>
    { first := ContextHeaderLine "*** "
      header := fun hdr f => ∃ l1 l2 s t, hdr = [l1, l2] ∧ DatedLine "*** " l1 s f.sourceTimestamp ∧
        DatedLine "--- " l2 t f.destinationTimestamp ∧ f.source = unesc s ∧ f.destination = unesc t }

/-! ### Hunks -/

/-- `*************** function` -/
def StarHead (l f : Str) : Prop := ∃ t, l = List.replicate 15 '*' ++ t ++ ['\n'] ∧ '\n' ∉ t ∧ f = afterSpace t
/-- `*** a,b ****`: the old lines begin at `x`. -/
def OldHead (l : Str) (x : Int) : Prop :=
  ∃ a b t, l = str "*** " ++ a ++ ',' :: b ++ str " ****" ++ t ++ ['\n'] ∧ Digits a ∧ Digits b ∧ '\n' ∉ t ∧ x = number a
/-- `--- a,b ----`: the new lines begin at `y`. -/
def NewHead (l : Str) (y : Int) : Prop :=
  ∃ a b, l = str "--- " ++ a ++ ',' :: b ++ str " ----\n" ∧ Digits a ∧ Digits b ∧ y = number a

/-- `ls` begins with the marked texts `ts`, and `rest` does not begin with another marked text. -/
def MarkedRun (c : Char) (ls ts rest : List Str) : Prop :=
  ls = ts.map (markedLine c) ++ rest ∧ (∀ t ∈ ts, '\n' ∉ t) ∧ ∀ t more, '\n' ∉ t → rest ≠ markedLine c t :: more

/-- Lines which both sections have unmarked: they are paired; where one section has ended, those of the other are taken alone.  If they
are not the same, the new section is right. -/
def PlainRun (os ns ts os' ns' : List Str) : Prop :=
  ∃ oc nc, os = oc.map (markedLine ' ') ++ os' ∧ ns = nc.map (markedLine ' ') ++ ns' ∧ (∀ t ∈ oc ++ nc, '\n' ∉ t) ∧
    ts = nc ++ oc.drop nc.length ∧ (oc.length < nc.length → os' = []) ∧ (nc.length < oc.length → ns' = []) ∧
    ((os' = [] ∧ ns' = []) ∨ (os' ≠ [] ∧ ∀ t more, '\n' ∉ t → os' ≠ markedLine ' ' t :: more) ∨
      (ns' ≠ [] ∧ ∀ t more, '\n' ∉ t → ns' ≠ markedLine ' ' t :: more))

/-- `Paired os ns vs`: the differences `vs` in the old section `os` and the new section `ns` of a hunk.  First come the lines removed, then
those added, then those in both, then those changed.  Where nothing fits (an added line in the old section, a removed one in the new
section) the rest of both sections is not shown. -/
inductive Paired : List Str → List Str → List DView → Prop where
  | done : Paired [] [] []
  | removed (os os' ns : List Str) (v : DView) (vs : List DView) : MarkedRun '-' os v.src os' → v.type = .Delete → v.src ≠ [] → v.dst = [] →
      Paired os' ns vs → Paired os ns (v :: vs)
  | added (os ns ns' : List Str) (v : DView) (vs : List DView) : MarkedRun '-' os [] os → MarkedRun '+' ns v.dst ns' → v.type = .Insert →
      v.dst ≠ [] → v.src = [] → Paired os ns' vs → Paired os ns (v :: vs)
  | unchanged (os os' ns ns' : List Str) (v : DView) (vs : List DView) : PlainRun os ns v.src os' ns' → v.type = .Unchanged → v.src ≠ [] →
      v.dst = v.src → Paired os' ns' vs → Paired os ns (v :: vs)
  | changed (os os' ns ns' : List Str) (v : DView) (vs : List DView) : MarkedRun '-' os [] os → MarkedRun '+' ns [] ns →
      MarkedRun '!' os v.src os' → MarkedRun '!' ns v.dst ns' → v.type = .Change → v.src ≠ [] ∨ v.dst ≠ [] → Paired os' ns' vs →
      Paired os ns (v :: vs)
  | lost (os ns : List Str) : os ≠ [] ∨ ns ≠ [] → MarkedRun '-' os [] os → MarkedRun '+' ns [] ns → PlainRun os ns [] os ns →
      MarkedRun '!' os [] os → MarkedRun '!' ns [] ns → Paired os ns []

/-- The hunks at the beginning of some lines of a context diff.  A line of stars without the line of the old section ends the hunks of
the file; an old section without a new one is skipped. -/
inductive ContextShown : List Str → List HView → List Str → Prop where
  | stop (ls : List Str) : (∀ l, ls.head? = some l → ¬ StarLine l) → ContextShown ls [] ls
  | lone (l : Str) (ls : List Str) : StarLine l → (∀ l2, ls.head? = some l2 → ¬ OldRange l2) → ContextShown (l :: ls) [] ls
  | dropped (l l2 l3 : Str) (old more : List Str) (hs : List HView) (rest : List Str) : StarLine l → OldRange l2 → (∀ x ∈ old, SectionLine x) →
      ¬ SectionLine l3 → ¬ NewRange l3 → ContextShown (l3 :: more) hs rest → ContextShown (l :: l2 :: old ++ l3 :: more) hs rest
  | hunk (l l2 l3 : Str) (old new after : List Str) (h : HView) (hs : List HView) (rest : List Str) : StarHead l h.function →
      OldHead l2 h.srcLine → (∀ x ∈ old, SectionLine x) → ¬ SectionLine l3 → NewHead l3 h.dstLine → (∀ x ∈ new, SectionLine x) →
      (∀ x, after.head? = some x → ¬ SectionLine x) → Paired old new h.diffs → h.ContextOk → ContextShown after hs rest →
      ContextShown (l :: l2 :: old ++ l3 :: (new ++ after)) (h :: hs) rest

/-! ### Everything stands in the text -/

/-- How a difference is written in the old section; the unchanged lines may be written otherwise or be missing. -/
def DView.OldText (v : DView) (t : List Str) : Prop :=
  match v.type with
  | .Unchanged => (∃ oc : List Str, t = oc.map (markedLine ' ') ∧ oc.length ≤ v.src.length)
  | .Insert => t = []
  | .Delete => t = v.src.map (markedLine '-')
  | .Change => t = v.src.map (markedLine '!')

/-- How a difference is written in the new section; the last ones of the unchanged lines may be missing, and then are in the old section. -/
def DView.NewText (v : DView) (old t : List Str) : Prop :=
  match v.type with
  | .Unchanged => (∃ k, t = (v.src.take k).map (markedLine ' ') ∧ old.drop k = (v.src.drop k).map (markedLine ' '))
  | .Insert => t = v.dst.map (markedLine '+')
  | .Delete => t = []
  | .Change => t = v.dst.map (markedLine '!')

/-- The differences stand in the two sections one after the other, without gaps or overlap, from their beginnings. -/
inductive SectionsStand : List DView → List Str → List Str → Prop where
  | nil (os ns : List Str) : SectionsStand [] os ns
  | cons (v : DView) (vs : List DView) (o n os ns : List Str) : v.OldText o → v.NewText o n → SectionsStand vs os ns →
      SectionsStand (v :: vs) (o ++ os) (n ++ ns)

/-- How a hunk is written in a context diff. -/
def ContextText (h : HView) (t : List Str) : Prop :=
  ∃ l l2 l3 old new, t = l :: l2 :: old ++ l3 :: new ∧ StarHead l h.function ∧ OldHead l2 h.srcLine ∧ NewHead l3 h.dstLine ∧
    SectionsStand h.diffs old new

end Spec
end KompareDiff2
