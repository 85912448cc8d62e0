import Verif.Spec.ShownNormal
import Verif.Spec.Lines
/-
What a client is shown of an arbitrary text.
Independent of the parser model (the data types and the name unescaping apart).
-/
namespace KompareDiff2
namespace Spec

/-- What is kept of a line with remarks behind it: without remark the line; with one remark the line up to its newline, nothing if it has
none; with several remarks nothing. -/
structure CleanLine (g : Remarked) (o : Str) : Prop where
  plain : g.remarks = [] → o = g.line
  cut : g.remarks.length = 1 → (∀ t u, '\n' ∉ t → g.line = t ++ '\n' :: u → o = t) ∧ ('\n' ∉ g.line → o = [])
  lost : 2 ≤ g.remarks.length → o = []

/-- The lines `ls`, which do not begin with a remark, without their remarks. -/
def Cleaned (ls out : List Str) : Prop :=
  ∃ gs : List Remarked, (∀ g ∈ gs, g.Ok) ∧ ls = gs.flatMap Remarked.raw ∧ out.length = gs.length ∧
    ∀ (i : Nat) (g : Remarked) (o : Str), gs[i]? = some g → out[i]? = some o → CleanLine g o

/-- Which program wrote the lines: the first line that begins with `Index: ` or `==== ` decides. -/
def WrittenBy : Generator → List Str → Prop
  | .CVSDiff, ls => ∃ pre l post, ls = pre ++ l :: post ∧ str "Index: " <+: l ∧ ∀ l' ∈ pre, ¬ str "==== " <+: l'
  | .Perforce, ls => ∃ pre l post, ls = pre ++ l :: post ∧ str "==== " <+: l ∧ ∀ l' ∈ pre, ¬ str "Index: " <+: l'
  | .Diff, ls => ∀ l ∈ ls, ¬ str "Index: " <+: l ∧ ¬ str "==== " <+: l

/-- In which format the lines are written: the first line that shows a format decides. -/
def InFormat (g : Generator) (ls : List Str) (f : Format) : Prop :=
  (f = .UnknownFormat ∧ ∀ l ∈ ls, ∀ f', ¬ Shows g l f') ∨
    ∃ pre l post, ls = pre ++ l :: post ∧ (∀ l' ∈ pre, ∀ f', ¬ Shows g l' f') ∧ Shows g l f

/-- What lines show in a format: only in three formats anything. -/
def FormatShows (unesc : Str → Str) (g : Generator) : Format → List Str → List MView → Prop
  | .Unified, ls, ms => ShowsFiles (unifiedForm unesc g) UnifiedShown ls ms
  | .Context, ls, ms => ShowsFiles (contextForm unesc g) ContextShown ls ms
  | .Normal, ls, ms => NormalFiles unesc g ls ms
  | _, _, ms => ms = []

/-- What a text shows: its lines without remarks, in the format that is recognised. -/
def TextShows (unesc : Str → Str) (text : Str) (ms : List MView) : Prop :=
  ∃ ls out g f, LineList ls ∧ ls.flatten = text ∧ Cleaned ls out ∧ WrittenBy g ls ∧ InFormat g out f ∧ FormatShows unesc g f out ms

end Spec
end KompareDiff2
