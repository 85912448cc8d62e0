import Verif.Spec.ShownContext
import Verif.Spec.Normal
/-
What a client is shown of arbitrary lines in the normal format.
Independent of the parser model (the data types and the name unescaping apart).
-/
namespace KompareDiff2
namespace Spec

/-! ### Headers -/

/-- `diff …` with at least one space after the first. -/
def DiffHeaderLine (l : Str) : Prop := ∃ r, l = str "diff " ++ r ++ ['\n'] ∧ ' ' ∈ r ∧ '\n' ∉ r

/-- `diff OPTIONS OLD NEW`: what comes after the last space is the new name, what is before it, without the options, is the old name. -/
def DiffLine (l s t : Str) : Prop :=
  ∃ ws : List Str, l = str "diff " ++ ws.flatMap (· ++ [' ']) ++ s ++ ' ' :: t ++ ['\n'] ∧ (∀ w ∈ ws, OptionWord w) ∧ '\n' ∉ s ∧ '\n' ∉ t ∧ ' ' ∉ t ∧
    ∀ w, OptionWord w → ¬ (w ++ [' ']) <+: s

/-- `Index: name` -/
def IndexLine (l name : Str) : Prop := l = str "Index: " ++ name ++ ['\n'] ∧ '\n' ∉ name

/-- How files are written in a normal diff; `unesc` undoes the escaping of names. -/
def normalForm (unesc : Str → Str) : Generator → FileForm
  | .Perforce => perforceForm
  | .CVSDiff =>
    { first := fun l => ∃ name, IndexLine l name
      header := fun hdr f => ∃ l, hdr = [l] ∧ IndexLine l f.source ∧ f.destination = f.source ∧ f.sourceTimestamp = [] ∧ f.destinationTimestamp = [] }
  | .Diff =>
    { first := DiffHeaderLine
      header := fun hdr f => ∃ l s t, hdr = [l] ∧ DiffLine l s t ∧ f.source = unesc s ∧ f.destination = unesc t ∧
        f.sourceTimestamp = [] ∧ f.destinationTimestamp = [] }

/-! ### Commands -/

/-- A command line: `NaM…`, `NdM…`, `N,KdM…`, `NcM…` or `N,KcM…`; only the numbers `N` and `M` count. -/
def CommandHead (l : Str) (ty : DiffType) (x y : Int) : Prop :=
  ∃ a e c b t, l = a ++ e ++ c :: b ++ t ++ ['\n'] ∧ Digits a ∧ (e = [] ∨ ∃ d, e = ',' :: d ∧ Digits d) ∧ Digits b ∧ '\n' ∉ t ∧
    (∀ d, t.head? = some d → ¬ Digit d) ∧ x = number a ∧ y = number b ∧
    (ty = .Insert ∧ c = 'a' ∧ e = [] ∨ ty = .Delete ∧ c = 'd' ∨ ty = .Change ∧ c = 'c')

/-- Some command line. -/
def CommandLine (l : Str) : Prop := ∃ ty x y, CommandHead l ty x y

/-- `CommandBody v ls rest`: the lines `ls` after a command line begin with the lines of the difference `v`, and `rest` is what comes after.  A
change without the divider has no new lines. -/
inductive CommandBody (v : DView) : List Str → List Str → Prop where
  | insert (ls rest : List Str) : v.type = .Insert → v.src = [] → MarkedRun '>' ls v.dst rest → CommandBody v ls rest
  | delete (ls rest : List Str) : v.type = .Delete → MarkedRun '<' ls v.src rest → v.dst = [] → CommandBody v ls rest
  | change (ls more rest : List Str) : v.type = .Change → MarkedRun '<' ls v.src (str "---\n" :: more) → MarkedRun '>' more v.dst rest →
      CommandBody v ls rest
  | undivided (ls rest : List Str) : v.type = .Change → MarkedRun '<' ls v.src rest → v.dst = [] → rest.head? ≠ some (str "---\n") →
      CommandBody v ls rest

/-- The hunks at the beginning of some lines of a normal diff: one for every command. -/
inductive NormalShown : List Str → List HView → List Str → Prop where
  | stop (ls : List Str) : (∀ l, ls.head? = some l → ¬ CommandLine l) → NormalShown ls [] ls
  | hunk (l : Str) (ls after : List Str) (h : HView) (v : DView) (hs : List HView) (rest : List Str) :
      CommandHead l v.type h.srcLine h.dstLine → CommandBody v ls after → h.function = [] → h.diffs = [v] → h.NormalOk →
      NormalShown after hs rest → NormalShown (l :: ls) (h :: hs) rest

/-- Nothing is known about the files. -/
def nameless : FileNames := { source := [], destination := [] }

/-- What the lines of a normal diff show: the files with headers; except for Perforce, commands at the very beginning of the lines are
those of a file without names. -/
def NormalFiles (unesc : Str → Str) (g : Generator) (lines : List Str) (ms : List MView) : Prop :=
  ∃ fs, ShowsFiles (normalForm unesc g) NormalShown lines fs ∧
    (g = .Perforce ∧ ms = fs ∨ g ≠ .Perforce ∧ ∃ hs rest, NormalShown lines hs rest ∧ ms = fs ++ nameless.shown hs)

/-! ### Everything stands in the text -/

/-- How a hunk is written in a normal diff: a command line, the lines of its difference, with a divider in a change unless it has no new
lines. -/
def NormalText (h : HView) (t : List Str) : Prop :=
  ∃ l v, h.diffs = [v] ∧ CommandHead l v.type h.srcLine h.dstLine ∧
    (t = l :: v.src.map (markedLine '<') ++ v.dst.map (markedLine '>') ∧ (v.src = [] ∨ v.dst = []) ∨
      v.type = .Change ∧ t = l :: v.src.map (markedLine '<') ++ str "---\n" :: v.dst.map (markedLine '>'))

end Spec
end KompareDiff2
