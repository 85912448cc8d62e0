import Verif.Spec.EndToEnd
import Verif.Spec.Context
import Verif.Spec.Normal
/-
What is shown and saved of a file when any list of hunks is laid over it, whether or not the diff belongs to the file.
-/
namespace KompareDiff2
namespace Spec

/-- Lay hunks over a file of which the lines from number `line` on are `file`.  Before a hunk stand the lines of the file up to the line
number the hunk names; then come the lines `side k` of the hunk itself, in place of as many lines of the file as the hunk has old
lines, whatever those are; after the last hunk stands the rest of the file. -/
def overlay (side : HView → List Str) : Int → List HView → List Str → List Str
  | _, [], file => file
  | line, k :: ks, file =>
    let before := file.take (k.srcLine - line).toNat
    before ++ side k ++
      overlay side (line + before.length + k.old.length) ks ((file.drop before.length).drop k.old.length)

/-- The lines of a hunk that are saved: of each difference the old lines if it is marked as applied, else the new ones. -/
def HView.kept (k : HView) : List Str := k.diffs.flatMap (fun d => if d.applied then d.src else d.dst)

/-- The hunks of a model that were read from the diff, as a client sees them. -/
def fromDiff (s : MLState) (m : Nat) : List HView :=
  ((s.store m).hunks.map (Hunk.view s.heap)).filter (fun k => decide (k.type ≠ .AddedByBlend))

/-- What a client sees of a hunk apart from the marks on its differences. -/
def HView.unmarked (k : HView) : HView :=
  { k with diffs := k.diffs.map (fun d => { d with applied := false, unsaved := false, tracking := 0 }) }

/-- Whatever the user does, saving the model `m` writes the file `S` with the hunks `ks` laid over it, each difference with its old
lines if it is marked and with its new lines otherwise. -/
def SavesOverlay (s : MLState) (m : Nat) (ks : List HView) (S : Str) : Prop :=
  ∀ ops : List UserOp, (∀ op ∈ ops, op.Ok s) → ∃ s', runUser ops s = Res.ok s' ∧
    (fromDiff s' m).map HView.unmarked = ks.map HView.unmarked ∧
    Writes s' m (overlay HView.kept 1 (fromDiff s' m) (split S)).flatten ∧
    ((∀ d ∈ (s'.store m).differences, (s'.heap.cell d).applied = false) → Writes s' m (overlay HView.new 1 ks (split S)).flatten) ∧
    ((∀ d ∈ (s'.store m).differences, (s'.heap.cell d).applied = true) → Writes s' m (overlay HView.old 1 ks (split S)).flatten)

/-! ### Line ends lost -/

/-- A line without its line end. -/
def noEnd (l : Str) : Str := l.filter (fun c => decide (c ≠ '\n'))

/-- As `Patches`, but the lines written in the diff come out without their line ends. -/
inductive Glues : Nat → List Edit → List Str → List Str → Prop where
  | done (pos : Nat) (rest : List Str) : Glues pos [] rest rest
  | edit (pos : Nat) (e : Edit) (es : List Edit) (keep file out : List Str) : e.line = (pos + keep.length + 1 : Nat) →
      Glues (pos + keep.length + e.old.length) es file out →
      Glues pos (e :: es) (keep ++ e.old ++ file) (keep ++ e.new.map noEnd ++ out)

/-- The edit that leaves the old lines as they are. -/
def Edit.undo (e : Edit) : Edit := { e with new := e.old }

/-- The edit a hunk of a context diff stands for. -/
def CHunk.edit (h : CHunk) : Edit where
  line := h.srcLine
  old := h.blocks.flatMap (fun b => b.old.map (· ++ ['\n']))
  new := h.blocks.flatMap (fun b => b.new.map (· ++ ['\n']))

/-- The edit a command of a normal diff stands for: the lines of an insertion follow the line named. -/
def NCmd.edit (c : NCmd) : Edit where
  line := match c with
    | .insert after _ _ => ((after + 1 : Nat) : Int)
    | .delete src _ _ => (src : Int)
    | .change src _ _ _ => (src : Int)
  old := c.old.map (· ++ ['\n'])
  new := c.new.map (· ++ ['\n'])

/-- The command replaces or deletes lines. -/
def NCmd.replaces : NCmd → Bool
  | .insert _ _ _ => false
  | _ => true

/-- Although the edits `es` turn `S` into `T`, saving the model with nothing marked writes `T` without the line ends of all lines written
in the diff, and with everything marked `S` without them. -/
def SavesGlued (s : MLState) (m : Nat) (es : List Edit) (S : Str) (T : List Str) : Prop :=
  ∃ new old, Glues 0 es (split S) new ∧ Glues 0 (es.map Edit.undo) (split S) old ∧
    new.flatten.length + (es.map (fun e => e.new.length)).sum = T.flatten.length ∧
    old.flatten.length + (es.map (fun e => e.old.length)).sum = S.length ∧
    ∀ ops : List UserOp, (∀ op ∈ ops, op.Ok s) → ∃ s', runUser ops s = Res.ok s' ∧
      ((∀ d ∈ (s'.store m).differences, (s'.heap.cell d).applied = false) → Writes s' m new.flatten) ∧
      ((∀ d ∈ (s'.store m).differences, (s'.heap.cell d).applied = true) → Writes s' m old.flatten)

end Spec
end KompareDiff2
