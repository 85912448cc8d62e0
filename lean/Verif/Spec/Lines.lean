import Verif.Model.Parser
/-
Specifications for the parts of the parser before the formats proper: lines, "no newline" remarks, generator, format, order.
Only the data types `Generator`, `Format`, `DModel` are shared with the model.
-/
namespace KompareDiff2
namespace Spec

/-- A text cut into lines: every line but the last ends with its only newline, the last one may lack it but is not empty. -/
inductive LineList : List Str → Prop where
  | nil : LineList []
  | last (l : Str) : l ≠ [] → '\n' ∉ l → LineList [l]
  | cons (t : Str) (ls : List Str) : '\n' ∉ t → LineList ls → LineList ((t ++ ['\n']) :: ls)

/-- A remark `\ No newline at end of file` (in any language version that begins like this). -/
def Remark (l : Str) : Prop := str "\\ No newline" <+: l

/-- A line together with the remarks behind it. -/
structure Remarked where
  line : Str
  remarks : List Str

/-- The line is not a remark itself, the others are. -/
def Remarked.Ok (r : Remarked) : Prop := ¬ Remark r.line ∧ ∀ m ∈ r.remarks, Remark m

/-- The lines as they stand in the input. -/
def Remarked.raw (r : Remarked) : List Str := r.line :: r.remarks

/-- A comparison function that orders strings: antisymmetric sign and transitive. -/
structure Orders (cmp : Str → Str → Int) : Prop where
  flip : ∀ a b, cmp a b < 0 ↔ 0 < cmp b a
  trans : ∀ a b c, cmp a b ≤ 0 → cmp b c ≤ 0 → cmp a c ≤ 0

/-- The order of the models: by source directory, then by source file name. -/
def sourceLe (cmp : Str → Str → Int) (m m' : DModel) : Prop :=
  cmp m.sourcePath m'.sourcePath < 0 ∨ (cmp m.sourcePath m'.sourcePath = 0 ∧ cmp m.sourceFile m'.sourceFile ≤ 0)

/-! ### Which line shows which format -/

/-- A decimal digit. -/
def Digit (x : Char) : Prop := '0' ≤ x ∧ x ≤ '9'
/-- The letter of an edit command. -/
def Letter (x : Char) : Prop := x = 'a' ∨ x = 'c' ∨ x = 'd'

/-- Begins like `12,14c9`: a digit, digits and commas, a letter, a digit. -/
def NormalCmd (l : Str) : Prop :=
  ∃ x ys c z rest, l = x :: ys ++ c :: z :: rest ∧ Digit x ∧ (∀ y ∈ ys, Digit y ∨ y = ',') ∧ Letter c ∧ Digit z
/-- Begins like `12,14c`. -/
def EdCmd (l : Str) : Prop :=
  ∃ x ys c rest, l = x :: ys ++ c :: rest ∧ Digit x ∧ (∀ y ∈ ys, Digit y ∨ y = ',') ∧ Letter c
/-- Begins like `a12 3`. -/
def RcsCmd (l : Str) : Prop :=
  ∃ c ds z rest, l = c :: ds ++ ' ' :: z :: rest ∧ Letter c ∧ ds ≠ [] ∧ (∀ d ∈ ds, Digit d) ∧ Digit z
/-- Begins with `pre`, a non-empty field without tab, and a tab. -/
def Field (pre : String) (l : Str) : Prop := ∃ name rest, l = str pre ++ name ++ '\t' :: rest ∧ name ≠ [] ∧ '\t' ∉ name
/-- `12` or `12,14`. -/
def Range (l : Str) : Prop :=
  ∃ ds, ds ≠ [] ∧ (∀ d ∈ ds, Digit d) ∧ (l = ds ∨ ∃ es, es ≠ [] ∧ (∀ d ∈ es, Digit d) ∧ l = ds ++ ',' :: es)
/-- Begins like `12,14c9`, with at most one comma. -/
def NormalCmdP4 (l : Str) : Prop := ∃ r c z rest, l = r ++ c :: z :: rest ∧ Range r ∧ Letter c ∧ Digit z

/-- The line shows that the diff written by `g` has format `f`. -/
def Shows : Generator → Str → Format → Prop
  | .Diff, l, .Normal => NormalCmd l
  | .Diff, l, .Unified => str "--- " <+: l
  | .Diff, l, .Context => str "*** " <+: l
  | .Diff, l, .RCS => RcsCmd l
  | .Diff, l, .Ed => EdCmd l ∧ ¬ NormalCmd l
  | .CVSDiff, l, .Normal => NormalCmd l
  | .CVSDiff, l, .Unified => Field "--- " l
  | .CVSDiff, l, .Context => Field "*** " l
  | .CVSDiff, l, .RCS => RcsCmd l
  | .CVSDiff, l, .Ed => EdCmd l ∧ ¬ NormalCmd l
  | .Perforce, l, .Normal => NormalCmdP4 l
  | .Perforce, l, .Unified => str "@@" <+: l
  | .Perforce, l, .Context => List.replicate 15 '*' <+: l
  | .Perforce, l, .RCS => RcsCmd l
  | _, _, _ => False

end Spec
end KompareDiff2
