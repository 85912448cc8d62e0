import Verif.Model.Own
/-
Who has to destroy what.  The rules a client of `DifferenceString`, `Difference`, `DiffHunk` and `DiffModel` has to follow, and what it may
rely on then.
-/
namespace KompareDiff2
namespace Spec

/-- A marker exists and no string holds it. -/
def FreeMarker (s : Objs) (m : Nat) : Prop := (s.marker m).isSome ∧ ∀ i o, s.string i = some o → m ∉ o.markers

/-- A string exists and is not a line of a difference. -/
def FreeString (s : Objs) (i : Nat) : Prop := (s.string i).isSome ∧ ∀ d o, s.diff d = some o → i ∉ o.source ∧ i ∉ o.dest

/-- A difference exists and no model holds it. -/
def FreeDiff (s : Objs) (d : Nat) : Prop := (s.diff d).isSome ∧ ∀ m o, s.model m = some o → d ∉ o.differences

/-- A hunk exists and no model holds it. -/
def FreeHunk (s : Objs) (h : Nat) : Prop := (s.hunk h).isSome ∧ ∀ m o, s.model m = some o → h ∉ o.hunks

/-- No line of the difference is too long for the table of the edit distance. -/
def ShortLines (s : Objs) (i : Nat) : Prop := ∀ o, s.diff i = some o → ∀ l ∈ o.source ++ o.dest, ∀ t, s.string l = some t → t.string.length < 65535

/-- The rules.  An object is given to one owner only, once, and what was given away is not destroyed by the client; a string that has
markers is not copied; a difference shown by a hunk is not destroyed before the hunk. -/
def Legal (s : Objs) : OwnOp → Prop
  | .newMarker _ => True
  | .newEmptyString => True
  | .newString _ ms => ms.Nodup ∧ ∀ m ∈ ms, FreeMarker s m
  | .copyString i => ∃ o, s.string i = some o ∧ o.markers = []
  | .newDiff _ _ _ => True
  | .newHunk => True
  | .newModel => True
  | .setMarker i _ => (s.marker i).isSome
  | .setString i _ => (s.string i).isSome
  | .setConflict i _ => (s.string i).isSome
  | .setMarkerList i ms => ms.Nodup ∧ ∃ o, s.string i = some o ∧ ∀ m ∈ ms, FreeMarker s m ∨ m ∈ o.markers
  | .prepend i m => (s.string i).isSome ∧ FreeMarker s m
  | .addSource i _ => (s.diff i).isSome
  | .addDest i _ => (s.diff i).isSome
  | .setType i _ => (s.diff i).isSome
  | .determineInline i => (s.diff i).isSome ∧ ShortLines s i
  | .hunkAdd i d => (s.hunk i).isSome ∧ (s.diff d).isSome
  | .addHunk i h => (s.model i).isSome ∧ FreeHunk s h
  | .addDiff i d => (s.model i).isSome ∧ FreeDiff s d
  | .deleteMarker i => FreeMarker s i
  | .deleteString i => FreeString s i
  | .deleteDiff i => FreeDiff s i ∧ ∀ h o, s.hunk h = some o → i ∉ o.diffs
  | .deleteHunk i => FreeHunk s i
  | .deleteModel i => ∃ o, s.model i = some o ∧ ∀ h k, s.hunk h = some k → h ∉ o.hunks → ∀ d ∈ k.diffs, d ∉ o.differences

/-- The memory of a client that has followed the rules so far. -/
inductive Ruled : Objs → Prop
  | start : Ruled {}
  | call {s s' : Objs} {op : OwnOp} : Ruled s → Legal s op → op.run s = Res.ok s' → Ruled s'

/-- The objects a call destroys. -/
structure Destroyed where
  markers : List Nat := []
  strings : List Nat := []
  diffs : List Nat := []
  hunks : List Nat := []
  models : List Nat := []

/-- The markers of a string. -/
def marksOf (s : Objs) (i : Nat) : List Nat := ((s.string i).map OStr.markers).getD []

/-- The lines of a difference. -/
def linesOf (s : Objs) (i : Nat) : List Nat := ((s.diff i).map (fun o => o.source ++ o.dest)).getD []

/-- The hunks of a model. -/
def hunksOf (s : Objs) (i : Nat) : List Nat := ((s.model i).map OModel.hunks).getD []

/-- The differences in the list of a model. -/
def diffsOf (s : Objs) (i : Nat) : List Nat := ((s.model i).map OModel.differences).getD []

/-- What each call has to destroy: an object with what it owns. -/
def destroyed (s : Objs) : OwnOp → Destroyed
  | .deleteMarker i => { markers := [i] }
  | .deleteString i => { strings := [i], markers := marksOf s i }
  | .deleteDiff i => { diffs := [i], strings := linesOf s i, markers := (linesOf s i).flatMap (marksOf s) }
  | .deleteHunk i => { hunks := [i] }
  | .deleteModel i =>
    { models := [i], hunks := hunksOf s i, diffs := diffsOf s i, strings := (diffsOf s i).flatMap (linesOf s)
      markers := ((diffsOf s i).flatMap (linesOf s)).flatMap (marksOf s) }
  | _ => {}

/-- Of the objects there were before, exactly the listed ones are gone. -/
def GoneAre (s s' : Objs) (d : Destroyed) : Prop :=
  (∀ i, (s.marker i).isSome → ((s'.marker i).isSome ↔ i ∉ d.markers)) ∧
  (∀ i, (s.string i).isSome → ((s'.string i).isSome ↔ i ∉ d.strings)) ∧
  (∀ i, (s.diff i).isSome → ((s'.diff i).isSome ↔ i ∉ d.diffs)) ∧
  (∀ i, (s.hunk i).isSome → ((s'.hunk i).isSome ↔ i ∉ d.hunks)) ∧
  (∀ i, (s.model i).isSome → ((s'.model i).isSome ↔ i ∉ d.models))

/-- Every pointer that the accessors of existing objects give can be followed. -/
def AllReadable (s : Objs) : Prop :=
  (∀ i, (s.string i).isSome → ∃ v, s.line i = Res.ok v) ∧
  (∀ i, (s.diff i).isSome → ∃ v, s.difference i = Res.ok v) ∧
  (∀ i, (s.hunk i).isSome → ∃ v, s.hunkDifferences i = Res.ok v) ∧
  (∀ i, (s.model i).isSome → (∃ v, s.modelDifferences i = Res.ok v) ∧ ∃ v, s.modelHunks i = Res.ok v)

/-! ### Values -/

/-- The call changes this marker. -/
def ChangesMarker (m : Nat) : OwnOp → Prop
  | .setMarker j _ => m = j
  | _ => False

/-- The call changes this string, or which markers it has. -/
def ChangesString (s : Objs) (i : Nat) : OwnOp → Prop
  | .setString j _ => i = j
  | .setConflict j _ => i = j
  | .setMarkerList j _ => i = j
  | .prepend j _ => i = j
  | .determineInline d => i ∈ linesOf s d
  | _ => False

/-- The call changes what is seen of this string and its markers. -/
def ChangesLine (s : Objs) (i : Nat) (op : OwnOp) : Prop := ChangesString s i op ∨ ∃ m ∈ marksOf s i, ChangesMarker m op

/-- The call changes what is seen of this difference and its lines. -/
def ChangesDifference (s : Objs) (d : Nat) (op : OwnOp) : Prop :=
  (match op with
    | .addSource j _ => d = j
    | .addDest j _ => d = j
    | .setType j _ => d = j
    | _ => False) ∨ ∃ i ∈ linesOf s d, ChangesLine s i op

/-- What is not meant stays as it is. -/
def OthersKept (s s' : Objs) (op : OwnOp) : Prop :=
  (∀ m, (s.marker m).isSome → (s'.marker m).isSome → ¬ ChangesMarker m op → s'.marker m = s.marker m) ∧
  (∀ i, (s.string i).isSome → (s'.string i).isSome → ¬ ChangesLine s i op → s'.line i = s.line i) ∧
  (∀ d, (s.diff d).isSome → (s'.diff d).isSome → ¬ ChangesDifference s d op → s'.difference d = s.difference d)

/-- What a call does to the object it is made on, or to the object it creates (at the address `s.next`), in terms of values. -/
def Effect (s s' : Objs) : OwnOp → Prop
  | .newMarker v => s'.marker s.next = some v
  | .newEmptyString => s'.line s.next = Res.ok DStr.default
  | .newString t ms => ∃ vs, readAll (deref s.marker) ms = Res.ok vs ∧ s'.line s.next = Res.ok (DStr.ofStr t vs)
  | .copyString i => s'.line s.next = s.line i
  | .newDiff a b ty => s'.difference s.next = Res.ok (Diff.new a b ty)
  | .newHunk => s'.hunkDifferences s.next = Res.ok []
  | .newModel => s'.modelDifferences s.next = Res.ok [] ∧ s'.modelHunks s.next = Res.ok []
  | .setMarker i v => s'.marker i = some v
  | .setString i t => ∃ v, s.line i = Res.ok v ∧ s'.line i = Res.ok (v.setString t)
  | .setConflict i t => ∃ v, s.line i = Res.ok v ∧ s'.line i = Res.ok (v.setConflictString t)
  | .setMarkerList i ms => ∃ v vs, s.line i = Res.ok v ∧ readAll (deref s.marker) ms = Res.ok vs ∧ s'.line i = Res.ok (v.setMarkerList vs)
  | .prepend i m => ∃ v w, s.line i = Res.ok v ∧ s.marker m = some w ∧ s'.line i = Res.ok (v.prepend w)
  | .addSource i l => ∃ d, s.difference i = Res.ok d ∧ s'.difference i = Res.ok (d.addSource l)
  | .addDest i l => ∃ d, s.difference i = Res.ok d ∧ s'.difference i = Res.ok (d.addDest l)
  | .setType i ty => ∃ d, s.difference i = Res.ok d ∧ s'.difference i = Res.ok { d with type := ty }
  | .determineInline i => ∃ d d', s.difference i = Res.ok d ∧ d.determineInline = Res.ok d' ∧ s'.difference i = Res.ok d'
  | .hunkAdd i d => ∃ ds v, s.hunkDifferences i = Res.ok ds ∧ s.difference d = Res.ok v ∧ s'.hunkDifferences i = Res.ok (ds ++ [v])
  | .addHunk i h => ∃ hs v, s.modelHunks i = Res.ok hs ∧ s.hunkDifferences h = Res.ok v ∧ s'.modelHunks i = Res.ok (hs ++ [v])
  | .addDiff i d => ∃ ds v, s.modelDifferences i = Res.ok ds ∧ s.difference d = Res.ok v ∧ s'.modelDifferences i = Res.ok (ds ++ [v])
  | _ => True

/-- The call does not name this marker. -/
def Ignores (m : Nat) : OwnOp → Prop
  | .newString _ ms => m ∉ ms
  | .setMarkerList _ ms => m ∉ ms
  | .prepend _ k => k ≠ m
  | .deleteMarker k => k ≠ m
  | _ => True

/-- Calls that follow the rules, one after the other. -/
inductive Follows : Objs → List OwnOp → Objs → Prop
  | nil (s : Objs) : Follows s [] s
  | cons {s s' t : Objs} {op : OwnOp} {ops : List OwnOp} : Legal s op → op.run s = Res.ok s' → Follows s' ops t → Follows s (op :: ops) t

end Spec
end KompareDiff2
