import Verif.Basic
/-
Model of levenshteintable.h, marker.h, stringlistpair.{h,cpp} and differencestringpair.h.
-/
namespace KompareDiff2

/-- `Marker::Type`, marker.h:26-30. -/
inductive MarkerType where
  | Start
  | End
  deriving Repr, DecidableEq

/-- `Marker`, marker.h:23-71. -/
structure Marker where
  type : MarkerType
  offset : Nat
  deriving Repr, DecidableEq

/-- The `SequencePair` template parameter of `LevenshteinTable` (levenshteintable.h:25-30): what the table
uses of it.  `equal` out of range is undefined behaviour. -/
structure SeqPair where
  allowReplace : Bool
  lengthFirst : Nat
  lengthSecond : Nat
  equal : Nat → Nat → Res Bool
  needFine : Nat → Bool
  markersFirst : List Marker
  markersSecond : List Marker

/-- `StringListPair`, stringlistpair.cpp:13-79, stringlistpair.h:24-47: lengths count one virtual
element, `equal` compares the hashes, treats the virtual elements specially and then compares the lines.
`hash` is `qHash` (any function). -/
def stringListPair {α} [DecidableEq α] (hash : α → Nat) (hash0 : Nat) (first second : List α) : SeqPair where
  allowReplace := false
  lengthFirst := first.length + 1
  lengthSecond := second.length + 1
  equal := fun i j =>
    -- m_hashesFirst[firstIndex] != m_hashesSecond[secondIndex]
    let hf := hash0 :: first.map hash
    let hs := hash0 :: second.map hash
    match hf[i]?, hs[j]? with
    | some a, some b =>
      if a ≠ b then Res.ok false
      else if i = 0 ∨ j = 0 then Res.ok (decide (i = 0 ∧ j = 0))
      else match first[i - 1]?, second[j - 1]? with
        | some x, some y => Res.ok (decide (x = y))
        | _, _ => Res.ub
    | _, _ => Res.ub
  needFine := fun _ => true
  markersFirst := []
  markersSecond := []

/-- `DifferenceStringPair`, differencestringpair.h:20-79: both strings are prefixed with a virtual
element (`' '`), the marker lists are those of the `DifferenceString`s (which may already hold markers). -/
def differenceStringPair {α} [DecidableEq α] (pad : α) (first second : List α)
    (mf ms : List Marker) : SeqPair where
  allowReplace := true
  lengthFirst := first.length + 1
  lengthSecond := second.length + 1
  equal := fun i j =>
    match (pad :: first)[i]?, (pad :: second)[j]? with
    | some x, some y => Res.ok (decide (x = y))
    | _, _ => Res.ub
  needFine := fun difference => decide (difference ≤ max (first.length + 1) (second.length + 1) / 2)
  markersFirst := mf
  markersSecond := ms

/-- Width of `unsigned int`. -/
def uintMod : Nat := 2 ^ 32

/-- The data members of `LevenshteinTable` (levenshteintable.h:66-71); `mem` is `m_table`. -/
structure LTable where
  width : Nat
  height : Nat
  size : Nat
  mem : List Nat
  deriving Repr

/-- Default constructor, levenshteintable.h:67-79: 256 × 256 zeros. -/
def LTable.init : LTable where
  width := 256
  height := 256
  size := 256 * 256
  mem := List.replicate (256 * 256) 0

/-- `getContent`, levenshteintable.h:90-95; `std::vector::operator[]` out of range is undefined. -/
def LTable.get (t : LTable) (x y : Nat) : Res Nat :=
  match t.mem[(y * t.width + x) % uintMod]? with
  | some v => Res.ok v
  | none => Res.ub

/-- `setContent`, levenshteintable.h:97-103. -/
def LTable.set (t : LTable) (x y v : Nat) : Res LTable :=
  if (y * t.width + x) % uintMod < t.mem.length then
    Res.ok { t with mem := t.mem.set ((y * t.width + x) % uintMod) v }
  else Res.ub

/-- `setSize`, levenshteintable.h:105-121; the product is computed in `unsigned int`. -/
def LTable.setSize (t : LTable) (w h : Nat) : Bool × LTable :=
  if (w * h) % uintMod > 256 * 256 * 256 then (false, t)
  else
    let t' : LTable :=
      if (w * h) % uintMod > t.size then
        { t with size := (w * h) % uintMod,
                 mem := t.mem ++ List.replicate ((w * h) % uintMod - t.mem.length) 0 }
      else t
    (true, { t' with width := w, height := h })

/-- Body of the inner loop of `createTable`, levenshteintable.h:160-169. -/
def LTable.cell (p : SeqPair) (j i : Nat) (t : LTable) : Res LTable := do
  let e ← p.equal i j
  let cost := if e then 0 else if p.allowReplace then 1 else 2
  let n ← t.get i (j - 1)
  let w ← t.get (i - 1) j
  let nw ← t.get (i - 1) (j - 1)
  t.set i j (min (n + 1) (min (w + 1) (nw + cost)))

/-- `createTable`, levenshteintable.h:135-174; returns the distance and the new table. -/
def LTable.createTable (t : LTable) (p : SeqPair) : Res (Nat × LTable) :=
  match t.setSize p.lengthFirst p.lengthSecond with
  | (false, t1) => Res.ok (0, t1)
  | (true, t1) => do
    let t2 ← forRange 0 p.lengthFirst t1 (fun i t => t.set i 0 i)
    let t3 ← forRange 0 p.lengthSecond t2 (fun j t => t.set 0 j j)
    let t4 ← forRange 1 p.lengthSecond t3 (fun j t =>
      forRange 1 p.lengthFirst t (fun i t => LTable.cell p j i t))
    let r ← t4.get (p.lengthFirst - 1) (p.lengthSecond - 1)
    Res.ok (r, t4)

/-- `chooseRoute`, levenshteintable.h:176-191: 0 = north, 1 = northwest, 2 = west. -/
def chooseRoute (allowReplace : Bool) (c1 c2 c3 current : Nat) : Nat :=
  if (c2 ≤ c1 ∧ c2 ≤ c3) ∧ (allowReplace ∨ c2 = current) then 1
  else if c3 ≤ c2 ∧ c3 ≤ c1 then 2
  else 0

/-- The marker bookkeeping repeated in each branch of the walk, levenshteintable.h:232-246, 257-287, 296-310:
if the list starts with an `End` marker, prepend `Start pos` when the neighbour value equals the current one,
otherwise prepend `End pos` when it is smaller. -/
def noteMarker (ms : List Marker) (neighbour current pos : Nat) : List Marker :=
  match ms with
  | ⟨.End, _⟩ :: _ => if neighbour = current then ⟨.Start, pos⟩ :: ms else ms
  | _ => if neighbour < current then ⟨.End, pos⟩ :: ms else ms

/-- State of the walk: position and the two marker lists. -/
structure Walk where
  x : Nat
  y : Nat
  mf : List Marker
  ms : List Marker
  deriving Repr, DecidableEq

/-- One iteration of the `while` loop of `createListsOfMarkers`, levenshteintable.h:220-317. -/
def walkStep (t : LTable) (ar : Bool) (s : Walk) : Res Walk := do
  let cur ← t.get s.x s.y
  let n ← t.get s.x (s.y - 1)
  let w ← t.get (s.x - 1) s.y
  let nw ← t.get (s.x - 1) (s.y - 1)
  match chooseRoute ar n nw w cur with
  | 0 =>
    let ms := noteMarker s.ms n cur s.y
    let y := s.y - 1
    Res.ok { s with y := y, ms := if y = 0 then ⟨.Start, 0⟩ :: ms else ms }
  | 1 =>
    Res.ok { x := s.x - 1, y := s.y - 1, mf := noteMarker s.mf nw cur s.x, ms := noteMarker s.ms nw cur s.y }
  | _ =>
    let mf := noteMarker s.mf w cur s.x
    let x := s.x - 1
    Res.ok { s with x := x, mf := if x = 0 then ⟨.Start, 0⟩ :: mf else mf }

/-- The `while (x > 0 && y > 0)` loop, levenshteintable.h:219. -/
def walkLoop (t : LTable) (ar : Bool) : Nat → Walk → Res Walk
  | 0, _ => Res.hang
  | fuel + 1, s =>
    if s.x > 0 ∧ s.y > 0 then walkStep t ar s >>= walkLoop t ar fuel else Res.ok s

/-- `createListsOfMarkers`, levenshteintable.h:193-329; returns the two marker lists.
`fuel` bounds the number of loop iterations (`width + height` suffices, see the theorems). -/
def LTable.createListsOfMarkers (t : LTable) (p : SeqPair) : Res (List Marker × List Marker) := do
  let x := t.width - 1
  let y := t.height - 1
  let difference ← t.get x y
  if p.needFine difference = false then
    Res.ok (⟨.Start, 0⟩ :: ⟨.End, x⟩ :: p.markersFirst, ⟨.Start, 0⟩ :: ⟨.End, y⟩ :: p.markersSecond)
  else do
    let s ← walkLoop t p.allowReplace (x + y + 1) ⟨x, y, p.markersFirst, p.markersSecond⟩
    let mf := if s.x ≠ 0 then ⟨.Start, 0⟩ :: ⟨.End, s.x⟩ :: s.mf else s.mf
    let ms := if s.y ≠ 0 then ⟨.Start, 0⟩ :: ⟨.End, s.y⟩ :: s.ms else s.ms
    Res.ok (mf, ms)

end KompareDiff2
