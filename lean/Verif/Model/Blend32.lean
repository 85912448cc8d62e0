import Verif.Model.Blend
import Verif.Model.Int32
/-
`ModelListPrivate::blendFile` read strictly: `linesIt += size` is undefined beyond the end of the list (`Model/Blend.lean` takes
it as moving to the end), and the line numbers are checked `int`s.
-/
namespace KompareDiff2

/-- `blendFill` with checked line numbers, modellist_p.cpp:316-322. -/
def blendFill32 (limit : Int) : Diff → Int → Int → List Str → Res (Diff × Int × Int × List Str)
  | d, src, dst, [] => Res.ok (d, src, dst, [])
  | d, src, dst, l :: ls =>
    if src < limit then do
      let src ← int32 (src + 1)
      let dst ← int32 (dst + 1)
      blendFill32 limit ((d.addSource l).addDest l) src dst ls
    else Res.ok (d, src, dst, l :: ls)

/-- `blendBefore` with checked line numbers, modellist_p.cpp:307-323. -/
def blendBefore32 (k : Hunk Nat) (s : BlendState) : Res BlendState :=
  if s.src < k.sourceLine then do
    let r ← blendFill32 k.sourceLine (Diff.new s.src s.dst .Unchanged) s.src s.dst s.lines
    let al := s.heap.allocAll [r.1]
    Res.ok
      { heap := al.2
        hunks := s.hunks ++ [{ sourceLine := s.src, destLine := s.dst, function := [], type := .AddedByBlend, diffs := al.1 }]
        src := r.2.1, dst := r.2.2.1, lines := r.2.2.2 }
  else Res.ok s

/-- `linesIt += size`, modellist_p.cpp:328: defined up to the end of the list only. -/
def advance (size : Nat) (lines : List Str) : Res (List Str) := if size ≤ lines.length then Res.ok (lines.drop size) else Res.ub

/-- The loop over the hunks, modellist_p.cpp:304-335, with strict pointer arithmetic and checked line numbers; the counts of the hunk
(diffhunk.cpp:72-96) are `int`s, too. -/
def blendLoop32 : List (Hunk Nat) → BlendState → Res BlendState
  | [], s => Res.ok s
  | k :: ks, s => do
    let s ← blendBefore32 k s
    let size ← int32 (k.slcOn s.heap)
    let lines ← advance (k.slcOn s.heap) s.lines
    let src ← int32 (s.src + size)
    let count ← int32 (k.dlcOn s.heap)
    let dst ← int32 (s.dst + count)
    blendLoop32 ks { s with hunks := s.hunks ++ [k], lines := lines, src := src, dst := dst }

/-- `blendFile` without the selection made at its end, modellist_p.cpp:278-351, read strictly. -/
def DModel.blend32 (m : DModel) (h : Heap) (contents : Str) : Res (DModel × Heap) := do
  let s ← blendLoop32 m.hunks { heap := h, hunks := [], src := 1, dst := 1, lines := split contents }
  let s := blendTail s
  Res.ok ({ m with blended := true, hunks := s.hunks }, s.heap)

end KompareDiff2
