import Verif.Model.Info
/-
Model of `ModelListPrivate::blendFile` (modellist_p.cpp:278-500) for one model, and of the text collected by
`ModelList::saveDestination` (modellist.cpp:261-287).
-/
namespace KompareDiff2

/-- The loop `while (srcLineNo < hunk->sourceLineNumber() && linesIt != lEnd)`, modellist_p.cpp:316-322: the difference being
filled, the two line numbers, the remaining lines. -/
def blendFill (limit : Int) : Diff → Int → Int → List Str → Diff × Int × Int × List Str
  | d, src, dst, [] => (d, src, dst, [])
  | d, src, dst, l :: ls =>
    if src < limit then blendFill limit ((d.addSource l).addDest l) (src + 1) (dst + 1) ls
    else (d, src, dst, l :: ls)

/-- The result of the loop over the hunks: heap, new list of hunks, line numbers, remaining lines. -/
structure BlendState where
  heap : Heap
  hunks : List (Hunk Nat)
  src : Int
  dst : Int
  lines : List Str

/-- `hunk->sourceLineCount()` through pointers, diffhunk.cpp:72-83. -/
def Hunk.slcOn (h : Heap) (k : Hunk Nat) : Nat := (Hunk.mk k.sourceLine k.destLine k.function k.type (k.diffs.map h.cell)).slc
/-- `hunk->destinationLineCount()` through pointers, diffhunk.cpp:85-96. -/
def Hunk.dlcOn (h : Heap) (k : Hunk Nat) : Nat := (Hunk.mk k.sourceLine k.destLine k.function k.type (k.diffs.map h.cell)).dlc

/-- The part of the loop body that inserts a hunk before `k`, modellist_p.cpp:307-323. -/
def blendBefore (k : Hunk Nat) (s : BlendState) : BlendState :=
  if s.src < k.sourceLine then
    let r := blendFill k.sourceLine (Diff.new s.src s.dst .Unchanged) s.src s.dst s.lines
    let al := s.heap.allocAll [r.1]
    { heap := al.2
      hunks := s.hunks ++ [{ sourceLine := s.src, destLine := s.dst, function := [], type := .AddedByBlend, diffs := al.1 }]
      src := r.2.1, dst := r.2.2.1, lines := r.2.2.2 }
  else s

/-- The loop over the hunks, modellist_p.cpp:304-335: `hunks` collects the list in its new order.
`linesIt += size; if (linesIt > lEnd) linesIt = lEnd;` is taken as moving to the end (the C++ standard leaves forming a pointer
beyond the end undefined). -/
def blendLoop : List (Hunk Nat) → BlendState → BlendState
  | [], s => s
  | k :: ks, s =>
    let s := blendBefore k s
    blendLoop ks { s with
      hunks := s.hunks ++ [k]
      lines := s.lines.drop (k.slcOn s.heap)
      src := s.src + k.slcOn s.heap
      dst := s.dst + k.dlcOn s.heap }

/-- The hunk after the last one, modellist_p.cpp:337-351. -/
def blendTail (s : BlendState) : BlendState :=
  match s.lines with
  | [] => s
  | l :: ls =>
    let d := (l :: ls).foldl (fun d l => (d.addSource l).addDest l) (Diff.new s.src s.dst .Unchanged)
    let al := s.heap.allocAll [d]
    { s with
      heap := al.2
      hunks := s.hunks ++ [{ sourceLine := s.src, destLine := s.dst, function := [], type := .AddedByBlend, diffs := al.1 }]
      lines := [] }

/-- `blendFile` without the selection made at its end, modellist_p.cpp:278-351. -/
def DModel.blend (m : DModel) (h : Heap) (contents : Str) : DModel × Heap :=
  let s := blendTail (blendLoop m.hunks { heap := h, hunks := [], src := 1, dst := 1, lines := split contents })
  ({ m with blended := true, hunks := s.hunks }, s.heap)

/-- The lines written for one difference, modellist.cpp:270-280. -/
def Diff.savedLines (d : Diff) : List Str := if d.applied = false then d.dstText else d.srcText

/-- The text written by `saveDestination`, modellist.cpp:261-287. -/
def DModel.savedText (m : DModel) (h : Heap) : Str :=
  ((m.hunks.flatMap (fun k => k.diffs)).flatMap (fun i => (h.cell i).savedLines)).flatten

end KompareDiff2
