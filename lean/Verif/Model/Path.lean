import Verif.Basic
/-
Model of the path helpers: `ParserBase::escapePath`/`unescapePath` (parserbase.cpp:22-54) and the splitting of a path into
directory and file name (diffmodel_p.cpp:15-43).
-/
namespace KompareDiff2

/-- `QString::replace(before, after)`: all non-overlapping occurrences, scanned from the left (`before` non-empty).
`fuel` is the length of the text. -/
def replaceFuel (before after : Str) : Nat → Str → Str
  | 0, s => s
  | _ + 1, [] => []
  | n + 1, c :: s =>
    if before.isPrefixOf (c :: s) then after ++ replaceFuel before after n ((c :: s).drop before.length)
    else c :: replaceFuel before after n s

/-- `QString::replace(before, after)`. -/
def replaceAll (before after s : Str) : Str := replaceFuel before after s.length s

/-- `ParserBase::unescapePath`, parserbase.cpp:23-38.  `win` is `Q_OS_WIN`. -/
def unescapePath (win : Bool) (path : Str) : Str :=
  let path := if path.head? = some '"' ∧ path.getLast? = some '"' then (path.drop 1).take (path.length - 2) else path
  let path := replaceAll (str "\\\"") (str "\"") path
  if win then path else replaceAll (str "\\\\") (str "\\") path

/-- `ParserBase::escapePath`, parserbase.cpp:41-56. -/
def escapePath (win : Bool) (path : Str) : Str :=
  let path := if win then path else replaceAll (str "\\") (str "\\\\") path
  let path := replaceAll (str "\"") (str "\\\"") path
  if path.contains ' ' then str "\"" ++ path ++ str "\"" else path

/-- `QString::lastIndexOf(c)`. -/
def lastIndexOf (c : Char) (s : Str) : Option Nat :=
  match s with
  | [] => none
  | x :: s =>
    match lastIndexOf c s with
    | some i => some (i + 1)
    | none => if x = c then some 0 else none

/-- `splitSourceInPathAndFileName`, `splitDestinationInPathAndFileName`, diffmodel_p.cpp:15-43: new directory part and file
name for `path`, where `oldDir` is the directory part before the call (it is left alone when there is no '/'). -/
def splitPath (oldDir path : Str) : Str × Str :=
  match lastIndexOf '/' path with
  | some pos => (path.take (pos + 1), (path.drop (pos + 1)).take (path.length - pos))
  | none => (oldDir, path)

end KompareDiff2
