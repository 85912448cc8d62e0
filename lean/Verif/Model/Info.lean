import Verif.Model.Parser
/-
Model of info.{h,cpp}, global.h, diffsettings.{h,cpp} and of the command line and exit handling of kompareprocess.cpp.
-/
namespace KompareDiff2

/-- `Mode`, global.h:46-55. -/
inductive Mode where
  | ComparingFiles
  | ComparingFileString
  | ComparingStringFile
  | ComparingDirs
  | ShowingDiff
  | BlendingDir
  | BlendingFile
  | UnknownMode
  deriving Repr, DecidableEq

/-- `DiffMode`, global.h:60-64. -/
inductive DiffMode where
  | Default
  | Custom
  | UnknownDiffMode
  deriving Repr, DecidableEq

/-- `Status`, global.h:69-75. -/
inductive Status where
  | RunningDiff
  | Parsing
  | FinishedParsing
  | FinishedWritingDiff
  | ReRunningDiff
  deriving Repr, DecidableEq

/-- `Info`, info.h:28-58.  A `QUrl` is its text, a `QTemporaryDir *` an optional id; `generator = none` is `UnknownGenerator`. -/
structure Info where
  mode : Mode := .UnknownMode
  diffMode : DiffMode := .UnknownDiffMode
  format : Format := .UnknownFormat
  generator : Option Generator := none
  source : Str := []
  destination : Str := []
  localSource : Str := []
  localDestination : Str := []
  sourceTempDir : Option Nat := none
  destinationTempDir : Option Nat := none
  depth : Nat := 0
  applied : Bool := true
  deriving Repr, DecidableEq

/-- `Info::swapSourceWithDestination`, info.cpp:39-52. -/
def Info.swap (i : Info) : Info :=
  let url := i.source
  let i := { i with source := i.destination }
  let i := { i with destination := url }
  let string := i.localSource
  let i := { i with localSource := i.localDestination }
  let i := { i with localDestination := string }
  let tmpDir := i.sourceTempDir
  let i := { i with sourceTempDir := i.destinationTempDir }
  { i with destinationTempDir := tmpDir }

/-! ### Paths of the models -/

/-- `QString::indexOf(c, from)`: index of the first occurrence of `c` at or after `start` (`none` is -1); `start` is not negative here. -/
def indexOfFrom (c : Char) (s : Str) (start : Nat) : Option Nat :=
  match (s.drop start).findIdx? (fun x => decide (x = c)) with
  | some i => some (start + i)
  | none => none

/-- The loop of `lstripSeparators`, modellist_p.cpp:138-144: `none` is position -1.  The search starts *at* the last position found,
so every round after the first finds the same separator again. -/
def lstripLoop (s : Str) : Nat → Nat → Option Nat
  | 0, pos => some pos
  | n + 1, pos =>
    match indexOfFrom '/' s pos with
    | none => none
    | some p => lstripLoop s n p

/-- `lstripSeparators`, modellist_p.cpp:136-150. -/
def lstripSeparators (s : Str) (count : Nat) : Str :=
  match lstripLoop s count 0 with
  | none => []
  | some pos => s.drop (pos + 1)

/-! ### Settings -/

/-- `Format` as stored in the settings, with the numbers of global.h:16-24 (a value read from a file may be any number). -/
def Format.number : Format → Int
  | .UnknownFormat => -1
  | .Context => 0
  | .Ed => 1
  | .Normal => 2
  | .RCS => 3
  | .Unified => 4

/-- `DiffSettings`, diffsettings.h:27-62.  `format` is the number of the `Format` (5 is `SideBySide`). -/
structure Settings where
  diffProgram : Str := []
  linesOfContext : Int := 0
  format : Int := 4
  largeFiles : Bool := false
  ignoreWhiteSpace : Bool := false
  ignoreAllWhiteSpace : Bool := false
  ignoreEmptyLines : Bool := false
  ignoreChangesDueToTabExpansion : Bool := false
  createSmallerDiff : Bool := false
  ignoreChangesInCase : Bool := false
  showCFunctionChange : Bool := false
  convertTabsToSpaces : Bool := false
  ignoreRegExp : Bool := false
  ignoreRegExpText : Str := []
  ignoreRegExpTextHistory : List Str := []
  recursive : Bool := false
  newFiles : Bool := false
  excludeFilePattern : Bool := false
  excludeFilePatternList : List Str := []
  excludeFilesFile : Bool := false
  excludeFilesFileURL : Str := []
  excludeFilesFileHistoryList : List Str := []
  deriving Repr, DecidableEq

/-- A value of a `KConfigGroup` entry.  Simplification: entries keep the type they were written with (KConfig stores text and
converts back; the conversion of KConfig itself is not part of this library). -/
inductive ConfigValue where
  | text (s : Str)
  | int (n : Int)
  | bool (b : Bool)
  | list (l : List Str)
  deriving Repr, DecidableEq

/-- `KConfig`: group name, key ↦ value. -/
abbrev Config := String → String → Option ConfigValue

/-- `KConfigGroup::writeEntry`. -/
def Config.write (c : Config) (g k : String) (v : ConfigValue) : Config :=
  fun g' k' => if g' = g ∧ k' = k then some v else c g' k'

/-- `readEntry(key, QString)`. -/
def Config.readText (c : Config) (g k : String) (default : Str) : Str :=
  match c g k with
  | some (.text s) => s
  | _ => default
/-- `readEntry(key, int)`. -/
def Config.readInt (c : Config) (g k : String) (default : Int) : Int :=
  match c g k with
  | some (.int n) => n
  | _ => default
/-- `readEntry(key, bool)`. -/
def Config.readBool (c : Config) (g k : String) (default : Bool) : Bool :=
  match c g k with
  | some (.bool b) => b
  | _ => default
/-- `readEntry(key, QStringList)`. -/
def Config.readList (c : Config) (g k : String) (default : List Str) : List Str :=
  match c g k with
  | some (.list l) => l
  | _ => default

/-- `DiffSettings::loadSettings`, diffsettings.cpp:41-73. -/
def Settings.load (c : Config) : Settings :=
  let g := "Diff Options"
  let g2 := "Exclude File Options"
  { diffProgram := c.readText g "DiffProgram" []
    linesOfContext := c.readInt g "LinesOfContext" 3
    largeFiles := c.readBool g "LargeFiles" true
    ignoreWhiteSpace := c.readBool g "IgnoreWhiteSpace" false
    ignoreAllWhiteSpace := c.readBool g "IgnoreAllWhiteSpace" false
    ignoreEmptyLines := c.readBool g "IgnoreEmptyLines" false
    ignoreChangesDueToTabExpansion := c.readBool g "IgnoreChangesDueToTabExpansion" false
    ignoreChangesInCase := c.readBool g "IgnoreChangesInCase" false
    ignoreRegExp := c.readBool g "IgnoreRegExp" false
    ignoreRegExpText := c.readText g "IgnoreRegExpText" []
    ignoreRegExpTextHistory := c.readList g "IgnoreRegExpTextHistory" []
    createSmallerDiff := c.readBool g "CreateSmallerDiff" true
    convertTabsToSpaces := c.readBool g "ConvertTabsToSpaces" false
    showCFunctionChange := c.readBool g "ShowCFunctionChange" false
    recursive := c.readBool g "CompareRecursively" true
    newFiles := c.readBool g "NewFiles" true
    format := c.readInt g "Format" 4
    excludeFilePattern := c.readBool g2 "Pattern" false
    excludeFilePatternList := c.readList g2 "PatternList" []
    excludeFilesFile := c.readBool g2 "File" false
    excludeFilesFileURL := c.readText g2 "FileURL" []
    excludeFilesFileHistoryList := c.readList g2 "FileHistoryList" [] }

/-- `DiffSettings::saveSettings`, diffsettings.cpp:75-108. -/
def Settings.save (s : Settings) (c : Config) : Config :=
  let g := "Diff Options"
  let g2 := "Exclude File Options"
  let c := c.write g "DiffProgram" (.text s.diffProgram)
  let c := c.write g "LinesOfContext" (.int s.linesOfContext)
  let c := c.write g "Format" (.int s.format)
  let c := c.write g "LargeFiles" (.bool s.largeFiles)
  let c := c.write g "IgnoreWhiteSpace" (.bool s.ignoreWhiteSpace)
  let c := c.write g "IgnoreAllWhiteSpace" (.bool s.ignoreAllWhiteSpace)
  let c := c.write g "IgnoreEmptyLines" (.bool s.ignoreEmptyLines)
  let c := c.write g "IgnoreChangesInCase" (.bool s.ignoreChangesInCase)
  let c := c.write g "IgnoreChangesDueToTabExpansion" (.bool s.ignoreChangesDueToTabExpansion)
  let c := c.write g "IgnoreRegExp" (.bool s.ignoreRegExp)
  let c := c.write g "IgnoreRegExpText" (.text s.ignoreRegExpText)
  let c := c.write g "IgnoreRegExpTextHistory" (.list s.ignoreRegExpTextHistory)
  let c := c.write g "CreateSmallerDiff" (.bool s.createSmallerDiff)
  let c := c.write g "ConvertTabsToSpaces" (.bool s.convertTabsToSpaces)
  let c := c.write g "ShowCFunctionChange" (.bool s.showCFunctionChange)
  let c := c.write g "CompareRecursively" (.bool s.recursive)
  let c := c.write g "NewFiles" (.bool s.newFiles)
  let c := c.write g2 "Pattern" (.bool s.excludeFilePattern)
  let c := c.write g2 "PatternList" (.list s.excludeFilePatternList)
  let c := c.write g2 "File" (.bool s.excludeFilesFile)
  let c := c.write g2 "FileURL" (.text s.excludeFilesFileURL)
  c.write g2 "FileHistoryList" (.list s.excludeFilesFileHistoryList)

/-! ### The diff process -/

/-- A switch added under a condition. -/
def switchIf (b : Bool) (args : List Str) : List Str := if b then args else []

/-- `KompareProcess::writeCommandLine`, kompareprocess.cpp:108-210 (`__OpenBSD__` not defined). -/
def Settings.commandLine (s : Settings) : List Str :=
  (if s.diffProgram = [] then [str "diff"] else [s.diffProgram]) ++
  (if s.format = 4 then [str "-U", decInt s.linesOfContext]
   else if s.format = 0 then [str "-C", decInt s.linesOfContext]
   else if s.format = 3 then [str "-n"]
   else if s.format = 1 then [str "-e"]
   else if s.format = 5 then [str "-y"]
   else []) ++
  switchIf s.largeFiles [str "-H"] ++
  switchIf s.ignoreWhiteSpace [str "-b"] ++
  switchIf s.ignoreAllWhiteSpace [str "-w"] ++
  switchIf s.ignoreEmptyLines [str "-B"] ++
  switchIf s.ignoreChangesDueToTabExpansion [str "-E"] ++
  switchIf s.createSmallerDiff [str "-d"] ++
  switchIf s.ignoreChangesInCase [str "-i"] ++
  switchIf (s.ignoreRegExp && decide (s.ignoreRegExpText ≠ [])) [str "-I", s.ignoreRegExpText] ++
  switchIf s.showCFunctionChange [str "-p"] ++
  switchIf s.convertTabsToSpaces [str "-t"] ++
  switchIf s.recursive [str "-r"] ++
  switchIf s.newFiles [str "-N"] ++
  switchIf s.excludeFilePattern (s.excludeFilePatternList.flatMap (fun p => [str "-x", p])) ++
  switchIf (s.excludeFilesFile && decide (s.excludeFilesFileURL ≠ [])) [str "-X", s.excludeFilesFileURL]

/-- `KompareProcess::writeDefaultCommandLine`, kompareprocess.cpp:97-106: null settings are tested for the program name but
dereferenced afterwards in any case. -/
def defaultCommandLine (s : Option Settings) : Res (List Str) :=
  match s with
  | none => Res.ub
  | some s =>
    Res.ok ((if s.diffProgram = [] then [str "diff", str "-dr"] else [s.diffProgram, str "-dr"]) ++
      [str "-U", decInt s.linesOfContext])

/-- What `QUrl` makes of a string, as far as it is used here: whether it is a valid URL, its scheme, authority and path. -/
structure Url where
  valid : Bool
  scheme : Str
  authority : Str
  path : Str
  deriving Repr, DecidableEq

/-- `QUrl::isParentOf` (of a URL that is not empty). -/
def Url.isParentOf (u c : Url) : Bool :=
  (c.scheme == [] || u.scheme == c.scheme) && (c.authority == [] || u.authority == c.authority) && u.path.isPrefixOf c.path &&
    (if u.path.getLast? = some '/' then decide (u.path.length < c.path.length) else (c.path.drop u.path.length).head? == some '/')

/-- `constructRelativePath`, kompareprocess.cpp:23-48.  `url` is the constructor of `QUrl`; an empty string gives an invalid URL.
`KIO::upUrl` of a URL without a scheme is invalid, so the loop ends after at most one round unless `from` has a scheme; that case (going up
level by level) is not modelled, its result is given by `other`. -/
def constructRelativePath (url : Str → Url) (other : Str → Str → Str) (frm to : Str) : Str :=
  if frm = [] then to
  else if (url frm).valid = false then to
  else if (url frm).isParentOf (url to) = true then to.drop (url frm).path.length
  else if (url frm).scheme = [] then to
  else other frm to

/-- `KompareProcess::KompareProcess`, kompareprocess.cpp:51-95: the complete argument list and the text sent to the standard input.
`rel` is `constructRelativePath(dir, ·)` (URL arithmetic of Qt and KIO, not modelled). -/
def processArgs (rel : Str → Str) (s : Option Settings) (dm : DiffMode) (mode : Mode) (source destination : Str) :
    Res (List Str × Option Str) := do
  let cmd ← if dm = .Default then defaultCommandLine s else
    match s with
    | none => Res.ub
    | some s => Res.ok s.commandLine
  let a := if mode = .ComparingStringFile then str "-" else rel source
  let b := if mode = .ComparingFileString then str "-" else rel destination
  let input := if mode = .ComparingFileString then some destination else if mode = .ComparingStringFile then some source else none
  Res.ok (cmd ++ [str "--", a, b], input)

/-- `QProcess::ExitStatus`. -/
inductive ExitStatus where
  | NormalExit
  | CrashExit
  deriving Repr, DecidableEq

/-- What is left of a finished process: exit code and status, decoded output and error text. -/
structure ProcessResult where
  exitCode : Int
  exitStatus : ExitStatus
  stdout : Str
  stderr : Str
  deriving Repr, DecidableEq

/-- The argument of `diffHasFinished` emitted by `slotFinished`, kompareprocess.cpp:249-262. -/
def ProcessResult.finishedNormally (r : ProcessResult) : Bool := decide (r.exitStatus = .NormalExit) && decide (r.exitCode ≠ 0)

end KompareDiff2
