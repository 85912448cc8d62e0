# Formal model of KDE/libkomparediff2 in Lean 4 — design

Source: `/repo/src` (read as text, never built or run).  Model and proofs: `/verif/lean/Verif`.
Property list: `properties.jsonl` (C01…).  Status per property: `MANIFEST.json`.

## 1. Layout

| Directory | Content |
|---|---|
| `Verif/Basic.lean` | `Str`, the result type `Res` (`ok`/`ub`/`hang`), loops, decimal numerals |
| `Verif/Model/*` | transcription of the C++ functions; every definition cites file and lines |
| `Verif/Spec/*` | small specifications that do not mention the model's helpers (edit scripts, patch application, rendering of a unified diff, …) |
| `Verif/Proofs/*` | lemmas and invariants |
| `Verif/Props/*` | the property theorems `Cnn_…`, each with concrete `example`s that meet the hypotheses |
| `Verif/Tests.lean` | the repo's own unit tests transcribed as conformance tests of the model (tests, not proofs) |

## 2. Trusted base

* Lean 4.33.0's kernel.  Axioms: only `propext`, `Quot.sound`, `Classical.choice` (Lean's standard three); no axiom is added and no
  compiled evaluation is used in proofs.  `Verif/Axioms.lean` (generated) prints the axioms of every theorem named in `MANIFEST.json`:
  most depend on all three, some on `propext` and `Quot.sound` or none.
* The reading of the C++ code.  The code is not built or run here, so the link between code and model is the transcription itself
  (every definition cites file and lines) plus conformance tests: `Verif/Tests.lean` evaluates the model on **all** unit tests of the
  repository (`tests/interactivedifftest.cpp`, `tests/levenshteintest.cpp`; the data is extracted by `tools/gen_tests.py`).  These are
  tests (`#guard`, run by the evaluator), not proofs, and nothing depends on them.
* The meaning given to Qt primitives (listed in §4).
* The specifications in `Verif/Spec`: they are what the theorems say, and have to be read.

## 3. Modelling conventions

* `Str := List Char` for `QString` (code points, not UTF-16 units; C65 runs the model on code units and shows where that differs); a line keeps its trailing `'\n'` as in the code.
* `Res α = ok a | ub | hang`.  `ub` = the C++ program leaves defined behaviour (iterator dereferenced at the end,
  `QList::at` out of range, write outside the table, null pointer dereference).  `hang` = the fuel of a
  transcribed `while` loop ran out; "terminates" is the theorem that `hang` is unreachable for the fuel used.
* `int` line numbers are unbounded `Int` except where width matters: `QString::toInt` (32-bit range check) and the
  size product in `LevenshteinTable` (mod 2^32).  Overflow of the parser's line numbers and counters is
  modelled in `Model/Int32.lean` (C61); overflow in blending in `Model/Blend32.lean` (C62); in `linesChanged`
  in `Model/LinesChanged32.lean` (C67).
* Pointers to `Difference` are addresses in a heap, pointers to `DiffModel` addresses in a store; null is `none`.  The models and differences that
  were destroyed are recorded (`dead`, `deadDiffs`); using a destroyed model through `ModelList` is `ub`.  Elsewhere strings,
  markers and hunks are values; their addresses, sharing and destruction are in `Model/Own.lean` (C59), which refines the value model
  (`C59_effect`).  Parsers and processes are values and their destruction is not modelled.
* Regular expressions are transcribed into an AST executed by a backtracking matcher with captures (`Verif/Model/Regex.lean`), in the
  priority order of PCRE.  `Proofs/RegexLang` proves that the matcher accepts exactly the language of the expression, so "this header
  does not match" is a theorem about the transcribed pattern.  Assumed of PCRE: `.` matches everything but LF (PCRE2 built with LF as newline, the usual default), `\d` is ASCII (no
  Unicode-properties option is set in the code), `$`-free anchored patterns are matched against the whole subject, no match limit.
* Sorting is an insertion sort with a locale comparison given as parameter (any total preorder); `std::sort`
  leaves the order of equal elements unspecified, the property theorems about sorting do not depend on it (they speak of permutations; `C31_any_sort` compares with every other sort).
* `ModelList` is a state machine: its public slots, the completion of the diff process, and the answers of the environment (does the file
  exist, does the upload succeed, …) are operations.  Receivers of the signals are assumed not to call back into
  the library, except in C69, which shows for the operations of a user that calling back does no harm.

## 4. Modelled / not modelled

Modelled: `levenshteintable.h`, `stringlistpair`, `differencestring(pair)`, `marker`, `difference`, `diffhunk`,
`diffmodel(_p)`, `diffmodellist`, `parserbase`, `parser`, `diffparser`, `cvsdiffparser`, `perforceparser`, `modellist(_p)`, the command line and
exit handling of `kompareprocess`, `diffsettings`, `info`.

Not modelled: the real file system, KIO transfers and temporary files (success/failure is an input of the model; for C63 `Model/Disk.lean` has the changes of
files and temporary files step by step, with any prefix of the text, or no file, at the destination while KIO copies; temporary files are taken to survive a crash;
for C81 `Model/Tree.lean` says what KIO's stat, mkdir and file copy jobs do to directories, files and permissions: a copy happens at once or fails, and what may be created or written is an input),
codecs other than UTF-8 and Latin-1 (any byte-wise decoder; C55 — everywhere else texts are character lists on both sides of a file), the event loop (asynchronous process completion is an operation of the
state machine, and inside the nested loops of saving in C56), GUI action objects beyond their enabled flag, translations, debug output, the destruction of parsers and (except in C85) of processes, `QTextStream` buffering
(all text is taken to be written when the file is closed successfully), the parsing of strings into `QUrl`s (a parameter of the model: any
function; `QUrl::isParentOf` and `constructRelativePath` are modelled on its result, the upward `../` branch is a parameter).

`blendFile`'s pointer arithmetic beyond the end is taken as clamped, as the code intends, in `Model/Blend.lean` and everything built on it, and as undefined in `Model/Blend32.lean` (C62).

Qt semantics assumed: `QRegularExpression::match` as above; `QString::toInt` fails (returns 0) outside the 32-bit range or on empty input;
a `QProcess` that is destroyed while running is silent in the simple state machine; in C85 it emits `finished` while it waits for the killed program, as `~QProcess` does, and a program that cannot be started emits nothing;
`QList::at`/`first`/`last`/iterator dereference out of range is UB; `QString::mid/left/right/truncate/lastIndexOf/replace` as documented.

## 5. Plan per property

| Id | Modelled | Proof |
|---|---|---|
| C01 C02 | `createTable` over flat memory, both `allowReplace` policies | table cell = min cost over an inductively defined edit-script relation (spec), by loop invariant + induction |
| C03 C04 | `createListsOfMarkers` with `chooseRoute` | invariant of the walk through the table |
| C05 | same, `needFineGrainedOutput`, consumer reading of the markers as spec | invariant of the walk |
| C06 | `setSize`, `setContent`, `getContent` with bounds | loop invariant; concrete wrap-around witness |
| C07 | `DifferenceString` hash/equality | induction over histories of constructors/setters |
| C08–C13 | heap of differences + `DiffModel` operations | invariants over operation lists; for texts in any order a sum over the differences above (`Props/AnyOrder.lean`) |
| C14 | path splitting | list lemmas |
| C15–C18, C47 | `linesChanged` | refinement to "edit script of a text" spec using C03/C04 |
| C19 | `recreateHunk` | counting |
| C20 | `recreateDiff`, parser | a model is turned into the unified diff it stands for (`UFile.ofView`), whose text is shown to be the one written; then C26. Excluded cases: each one refuted (`C20_*_defect`) |
| C21 | `escapePath`/`unescapePath` | induction on the string |
| C22–C25 | `split`, `cleanUpCrap`, `determineGenerator`, `determineFormat` | induction on lines |
| C26–C31 | unified parser | round trip by induction over hunks and blocks; inversion of parser runs; fuel bound |
| C32 C33 | normal and context parser | as above |
| C34 C35 C48 | `blendFile`, the text of `saveDestination` | spec = patch application on line lists (`Patches`) |
| C36 | `saveDestination`, `saveAll` with environment answers | case analysis, induction over the list |
| C37–C40 | `ModelList` navigation/actions as a state machine | invariant over all operation sequences |
| C41–C46 | decision logic | case analysis over all inputs |
| C49 | `determineInlineDifferences` on whole differences | C05 per pair of lines |
| C51 | the emitted signals of every slot | spec = a listener that folds the signals; invariant over all operations |
| C52 | `saveDiff`, `slotWriteDiffOutput`, `compare`, `refresh`, `swap` and who replaces the running process | invariant over all histories of calls in which only the running process reports its end (a destroyed `QProcess` is assumed to send nothing more) |
| C53 | `constructRelativePath`, `QUrl::isParentOf` | case analysis; spec = resolution of a name in a working directory |
| C54 | which calls destroy models and differences (`dead`, `deadDiffs` in the state), `DiffModel::operator=`, the destructor of a copied list | invariant over all histories |
| C55 | `setEncoding`, `readFile` (chunks, decoder state), the codec of the process, `QTextStream` output; UTF-8 and Latin-1 as byte machines | induction over chunks, bytes and histories; end to end through C48 |
| C56 | `saveDestination`, `slotSaveDestination`, `saveAll` with process ends delivered inside their nested event loops (Model/Nested.lean) | commutation: processes that finish only add beyond what was allocated (`Beyond`), so the save commutes with them; induction over the events and the models |
| C57 | `blendFile`, `blendOriginalIntoModelList`, `slotDiffProcessFinished`, `openAndDiff`, `saveDestination` on arbitrary hunks and files | inductive shape of the blended hunk list (`Blent`), stable under all user operations; a separate recursive specification `overlay`; end to end through C27, C32, C33 |
| C58 | `modelAt(i)->linesChanged` in an open session | a weaker invariant (`Loose`, `Sel`) kept by edits and by every user operation; frame of an edit from C17 |
| C59 | constructors, setters and destructors of the value-like classes on a memory of addresses (`Model/Own.lean`) | ownership invariant (every part has one live owner) kept by every allowed call; refinement to the value model |
| C60 | `ModelList::recreateDiff` in every state reached after opening a diff | the text depends on names, stamps and the hunks not added by blending, which nothing changes (frames of C58); then C20 |
| C61 | the unified and context parsers with checked 32-bit line numbers and counters (`Model/Int32.lean`) | `Below`: the checked function is undefined or equal to the unbounded one, through every loop; counters bounded by the lines left; exactness hunk by hunk for well-formed diffs; tracking from C10 |
| C62 | `blendFile` with strict pointer arithmetic and checked line numbers (`Model/Blend32.lean`) | loop invariant: lines left plus lines passed are the lines of the file; exactness by induction over the hunks; `Patches` implies order and containment |
| C63 | the changes of the disk made by saving, step by step (`Model/Disk.lean`); a crash point is a prefix of the steps | case analysis of the shape of the steps, induction over the models for `saveAll`, with the unsaved flags of the other models framed |
| C64 | directory and file name of a model, the target of a save, saving all models of compared directories | the parser sets names and directories together (invariant of the parse); every user operation keeps them; the target is computed from them; with different names the targets differ and C63's induction over the models gives the disk |
| C65 | the same parser and marker models, run on the UTF-16 code units of a text | the encoding is injective and keeps characters of the basic plane, so the code units of a well-formed diff are a well-formed diff; then C26, C32, C33. Torn characters: counting elements of marked and unmarked parts (C49) |
| C66 | all of `ModelList` (every call of C37–C48 and edits), run twice: in a used list and in a new one | a relation between states that moves objects by offsets (a bisimulation): each function of the parser, of models and of the list maps related states to related results; a used list that was emptied is related to a new one; induction over sessions |
| C67 | `DiffModel::linesChanged` with checked `int`s and narrowed 64-bit sizes (`Model/LinesChanged32.lean`) | each loop computes the unbounded result when its numbers are in range; the numbers are in range because the differences describe the two texts (C15) |
| C68 | the two `slotSelectionChanged` with null pointers | evaluation of the slots from the invariant of an open diff; after opening only the first file has a selected difference |
| C69 | the slots cut at every signal, with receivers that call slots (`Model/Reentrant.lean`) | the invariant of an open diff holds at every signal; induction on the nesting depth |
| C70 | the unified parser on arbitrary lines | a declarative reading (`Spec/Shown.lean`) with captures given by the shape of the lines; the loops follow it, and it is deterministic |
| C71 | the context parser on arbitrary lines | a declarative reading (`Spec/ShownContext.lean`) with the pairing of the two sections as an inductive relation; the loops follow it, and it is deterministic |
| C72 | the normal parser on arbitrary lines | a declarative reading (`Spec/ShownNormal.lean`); the loops follow it, and it is deterministic |
| C73 | the whole path from a text to the list and the saved file | a declarative reading of texts (`Spec/AnyText.lean`) composed of the specifications of C22–C25 and C70–C72; then C57 |
| C74 | reading, `recreateDiff` and reading again, for arbitrary texts | C73 gives what a text shows; `Spec/WriteBack.lean` says when that can be written; induction over the reading shows that such files satisfy the conditions of C20, whose round trip then applies; stability by uniqueness of the sorted order |
| C75 | reading of texts with CR LF line ends, all formats | `Spec/Dos.lean` converts a diff; the converted text is, remarks apart, the text of the converted diff, to which C26 applies; for the other formats C71, C72 and the fact that no line of the converted text ends with LF alone |
| C76 | comparing, marking and saving, and the text of the destination files | `Spec/OnDisk.lean` says what the log of uploads makes of a file (`fileAfter`) and what it should be (`KeepsFile`: the marks at the last save are `applied xor unsaved`, C08); an invariant `Kept` over all user actions relates the file to the marks; the start is C48's lemma `compare_ready` |
| C77 | the unified parser on texts that are damaged in some files | `Spec/Damage.lean` describes the text (`PartDiff`: well-formed beginning of every file, then any lines); a header line of the next file is a barrier for the hunks before it, so `UnifiedShown` (C70) and `UnifiedHunks` (C29) of the whole text are put together from those of the files; C70 and C30 then say what the parser returns; the swallowed file is a well-formed diff of one file (C26) |
| C78 | the model list, the diff program and the two files as one system | `Spec/Sitting.lean` defines the system (`Sitting`: comparing, truthful answers, user actions with their uploads, outside changes); induction over sittings with the invariant that a shown state comes from one truthful answer by user actions only, then C76 from that answer on |
| C79 | the context parser on damaged input | `Spec/DamageContext.lean` describes the damaged diffs (`CutDiff`); the completeness proof for well-formed files (C27) is run up to the misplaced line, then a loop invariant (nothing found is lost, the flag stays), or the same proof again on the files after it |
| C80 | `openAndDiff`, then any user operations | `Spec/PatchFile.lean`: the text at the place of the patch after a log of uploads; from the invariant of C76 (the text on the disk is the one with the marks of the last save), without assuming what was there before |
| C81 | `saveDestination`, `saveAll` on a file system (`Model/Tree.lean`): stat, mkdir, copy with permissions | `Spec/Tree.lean`: a place for a file, what has been written; from C36 (what saving does when nothing fails) and C64 (where a file belongs), by induction over the models |
| C82 | `compare`, `refresh`, `swap`, `slotDiffProcessFinished`, blending, all user actions and `saveAll` for two directories | `Spec/DirSitting.lean`: a sitting as an inductive relation between state and the texts of both directories; from C76 (blending on disk), C64 (which file is written) and C78's method: an invariant saying how the shown state came about |
| C83 | `slotDiffProcessFinished`, `compare(mode)` and `refresh` cut at every signal, with receivers that call back | `Spec/ReentrantCompare.lean`; C69's invariant (`Midway`) before and after blending, joined by C57's overlay theorem; with silent receivers the cut functions are the plain ones |
| C84 | `openFileAndDiff`/`openDirAndDiff` cut at every signal, with receivers that call back | `Spec/ReentrantPatch.lean`; as C83, with `setDepthAndApplied` between the callbacks and blending; with silent receivers the cut function is the plain one |
| C85 | `compare`, `refresh`, `swap`, `saveDiff`, the assignment of `diffProcess` and the destruction of a running process, as a layer over the state machine (`Model/ProcessLife.lean`) | `Spec/ProcessLife.lean` (running, starting calls, histories); with nothing running each call is the one of the simple model, otherwise it is not defined because both slots leave no process (C52); refinement by induction over the history |
| C50 | the Perforce parser, three formats | the header expression is matched exactly (first ` - `, names up to `#`); then the hunk theorems of C26, C32 and C33 |

No property is considered inexpressible.  Parts of properties that are *false* of the code are stated as refutations
(`…_counterexample`, `…_defect`, `…_ub`) next to the strongest true theorem.

## 6. Testing the theorems

`seeded/LOG.jsonl` records deliberate bugs put into the model (one at a time, in a copy): which definition, which edit, the claim it
breaks, the theorems that failed to build, and the theorems tightened because of it.
