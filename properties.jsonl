{"id": "C01", "title": "Inline (character) edit distance is exact", "statement": "For two strings whose padded lengths multiply to at most 2^24, LevenshteinTable<DifferenceStringPair>::createTable returns the minimum total cost of any edit script (insert 1, delete 1, replace 1, keep 0) turning the first string into the second, whatever was in the table before.", "quantifier": "all pairs of strings within the size limit, all previous table contents", "why_tests_cant": "A test samples a handful of inputs; this must hold for every input of every size.", "anchors": ["src/levenshteintable.h:createTable", "src/levenshteintable.h:setSize", "src/differencestringpair.h"]}
{"id": "C02", "title": "Line-list edit distance is exact (insert/delete only)", "statement": "For two line lists whose padded lengths multiply to at most 2^24, LevenshteinTable<StringListPair>::createTable returns the minimum number of line insertions plus deletions turning the first list into the second (replacement is not allowed as one step).", "quantifier": "all pairs of line lists within the size limit, all previous table contents", "why_tests_cant": "A test samples a handful of inputs; this must hold for every input of every size.", "anchors": ["src/levenshteintable.h:createTable", "src/stringlistpair.cpp"]}
{"id": "C03", "title": "Line markers are well formed", "statement": "After createTable and createListsOfMarkers on a StringListPair, each marker list strictly alternates Start, End, Start, End, ..., has even length, offsets are within [0,length], every Start is before its End, and successive runs are separated by at least one unmarked line.", "quantifier": "all pairs of line lists within the size limit", "why_tests_cant": "A consumer that pairs markers (DiffModel::linesChanged) reads past the end of the list for any input that yields an unpaired marker; absence of such an input is a universal claim.", "anchors": ["src/levenshteintable.h:createListsOfMarkers", "src/levenshteintable.h:chooseRoute", "src/diffmodel_p.cpp:processStartMarker"]}
{"id": "C04", "title": "Line markers describe a shortest edit script", "statement": "Deleting the marked ranges from the first list and from the second list leaves the same list of lines, and the total number of marked lines equals the minimum insert/delete distance.", "quantifier": "all pairs of line lists within the size limit", "why_tests_cant": "A test samples a handful of inputs; this must hold for every input of every size.", "anchors": ["src/levenshteintable.h:createListsOfMarkers"]}
{"id": "C05", "title": "Inline markers isolate the changed characters", "statement": "Reading the marker lists left to right (text up to an End marker is changed, text up to a Start marker and after the last marker is unchanged), the unchanged characters of the two strings form the same sequence whenever fine-grained output is produced; otherwise both strings are marked as changed in full. The lists need not alternate Start/End: a replaced first character yields an End without Start.", "quantifier": "all pairs of strings within the size limit", "why_tests_cant": "A test samples a handful of inputs; this must hold for every input of every size.", "anchors": ["src/levenshteintable.h:createListsOfMarkers", "src/differencestringpair.h:needFineGrainedOutput"]}
{"id": "C06", "title": "Edit-distance table memory safety and size limit", "statement": "createTable never accesses the table out of bounds when the product of the padded lengths is below 2^32; products above 2^24 return 0 and leave table and dimensions untouched. (With products that wrap around 2^32 the limit check is bypassed and the table is accessed out of bounds.)", "quantifier": "all pairs of sequences, all previous table sizes", "why_tests_cant": "The failing sizes are around 2^16 by 2^16, far beyond what a unit test exercises, and the safe side is universal.", "anchors": ["src/levenshteintable.h:setSize", "src/levenshteintable.h:createTable"]}
{"id": "C07", "title": "Difference text equality", "statement": "For DifferenceStrings created from a string (and possibly modified by setString or copied), operator== is true exactly when the two texts are equal; the hash never causes a wrong answer. (A default-constructed DifferenceString is not equal to one built from the empty string.)", "quantifier": "all strings and all construction histories", "why_tests_cant": "Hash collisions cannot be enumerated by tests.", "anchors": ["src/differencestring_p.h:operator==", "src/differencestring_p.h:calculateHash", "src/differencestring.cpp"]}
{"id": "C08", "title": "A difference is unsaved exactly when its applied state differs from the last saved state", "statement": "For every sequence of apply(b), applyQuietly(b) and save (setUnsaved(false)) on a Difference, isUnsaved() is true iff applied() differs from its value at the last save (initially false); apply emits differenceApplied iff the state changes.", "quantifier": "all operation sequences", "why_tests_cant": "The claim is about every finite sequence of API calls; tests exercise a few fixed sequences.", "anchors": ["src/difference.cpp:apply", "src/difference.cpp:applyQuietly", "src/difference.cpp:setUnsaved"]}
{"id": "C09", "title": "appliedCount counts the applied differences", "statement": "For every sequence of selections, applyDifference(b) and applyAllDifferences(b) starting from a freshly parsed model of any text, well-formed or not, appliedCount() equals the number of differences whose applied() is true, and 0 <= appliedCount <= differenceCount.", "quantifier": "all operation sequences on all models", "why_tests_cant": "The claim is about every finite sequence of API calls; tests exercise a few fixed sequences.", "anchors": ["src/diffmodel.cpp:applyDifference", "src/diffmodel.cpp:applyAllDifferences"]}
{"id": "C10", "title": "Tracking line numbers follow the applied differences", "statement": "For a model whose differences have strictly increasing destination line numbers, after every sequence of applyDifference/applyAllDifferences/direct Difference::apply, trackingDestinationLineNumber of each difference equals its source line number plus the sum over the applied differences before it of (destinationLineCount - sourceLineCount). The models of every well-formed unified diff whose hunks ascend with a line between them (as diff writes them) are such models. For any text and any order of the line numbers, when differences are applied one at a time, the sum ranges over the applied differences that start at a lower destination line; after one applyAllDifferences(true) it ranges over the differences before it in the list.", "quantifier": "all models, all apply/unapply histories", "why_tests_cant": "The claim is about every finite sequence of API calls; tests exercise a few fixed sequences.", "anchors": ["src/diffmodel.cpp:slotDifferenceApplied", "src/diffmodel.cpp:applyAllDifferences", "src/diffmodel.cpp:GetDifferenceDelta"]}
{"id": "C11", "title": "Apply/unapply is order independent and reversible", "statement": "The final applied flags and tracking line numbers depend only on which differences are applied, not on the order or number of apply/unapply operations that led there; in particular applying and unapplying restores every tracking number. This holds for all histories when the destination line numbers ascend, and for histories that apply differences one at a time for any text. (When the hunks of the diff do not ascend, applying everything in one call gives other tracking numbers than applying one by one: counterexample.)", "quantifier": "all pairs of histories ending with the same applied set", "why_tests_cant": "The claim is about every finite sequence of API calls; tests exercise a few fixed sequences.", "anchors": ["src/diffmodel.cpp:slotDifferenceApplied", "src/diffmodel.cpp:applyAllDifferences"]}
{"id": "C12", "title": "Model unsaved state", "statement": "DiffModel::hasUnsavedChanges() is true iff some difference's applied state differs from its state at the last save (at loading, if there was none), for every history of selection, apply, applyAll and save on a model parsed from any text.", "quantifier": "all operation sequences", "why_tests_cant": "The claim is about every finite sequence of API calls; tests exercise a few fixed sequences.", "anchors": ["src/diffmodel.cpp:hasUnsavedChanges", "src/modellist.cpp:saveDestination"]}
{"id": "C13", "title": "Navigation inside a model", "statement": "For every sequence of firstDifference, lastDifference, nextDifference, prevDifference and setSelectedDifference on a non-empty model, a non-null selection is always the difference at diffIndex(); next moves to the following one or returns null at the end, prev to the preceding one or null at the start; setSelectedDifference fails exactly for a new pointer that is not in the model and then changes nothing. On an empty model first/lastDifference are undefined behaviour.", "quantifier": "all models and call sequences", "why_tests_cant": "The claim is about every finite sequence of API calls; tests exercise a few fixed sequences.", "anchors": ["src/diffmodel.cpp:nextDifference", "src/diffmodel.cpp:prevDifference", "src/diffmodel.cpp:setSelectedDifference"]}
{"id": "C14", "title": "Path splitting", "statement": "For a model constructed with two paths, sourcePath()+sourceFile() equals source() (same for the destination), sourceFile() contains no '/' and sourcePath() is empty or ends with '/'. setSourceFile keeps the identity when the new path contains '/'; when it does not, the old directory part stays (defect).", "quantifier": "all paths, all set/reset histories", "why_tests_cant": "A test samples a handful of inputs; this must hold for every input of every size.", "anchors": ["src/diffmodel_p.cpp:splitSourceInPathAndFileName", "src/diffmodel.cpp:setSourceFile"]}
{"id": "C15", "title": "Interactive edit keeps the model describing the text", "statement": "If a model's differences describe how the source text becomes the current destination text (positions, contents, tracking numbers; every unapplied difference having as many source as destination lines), and lines of the current text are replaced, then after linesChanged(oldLines,newLines,line) the differences describe exactly how the source becomes the edited text, with correct positions and tracking numbers, ordered and not touching, and no out-of-bounds access happens.", "quantifier": "all source texts, all consistent models, all edits within the size limit", "why_tests_cant": "The merge has many cases (overlap left, right, several differences, adjacency); only a proof covers all combinations of sizes.", "anchors": ["src/diffmodel.cpp:linesChanged", "src/diffmodel_p.cpp:processStartMarker"]}
{"id": "C16", "title": "Any sequence of edits stays consistent", "statement": "Starting from a fully applied consistent model (or an empty model), after any sequence of edits reported through linesChanged the differences transform the original source into the current text.", "quantifier": "all edit histories", "why_tests_cant": "The claim is about every finite sequence of API calls; tests exercise a few fixed sequences.", "anchors": ["src/diffmodel.cpp:linesChanged"]}
{"id": "C17", "title": "linesChanged reports exactly what it changed", "statement": "The returned pair (inserted, removed) satisfies: the new difference list is the old one with the contiguous block removed replaced by inserted, in order; differences before the block are untouched; those after keep everything but their tracking number, which shifts by newLines-oldLines; every inserted difference is new, applied, and has type Change, Insert or Delete according to which sides are non-empty.", "quantifier": "all models and edits", "why_tests_cant": "A test samples a handful of inputs; this must hold for every input of every size.", "anchors": ["src/diffmodel.cpp:linesChanged", "src/diffmodel_p.cpp:computeDiffStats"]}
{"id": "C18", "title": "linesChanged yields a minimal description of the edited block", "statement": "The number of source and destination lines in the inserted differences is the minimum insert/delete distance between the affected source block and its new text, and equals 0 iff the block is unchanged.", "quantifier": "all models and edits within the size limit", "why_tests_cant": "A test samples a handful of inputs; this must hold for every input of every size.", "anchors": ["src/diffmodel.cpp:linesChanged", "src/levenshteintable.h"]}
{"id": "C19", "title": "Hunk header counts match the body", "statement": "For a hunk whose differences carry lines only on the sides their type allows, the text of recreateHunk() announces in its header exactly the number of ' '/'-' lines and ' '/'+' lines that follow.", "quantifier": "all hunks", "why_tests_cant": "A test samples a handful of inputs; this must hold for every input of every size.", "anchors": ["src/diffhunk.cpp:recreateHunk", "src/difference.cpp:recreateDifference"]}
{"id": "C20", "title": "Recreated diff parses back to the same model", "statement": "For a model whose paths have no tab/newline, with non-empty timestamps, no revision, newline-terminated lines and no hunk with an empty side, parsing recreateDiff() yields an equal model (paths, timestamps, hunks, functions, differences). Each excluded case is a real failure: empty timestamp (unparsable header), empty side (line numbers drift by one), missing newline (lines glued), revision (lost).", "quantifier": "all models, all sizes", "why_tests_cant": "A test samples a handful of inputs; this must hold for every input of every size.", "anchors": ["src/diffmodel.cpp:recreateDiff", "src/diffhunk.cpp:recreateHunk", "src/parserbase.cpp:parseUnified"]}
{"id": "C21", "title": "Path escaping is reversible", "statement": "unescapePath(escapePath(p)) = p for every path p, with and without backslash escaping (POSIX and Windows variants); the escaped form contains a space only inside enclosing quotes.", "quantifier": "all paths", "why_tests_cant": "A test samples a handful of inputs; this must hold for every input of every size.", "anchors": ["src/parserbase.cpp:escapePath", "src/parserbase.cpp:unescapePath"]}
{"id": "C22", "title": "Splitting into lines loses nothing", "statement": "Concatenating split(text) gives text back; every element is non-empty; every element except possibly the last ends with a newline and contains no other newline.", "quantifier": "all texts", "why_tests_cant": "A test samples a handful of inputs; this must hold for every input of every size.", "anchors": ["src/modellist_p.cpp:split"]}
{"id": "C23", "title": "'No newline at end of file' markers are folded into the preceding line", "statement": "For a line list whose marker lines each follow a newline-terminated non-marker line, the cleaned list is the original without marker lines and with the newline removed from exactly the lines that preceded a marker; lists without markers are unchanged. A leading marker is undefined behaviour, a doubled marker empties the preceding line.", "quantifier": "all line lists", "why_tests_cant": "A test samples a handful of inputs; this must hold for every input of every size.", "anchors": ["src/parser.cpp:cleanUpCrap"]}
{"id": "C24", "title": "Generator detection", "statement": "A diff is classified as CVS iff an 'Index: ' line occurs before any '==== ' line, Perforce iff a '==== ' line occurs before any 'Index: ' line, otherwise as plain diff.", "quantifier": "all line lists", "why_tests_cant": "A test samples a handful of inputs; this must hold for every input of every size.", "anchors": ["src/parser.cpp:determineGenerator"]}
{"id": "C25", "title": "Format detection", "statement": "The detected format is that of the first line matching any of the format patterns, tried in a fixed order; a diff whose first line starts with '--- ' is unified, with '*** ' is context, with a digit-command header is normal; if no line matches the format is unknown and no models are returned.", "quantifier": "all line lists", "why_tests_cant": "A test samples a handful of inputs; this must hold for every input of every size.", "anchors": ["src/diffparser.cpp:determineFormat", "src/cvsdiffparser.cpp:determineFormat", "src/perforceparser.cpp:determineFormat"]}
{"id": "C26", "title": "Unified parser reads back every well-formed unified diff", "statement": "For every well-formed list of file diffs (headers, hunks with correct counts, context/removed/added runs, optional missing final newline), parsing its unified rendering yields exactly these files, hunks, line numbers, functions and differences, and reports malformed = false.", "quantifier": "all well-formed multi-file unified diffs of any size", "why_tests_cant": "A test samples a handful of inputs; this must hold for every input of every size.", "anchors": ["src/parserbase.cpp:parseUnified", "src/parserbase.cpp:parseUnifiedHunkBody", "src/parserbase.cpp:parseUnifiedDiffHeader", "src/parser.cpp:parse"]}
{"id": "C27", "title": "Unified parser output is structurally sound for arbitrary input", "statement": "For every input on which it returns models: every model has at least one difference; the model's differences are exactly the non-Unchanged differences of its hunks in order; within a hunk, each difference starts where the previous ended on both sides; context differences have equal sides; types agree with which sides are empty.", "quantifier": "all inputs, including malformed ones", "why_tests_cant": "A test samples a handful of inputs; this must hold for every input of every size.", "anchors": ["src/parserbase.cpp:parseUnifiedHunkBody", "src/parserbase.cpp:parseUnified"]}
{"id": "C28", "title": "The parser terminates on every input", "statement": "parse() returns after finitely many steps for every list of lines, in every format and for every generator.", "quantifier": "all inputs", "why_tests_cant": "Termination cannot be observed by finitely many runs.", "anchors": ["src/parserbase.cpp:parseUnified", "src/parserbase.cpp:parseContext", "src/parserbase.cpp:parseNormal"]}
{"id": "C29", "title": "Undefined behaviour of the unified parser is exactly characterised", "statement": "Unified parsing never dereferences an iterator out of range unless a '---' header is the very last line or an empty string is reached inside a hunk; a truncated '---' header does trigger it.", "quantifier": "all inputs", "why_tests_cant": "A test samples a handful of inputs; this must hold for every input of every size.", "anchors": ["src/parserbase.cpp:parseUnifiedDiffHeader", "src/parserbase.cpp:matchesUnifiedHunkLine"]}
{"id": "C30", "title": "Malformed flag of the parsers", "statement": "Unified and context format, and Perforce in any format: malformed is set iff, after the hunks of some file, the next line exists and is neither a file header nor starts with 'Index: ', 'diff ' or '-- '. A hunk truncated by the end of input is not flagged. Normal format except Perforce: malformed is set iff the text does not consist of commands only; so every normal diff with a file header is flagged.", "quantifier": "all inputs", "why_tests_cant": "A test samples a handful of inputs; this must hold for every input of every size.", "anchors": ["src/parserbase.cpp:checkHeader", "src/parserbase.cpp:parseUnified", "src/parserbase.cpp:parseContext", "src/parserbase.cpp:parseNormal"]}
{"id": "C31", "title": "Parsed models are sorted and none is lost", "statement": "The returned list is a permutation of the models found, ordered by (source directory, source file) in the locale order. The test given to std::sort is a strict weak ordering, so the sort is defined; whatever sorting algorithm is used, each position of the list holds a model of the same directory and file name, and when no two models compare equal the list is the only possible one.", "quantifier": "all inputs, all locale orders that are total preorders, all sorting algorithms", "why_tests_cant": "A test samples a handful of inputs; this must hold for every input of every size.", "anchors": ["src/diffmodellist.cpp:sort", "src/diffmodel.cpp:localeAwareCompareSource"]}
{"id": "C32", "title": "Normal-format parser", "statement": "For every well-formed single-file normal diff the parser returns exactly its commands with line numbers and texts (without newline) and malformed = false; a normal diff with 'diff' headers is always flagged malformed although all its files are returned (defect).", "quantifier": "all well-formed normal diffs", "why_tests_cant": "A test samples a handful of inputs; this must hold for every input of every size.", "anchors": ["src/parserbase.cpp:parseNormal", "src/parserbase.cpp:parseNormalHunkBody", "src/parserbase.cpp:parseNormalDiffHeader"]}
{"id": "C33", "title": "Context-format parser", "statement": "For every well-formed context diff (diff -c or cvs diff -c; any number of files, hunks, blocks; sections left out when one side only has unchanged lines; at least two lines per side of a hunk) parsing the text yields, up to the final sort, exactly the files with hunks: names, time stamps, hunks with line numbers and functions, differences with positions and texts; malformed = false. Defects: with CVS the revision is reported as the time stamp; a hunk with a single old line ('*** n ****') loses everything from there on silently; a 'No newline' remark in the old section loses the hunk and flags the diff malformed. (A truncated hunk is C29; contiguity for arbitrary input is C27.)", "quantifier": "all well-formed context diffs, all file contents, heaps and sort orders", "why_tests_cant": "A test samples a handful of inputs; this must hold for every input of every size.", "anchors": ["src/parserbase.cpp:parseContext", "src/parserbase.cpp:parseContextDiffHeader", "src/parserbase.cpp:parseContextHunkHeader", "src/parserbase.cpp:parseContextHunkBody"]}
{"id": "C34", "title": "Blending shows the whole file", "statement": "When the hunks of a model apply cleanly to a file, after blendFile the source lines of all hunks concatenate to the file and the destination lines to the patched file; line numbers of the added hunks are correct; no difference is added or changed, and the model is marked as blended.", "quantifier": "all files, all cleanly applying models", "why_tests_cant": "A test samples a handful of inputs; this must hold for every input of every size.", "anchors": ["src/modellist_p.cpp:blendFile"]}
{"id": "C35", "title": "Saving writes the selected mix of old and new text", "statement": "saveDestination writes for every applied difference its source lines and for every other difference its destination lines; hence with everything unapplied the saved file is the patched file and with everything applied it is the original file.", "quantifier": "all cleanly applying models, all subsets of applied differences", "why_tests_cant": "A test samples a handful of inputs; this must hold for every input of every size.", "anchors": ["src/modellist.cpp:saveDestination"]}
{"id": "C36", "title": "Unsaved flags are cleared only by a successful save", "statement": "After saveDestination: if the upload succeeded no difference is unsaved; if any step failed all flags are unchanged; nothing is written when there are no unsaved changes. The function returns true even if the upload failed (defect), and slotSaveDestination disables the save action even then. saveAll tries the models in list order and stops (returning false) exactly at the first model that has unsaved changes and fails before its upload; a failed upload is reported but does not stop it and the result stays true (defect). Exactly the differences of the models tried that did not fail are no longer unsaved; the flags of all others are unchanged.", "quantifier": "all models, all reachable states with any number of models, and all combinations of failure points (temp file, write, close, mkdir, copy) over the models", "why_tests_cant": "Failure points of the environment are not under test control.", "anchors": ["src/modellist.cpp:saveDestination", "src/modellist.cpp:slotSaveDestination"]}
{"id": "C37", "title": "Selection is always valid", "statement": "From a successfully opened diff, after any sequence of next/previous difference/file, apply/unapply actions, apply-all/unapply-all and valid selection changes, the selected model is the one at the current model index, the selected difference belongs to it and is its current difference, and no undefined behaviour occurs.", "quantifier": "all parsed diffs, all action histories", "why_tests_cant": "The claim is about every finite sequence of API calls; tests exercise a few fixed sequences.", "anchors": ["src/modellist.cpp", "src/modellist_p.cpp"]}
{"id": "C38", "title": "Next/previous traverse all differences in order", "statement": "With the differences of all files laid out in one sequence, slotNextDifference moves to the following element or stays on the last, slotPreviousDifference to the preceding or stays on the first; k-fold next from the first element reaches the k-th; next then previous returns to the same element except at the end.", "quantifier": "all model lists and positions", "why_tests_cant": "The claim is about every finite sequence of API calls; tests exercise a few fixed sequences.", "anchors": ["src/modellist.cpp:slotNextDifference", "src/modellist.cpp:slotPreviousDifference"]}
{"id": "C39", "title": "Action enablement", "statement": "After every navigation or apply action: next/previous difference are enabled iff there is a following/preceding difference in the whole list; next/previous file iff there is one; apply iff read-write and the selected difference is not applied, unapply iff it is; apply-all/unapply-all iff some difference of the file is not/is applied; save iff the selected file has unsaved changes.", "quantifier": "all states reachable by the actions", "why_tests_cant": "The claim is about every finite sequence of API calls; tests exercise a few fixed sequences.", "anchors": ["src/modellist_p.cpp:updateModelListActions"]}
{"id": "C40", "title": "Failed or pending open leaves stale selection", "statement": "After an open that yields no models, modelCount() is 0 while selectedModel(), differenceCount() and the navigation actions still refer to the previous diff, and triggering an action then can be undefined behaviour; with no earlier diff the selection is null and all navigation actions are disabled.", "quantifier": "all histories ending in a failed open", "why_tests_cant": "The claim is about every finite sequence of API calls; tests exercise a few fixed sequences.", "anchors": ["src/modellist.cpp:clear", "src/modellist.cpp:parseDiffOutput", "src/modellist.cpp:openDiff"]}
{"id": "C41", "title": "Comparison mode selection", "statement": "compare() chooses: both directories -> ComparingDirs; both files -> BlendingFile if exactly one is a patch (with the patch as destination, swapping if needed), else ComparingFiles; one directory -> BlendingDir with the directory as source. refresh() runs the same comparison again. (Not so for blending: then the patch is compared with the file.)", "quantifier": "all kinds of operands", "why_tests_cant": "Finite but spans file system oracle; the swap must be right in every combination.", "anchors": ["src/modellist.cpp:compare", "src/info.cpp"]}
{"id": "C42", "title": "Swapping source and destination", "statement": "Info::swapSourceWithDestination exchanges url, local path and temporary directory of both sides together, changes nothing else and is its own inverse.", "quantifier": "all Info values", "why_tests_cant": "A test samples a handful of inputs; this must hold for every input of every size.", "anchors": ["src/info.cpp:swapSourceWithDestination"]}
{"id": "C43", "title": "Path depth stripping", "statement": "lstripSeparators(path, n) for n = 1 removes everything up to and including the first '/', and returns empty when there is none. For n >= 2 it behaves like n = 1, and for n = 0 it drops the first character (defects): the intended 'remove n leading components' is refuted. After opening a patch for a file or directory, whatever its format, both names of every model are the names in the patch stripped by the depth of Info, and its differences are marked as Info.applied says; after a comparison the names are those of the diff output and nothing is marked.", "quantifier": "all paths and depths", "why_tests_cant": "A test samples a handful of inputs; this must hold for every input of every size.", "anchors": ["src/modellist_p.cpp:lstripSeparators", "src/modellist_p.cpp:setDepthAndApplied"]}
{"id": "C44", "title": "Settings survive save and load", "statement": "loadSettings after saveSettings on any configuration restores every setting, whatever the configuration held before; saving touches no other entry; loading from an empty configuration gives the documented defaults.", "quantifier": "all settings values and prior configurations", "why_tests_cant": "A test samples a handful of inputs; this must hold for every input of every size.", "anchors": ["src/diffsettings.cpp"]}
{"id": "C45", "title": "diff command line", "statement": "The command line starts with the configured program (or 'diff'), contains a switch iff the corresponding setting is on, never '-a', exactly one format switch for unified/context/rcs/ed/side-by-side, and the two operands come last after '--', with '-' for the operand supplied as a string.", "quantifier": "all settings and operands", "why_tests_cant": "A test samples a handful of inputs; this must hold for every input of every size.", "anchors": ["src/kompareprocess.cpp:writeCommandLine", "src/kompareprocess.cpp:KompareProcess"]}
{"id": "C46", "title": "Result of the diff process", "statement": "diffHasFinished(true) is emitted iff the process exited normally with non-zero code; then the output is parsed, Parsing is announced first and FinishedParsing last; exit code 0 gives 'identical' and a crash gives stderr.", "quantifier": "all exit codes and statuses", "why_tests_cant": "All combinations incl. crashes.", "anchors": ["src/kompareprocess.cpp:slotFinished", "src/modellist.cpp:slotDiffProcessFinished"]}
{"id": "C47", "title": "Counter drift after interactive edits", "statement": "linesChanged never changes appliedCount(), hunks or recreateDiff(); hence after an edit that inserts a difference appliedCount() no longer equals the number of applied differences, and the saved file does not contain the edit (defect).", "quantifier": "all models and edits", "why_tests_cant": "The claim is about every finite sequence of API calls; tests exercise a few fixed sequences.", "anchors": ["src/diffmodel.cpp:linesChanged"]}
{"id": "C48", "title": "From diff text to saved file", "statement": "For every source text S and target text T related by a well-formed unified diff, parsing the diff text, blending S into the model and saving gives T with no difference applied and S with all applied.", "quantifier": "all S, T and all well-formed diffs between them", "why_tests_cant": "A test samples a handful of inputs; this must hold for every input of every size.", "anchors": ["src/modellist.cpp", "src/parserbase.cpp", "src/modellist_p.cpp:blendFile"]}
{"id": "C49", "title": "Markers inside changed lines", "statement": "For every Change difference with as many old as new lines (all shorter than 65535 characters) produced by parsing a unified or context diff, by an interactive edit, or passed to determineInlineDifferences, the markers of each old line and its new counterpart are: none if the lines are equal or too long to compare (table above 2^24 entries); markers whose unmarked characters form the same sequence on both sides and which mark at most edit-distance many characters per side, if the distance is at most half the longer padded length; both lines in full otherwise. All other differences carry no markers, and nothing but the markers is changed. Differences of normal diffs are never marked (defect). Marking a difference a second time does not replace its markers but puts all of them into the lists once more.", "quantifier": "all inputs of the parser, all models and edits, all differences", "why_tests_cant": "A test samples a handful of inputs; this must hold for every input of every size.", "anchors": ["src/difference.cpp:determineInlineDifferences", "src/parserbase.cpp:parseUnifiedHunkBody", "src/parserbase.cpp:parseContextHunkBody", "src/diffmodel_p.cpp:computeDiffStats"]}
{"id": "C50", "title": "Perforce diffs", "statement": "For every well-formed Perforce diff (a line `==== OLD#REV - NEW#REV ====` per file, followed by hunks in the unified, context or normal format), in any of the three formats, the parser returns, for every file with a change and for no other, a model with both names without revisions and exactly the hunks and differences of the file, and does not report the diff as malformed. Exceptions (defects), decided for each file on its own: a new file named without `#` (p4 diff) loses its name; an old name containing ` - ` loses both names; the header lines of p4 diff2 are never recognised, so that nothing is found and nothing is reported.", "quantifier": "all well-formed Perforce diffs of any number of files and hunks, in all three formats", "why_tests_cant": "A test samples a handful of diffs; this must hold for every number of files, hunks and lines and for every file name.", "anchors": ["src/perforceparser.cpp:parseUnifiedDiffHeader", "src/perforceparser.cpp:parseContextDiffHeader", "src/perforceparser.cpp:parseNormalDiffHeader", "src/parser.cpp:determineGenerator"]}
{"id": "C51", "title": "Signals tell the truth about the selection", "statement": "A view that only listens to setSelection and setStatusBarModelInfo knows, after opening a diff and after every history of navigation, selection, apply and save operations with arguments that belong together, which file and difference are selected, and the status bar shows the same file number, difference number, number of files and number of differences as the getters. The number of applied differences is right after opening a diff or a comparison and after every operation that sets the selection (including the apply and unapply actions). Defects: after opening a file together with a diff whose differences count as applied (the default) the bar says that none is applied; 'apply all' does not update it; a view that passes a difference of another file is told its own choice although another difference gets selected.", "quantifier": "all histories of operations on an open diff", "why_tests_cant": "A test follows a handful of call sequences; this must hold after every history of operations.", "anchors": ["src/modellist.cpp:slotSelectionChanged", "src/modellist.cpp:slotNextDifference", "src/modellist.cpp:slotPreviousDifference", "src/modellist.cpp:slotNextModel", "src/modellist.cpp:slotPreviousModel", "src/modellist.cpp:parseDiffOutput", "src/modellist.cpp:show"]}
{"id": "C52", "title": "The running diff process", "statement": "After every call in every state it is determined which diff process is running: compare() of two files or two directories, refresh(), and swap() in a comparing mode start a comparison of the operands; a successful saveDiff() starts a process for saving; each of these forgets the process that was running (assuming that a process replaced while running is silent; without that assumption see C85). The end of a process leaves none, every other call leaves the running process as it is. In every history in which the last saveDiff() could open its temporary file, the end of its process writes its output exactly to the target of that call, if it reported differences, and changes neither models nor selection. Defects: a failing saveDiff() while another is running makes the end of the first undefined behaviour; saving fails silently; opening a diff does not stop a running comparison, whose result then replaces all opened models.", "quantifier": "all histories of ModelList calls and process events, all process results", "why_tests_cant": "A test follows a handful of call sequences; this must hold after every history of calls and process events.", "anchors": ["src/modellist.cpp:saveDiff", "src/modellist.cpp:slotWriteDiffOutput", "src/modellist.cpp:compare", "src/modellist.cpp:refresh", "src/modellist.cpp:swap", "src/modellist.cpp:slotDiffProcessFinished"]}
{"id": "C53", "title": "File names given to the diff process", "statement": "For every working directory ending in `/` (or none) and every absolute file path without empty components, the name under which the file is given to the diff process stands, in that working directory, for that same file; hence saveDiff with such a directory compares the two files of the comparison. Defects: with a directory without the final `/`, every file below it is given by a name which stands for a different file at the root; a relative path of a file outside the directory is passed unchanged and stands for another file.", "quantifier": "all working directories and file paths", "why_tests_cant": "A test samples a handful of paths; this must hold for every path and directory.", "anchors": ["src/kompareprocess.cpp:constructRelativePath", "src/kompareprocess.cpp:KompareProcess", "src/modellist.cpp:saveDiff"]}
{"id": "C54", "title": "Lifetime of models and differences", "statement": "In every history no model and no difference is destroyed twice, and no model of the current list (nor one of its differences) is destroyed. The only call that destroys models is the one that reads the output of a comparison whose diff program exited normally with a code other than 0; it destroys exactly the models in the list at that moment, with their differences. If no diff is opened while a comparison is running, nothing is ever destroyed, so every pointer a view was given stays valid. Defects: models shown before another diff was opened or a comparison was started are never destroyed (leak); a model that was assigned another model keeps its own differences but takes over the other one's selection, so applying its selected difference changes the other model; destroying a copy of the list of models destroys the models that the list still holds, and asking for the number of differences or stepping to another difference is then undefined.", "quantifier": "all histories of ModelList calls and process completions, all environments and diff texts, all states with an opened diff", "why_tests_cant": "Double destruction and dangling pointers depend on the order of calls and process completions; a test covers single orders, the claim is about all of them.", "anchors": ["src/modellist_p.cpp: ModelListPrivate::parseDiffOutput", "src/modellist.cpp: ModelList::clear, ModelList::slotDiffProcessFinished", "src/diffmodellist.cpp: DiffModelList::~DiffModelList", "src/diffmodel.cpp: DiffModel::operator=, DiffModel::~DiffModel"]}
{"id": "C55", "title": "Encodings", "statement": "Whatever encodings were chosen and files were read before, the contents of a file are its bytes decoded from beginning to end with the encoding chosen last (that of the system for `default`, an unknown name, or if none was chosen); the chunks in which it is read do not matter, and neither does a file read earlier that ended within a character. The output and the error text of the diff program are decoded the same way. With UTF-8, what is written is read back as the same text, a text to be compared reaches the diff program as its bytes, and comparing files (without byte order mark) and saving with everything marked as applied writes the very bytes of the original. Defects: the chosen encoding is not used for writing, so a Latin-1 file that is saved keeps its bytes only if it is pure ASCII; a UTF-8 byte order mark is lost when the file is saved.", "quantifier": "all histories of setEncoding and reads, all file contents (bytes), all codecs; all comparisons and user histories for the end-to-end part", "why_tests_cant": "The claim is about all byte sequences (characters split at any chunk boundary), all earlier files and all texts.", "anchors": ["src/modellist.cpp: ModelList::setEncoding, ModelList::saveDestination, ModelList::slotWriteDiffOutput", "src/modellist_p.cpp: ModelListPrivate::readFile", "src/kompareprocess.cpp: KompareProcess::setEncoding, KompareProcess::start, KompareProcess::slotFinished"]}
{"id": "C56", "title": "Saving while a process finishes", "statement": "saveDestination and saveAll run an event loop inside (for mkdir/stat and for the copy), during which any number of diff processes may finish. If the model being saved is still alive at the end of those events, the save does exactly what it would do if all those events had come first and the save had run afterwards without interruption: what is uploaded is the text the model had when the save began, to the destination of that moment, exactly the differences of this model lose their unsaved state, the models and differences built meanwhile are untouched, and the result is the same. If the user starts at most one comparison at a time the model is always still alive, for saveDestination, the save slot and saveAll alike. Otherwise not: if a comparison is still running when a model of the list with unsaved changes is saved, and it ends with differences while the directory is examined or while the file is copied, the model is deleted under the running save: undefined behaviour (defect).", "quantifier": "every reachable state, every model ever created, every sequence of finished processes delivered at every nested event loop, every result of the file operations", "why_tests_cant": "The interleaving of the nested event loops with process ends depends on timing; tests with local copies never see a process finish inside exec().", "anchors": ["src/modellist.cpp:ModelList::saveDestination", "src/modellist.cpp:ModelList::saveAll", "src/modellist.cpp:ModelListPrivate::slotSaveDestination", "src/modellist.cpp:ModelListPrivate::slotDiffProcessFinished", "src/modellist.cpp:ModelListPrivate::slotWriteDiffOutput"]}
{"id": "C57", "title": "What is saved for any diff and any file", "statement": "Whatever text the diff program or a patch file contains, in whatever format, and whatever the original file contains (the diff need not belong to it): if the text is parsed into models at all, then, whatever the user does afterwards, saving a model writes the original with the hunks that were read laid over it: the lines of the original up to the line number a hunk names, then the lines of the hunk (of each difference the old ones if it is marked as applied, else the new ones) in place of as many lines of the original as the hunk has old lines, whatever those say, and after the last hunk the rest. Where the diff applies exactly this is the patched file (C48). In the context and normal formats it never is (defects): the lines are read without their line ends, so saving after comparing in these formats glues together all lines the diff shows, losing exactly one character per line, with the changes kept and with all changes undone; and lines inserted behind a line are, in the normal format, saved before that line.", "quantifier": "every diff text that is parsed into models (any format and generator), every original, file or directory, comparing or opening a patch, every reachable state before, every sequence of user operations after", "why_tests_cant": "A test applies matching unified diffs; here the diff is arbitrary, the original is arbitrary and unrelated, and the sequence of marks is unbounded.", "anchors": ["src/modellist_p.cpp:ModelListPrivate::blendFile", "src/modellist.cpp:ModelList::blendOriginalIntoModelList", "src/modellist.cpp:ModelList::saveDestination", "src/modellist.cpp:ModelListPrivate::slotDiffProcessFinished", "src/parserbase.cpp:ParserBase::parseContextHunkBody", "src/parserbase.cpp:ParserBase::parseNormalHunkBody"]}
{"id": "C58", "title": "Editing the models of an open diff", "statement": "After a diff was opened, a client may call linesChanged on the models the list hands out, any number of times, with any lines, between any operations of the user. As long as no edit leaves a model without differences, there is always a selection of an existing difference and every operation of the user is defined; an edit moves no selection; selecting another difference makes the model's index right again. Edits are not integrated with the rest (defects): whatever is uploaded consists of old or new lines of the diff as it was opened, never of an edit, and a save after an edit uploads the text of before the edit and marks it as saved; the index of the selected difference is not adjusted, so that 'next difference' stays where it is after a line was inserted before it, or skips; selecting the selected difference again does not repair this; after an edit that empties a model (for instance a line of its only difference, not applied, replaced by an equal one) the navigation into it is undefined.", "quantifier": "every way to open a diff in every reachable state, every sequence of user operations and edits after it, all edited lines and line numbers, all line hashes", "why_tests_cant": "The claim ranges over unbounded interleavings of edits and user operations; tests edit a single model that is in no list.", "anchors": ["src/diffmodel.cpp:DiffModel::linesChanged", "src/diffmodel.cpp:DiffModel::setSelectedDifference", "src/modellist.h:ModelList::modelAt", "src/modellist.cpp:ModelList::slotNextDifference", "src/modellist.cpp:ModelList::saveDestination"]}
{"id": "C59", "title": "Ownership of markers, lines, differences, hunks and models", "statement": "A client that gives every Marker, DifferenceString, Difference and DiffHunk object to at most one owner, once, does not destroy what it gave away, does not copy a string that has markers and does not destroy a difference before the hunk that shows it, never follows a dangling pointer and never destroys an object twice: every call is defined and everything the accessors return can be read. Destroying an object destroys exactly it and what it owns (the markers of a string; the lines of a difference and their markers; the hunks and listed differences of a model with their lines and markers), and every other call destroys nothing. Each call does to the object it is made on what its documentation says of values, and changes nothing seen of any other string or difference. The rules are needed: destroying a string with markers and its copy is undefined, in either order, and until then a change of a marker of one is seen in the other; adding a difference to a model twice, or destroying a line of a difference, makes the destruction undefined. Leaks (defects): a difference that only a hunk shows (as the unchanged ones the parser makes) is not destroyed with the model and the hunk, and nothing points to it any more; a marker replaced by setMarkerList is never destroyed by any later call that does not name it.", "quantifier": "every sequence of calls that follows the rules, in any order, on any number of objects; all texts, offsets and line numbers", "why_tests_cant": "Tests destroy a few objects in one order; use-after-free, double deletion and leaks depend on every possible history of sharing and destruction.", "anchors": ["src/differencestring.cpp:DifferenceString", "src/differencestring_p.h:DifferenceStringPrivate", "src/difference.cpp:Difference", "src/difference_p.h:DifferencePrivate", "src/diffhunk.cpp:DiffHunk", "src/diffmodel.cpp:DiffModel::addHunk", "src/diffmodel.cpp:DiffModel::addDiff", "src/diffmodel_p.h:DiffModelPrivate", "src/marker.h:Marker", "src/levenshteintable.h:createListsOfMarkers"]}
{"id": "C60", "title": "The diff text recreated during a session", "statement": "After a diff was opened (from text, from a file, as a patch, or as the output of the diff program), ModelList::recreateDiff is defined at every time of the session and always gives the same text, whatever the user applies, unapplies, saves and selects and however the client edits the models: the text of the models as they were parsed, never the lines blended in from the original files. For a well-formed unified diff of complete lines that text can be parsed again without an error and gives the same models; for a diff of one file in the library's own form it is the opened diff, character by character. Defects: after opening a patch for a file or directory it is never the opened patch, since the file names are the stripped ones; after opening a diff in the normal or context format it has only two lines for each file and one for each hunk, because the lines of the files are written without newlines.", "quantifier": "every reachable state, every opened diff, every sequence of user operations and edits afterwards", "why_tests_cant": "A test fixes one diff and one short sequence of operations; that no operation changes the recreated text, and that it means the same as the opened diff, is about all diffs and all histories.", "anchors": ["src/modellist.cpp:ModelList::recreateDiff", "src/diffmodel.cpp:DiffModel::recreateDiff", "src/diffhunk.cpp:DiffHunk::recreateHunk", "src/difference.cpp:Difference::recreateDifference", "src/modellist_p.cpp:ModelListPrivate::blendFile", "src/modellist_p.cpp:ModelListPrivate::setDepthAndApplied"]}
{"id": "C61", "title": "Line numbers stay within int", "statement": "Line numbers and line counts are 32-bit ints. For every text the parser, computing with ints, does what it would do with unbounded numbers or its behaviour is undefined; it never goes on with a wrapped number. Nothing overflows if no line number in a hunk header exceeds INT_MAX less the number of lines of the diff; for a well-formed unified (of at most 2^31 lines) or context diff nothing overflows exactly if every hunk ends within int in both files, and the normal format computes no line numbers at all. When parsing did not overflow, every hunk of every model ends within int. Afterwards applying and unapplying never moves a tracking line number out of int, provided the end of every hunk plus the lines the diff adds stays within int. Defects: one header with a large line number makes the parser undefined (C61_unified_ub, C61_context_ub); in the normal format such a number is stored, and sourceLineEnd() of that difference is negative (C61_normal_end_defect). For a diff whose hunks are not in the order of the file the same holds as long as the differences are applied and unapplied one at a time; mixed with calls that apply all of them the tracking line numbers drift without bound (C61_drift_defect).", "quantifier": "every text and every numbers in its hunk headers; every sequence of calls on the differences of a parsed model", "why_tests_cant": "Overflow depends on the numbers and on the number of lines together; tests use small numbers, and overflow is undefined behaviour which a test may not notice.", "anchors": ["src/parserbase.cpp:ParserBase::parseUnifiedHunkBody", "src/parserbase.cpp:ParserBase::parseContextHunkBody", "src/parserbase.cpp:ParserBase::parseNormalHunkHeader", "src/difference.cpp:Difference::sourceLineEnd", "src/diffmodel.cpp:DiffModel::slotDifferenceApplied"]}
{"id": "C62", "title": "Blending reads only lines of the original file", "statement": "When a diff is blended into the original file, the library walks over the lines of the file and over the lines each hunk shows. For every model and every file this walk does what the description of blending (C34) says or its behaviour is undefined. If the hunks are in the order of the file, it is defined exactly if no hunk reaches beyond the end of the file; in particular it is defined for every diff that applies to the file (line counts within int). Defect: the position in the list of lines is moved by the size of the hunk before it is compared with the end, so a file shorter than the diff says - a patch for another version - makes the behaviour undefined (C62_beyond_ub, C62_unified).", "quantifier": "every model, every file contents, every well-formed unified diff", "why_tests_cant": "The walk depends on the lengths of hunks and file together, for any number of hunks; moving an iterator too far goes unnoticed in a test because it is clamped afterwards.", "anchors": ["src/modellist_p.cpp:ModelListPrivate::blendFile", "src/diffhunk.cpp:DiffHunk::sourceLineCount", "src/diffhunk.cpp:DiffHunk::destinationLineCount"]}
{"id": "C63", "title": "The disk while saving and after a crash", "statement": "Saving a file writes a temporary file, copies it to the destination and removes it. If the program is interrupted at any point - between any two changes of the disk, in the middle of writing the temporary file or of copying it - no other file has changed and no text is lost: the destination still has its old contents, or has the complete new text, or the complete new text is in the temporary file. When the save has ended, the disk is as the messages say. Saving all models, interrupted anywhere: the models before some model are saved or their texts are in temporary files, the files of all later models are untouched, provided the models are saved to different files. Defects: otherwise (any mode but comparing directories) saving all models leaves only the text of the last one (C63_same_target_defect); writing the output of the diff program to a file loses it without a message if the copy fails, and writes a truncated one if the temporary file could not be written completely (C63_diff_lost_defect, C63_diff_truncated_defect).", "quantifier": "every model list, every disk, every outcome of every step, every interruption point", "why_tests_cant": "A crash can happen between any two steps; tests cannot stop the program at each of them for every combination of failures.", "anchors": ["src/modellist.cpp:ModelList::saveDestination", "src/modellist.cpp:ModelList::saveAll", "src/modellist.cpp:ModelList::slotWriteDiffOutput"]}
{"id": "C64", "title": "Directories, file names and save targets", "statement": "Every model tells the directory and the file name of its two files. After the diff program was run, or a diff opened as it is, they are the names in the diff cut after the last slash, whatever the user has selected, applied, saved or edited since. When two directories were compared, a model is saved to the place of the destination directory that corresponds to its name: the local path of the destination directory is cut off and its URL put in front. Hence saving all models, when nothing fails, writes the text of every changed file to its own place in the destination directory and changes no other file. Defect: when a patch is opened for a file or directory, leading directories are stripped from the names; a model whose stripped name has no slash left still tells the directory in the patch (C64_stripped_defect).", "quantifier": "every diff, every history of selecting, applying, saving and editing, every set of compared files, every disk", "why_tests_cant": "It must hold for every file name and every history, and for all files of a directory at once; a wrong place is noticed only when another file is overwritten.", "anchors": ["src/diffmodel_p.cpp:DiffModelPrivate::splitSourceInPathAndFileName", "src/diffmodel_p.cpp:DiffModelPrivate::splitDestinationInPathAndFileName", "src/diffmodel.cpp:DiffModel::setSourceFile", "src/diffmodel.cpp:DiffModel::setDestinationFile", "src/modellist.cpp:ModelList::saveDestination", "src/modellist.cpp:ModelList::saveAll", "src/modellist_p.cpp:ModelListPrivate::setDepthAndApplied"]}
{"id": "C65", "title": "Characters outside the basic plane", "statement": "The library holds texts as UTF-16 code units; a character outside the basic plane is two of them. The units tell the text, and for texts in the basic plane they are its characters. A well-formed unified, context or normal diff with any characters in names, functions, time stamps and lines is read as it is written: the models show the code units of exactly the names and lines in the diff. Defect: inline markers are computed for code units: when one such character is replaced by another with the same first or the same second unit (such as most pairs of emoji), the marked part of each line is half a character, which is not a text (C65_torn_defect, C65_torn_difference_defect).", "quantifier": "every well-formed diff with any Unicode text; every pair of lines and characters", "why_tests_cant": "There are a million characters outside the basic plane in any position of names and lines; tests use ASCII.", "anchors": ["src/parserbase.cpp:ParserBase::parse", "src/difference.cpp:Difference::determineInlineDifferences", "src/differencestringpair.h:DifferenceStringPair::equal", "src/levenshteintable.h:LevenshteinTable::createListsOfMarkers"]}
{"id": "C66", "title": "Opening starts afresh", "statement": "A list that was used in any way behaves, once a diff was opened in it, exactly like a new list with the same settings and operands in which only that diff was opened. The opening calls (openDiff, parseAndOpenDiff, openFileAndDiff, openDirAndDiff, compare, refresh and the end of the diff process) return the same value in both; with success both hold the same models, hunks, differences and selection, enable the same actions and have emitted the same signals, up to the addresses of the objects; every later call, with the corresponding objects as arguments, ends in the same way in both and keeps them alike; they give the same answers, recreate the same diff and write the same files. So the history of a list before an opening that succeeds does not show. After an opening that fails it does: the used list keeps the selection of its former contents (C66_failed_counterexample).", "quantifier": "every history of the list, every diff text and environment, every later sequence of calls", "why_tests_cant": "It compares all histories of a list with a new one over all later sequences of calls; a test can only try some pairs.", "anchors": ["src/modellist.cpp:ModelList::clear", "src/modellist.cpp:ModelList::parseDiffOutput", "src/modellist.cpp:ModelList::openDiff", "src/modellist.cpp:ModelList::compare", "src/modellist.cpp:ModelList::refresh", "src/modellist.cpp:ModelList::slotDiffProcessFinished"]}
{"id": "C67", "title": "Edits stay within int", "statement": "linesChanged computes with 32-bit ints and narrows 64-bit list sizes. Reported edits have exactly the effect they have with unbounded numbers \u2013 nothing overflows, nothing is cut off \u2013 as long as the source text and the text before and after the edit end at a line number within int; so after every history of such edits the differences describe how the source becomes the current text. Otherwise the code notices nothing: an insertion before a difference whose tracked line number no longer fits returns normally and leaves the difference at a negative line (C67_wrap_defect).", "quantifier": "every consistent model, every edit and history of edits, every first line number", "why_tests_cant": "Whether any of the two dozen int operations leaves the range depends on all line numbers together; signed overflow and narrowing go unnoticed in a test run.", "anchors": ["src/diffmodel.cpp:DiffModel::linesChanged", "src/diffmodel_p.cpp:DiffModelPrivate::processStartMarker", "src/diffmodel_p.cpp:DiffModelPrivate::computeDiffStats", "src/difference.cpp:Difference::trackingDestinationLineEnd", "src/difference.cpp:Difference::sourceLineEnd"]}
{"id": "C68", "title": "Selections with null pointers", "statement": "In an open diff, selecting the null difference selects the first difference of the selected file, and selecting a file without a difference selects the first difference of that file, if some difference of the file was selected before. Otherwise: a null model is undefined behaviour in every state (C68_null_model_ub); the signal after a null difference says that nothing is selected although the first difference is (in C68_null_difference); a file none of whose differences was selected yet (after opening: every file but the first, C68_opened) becomes selected without a difference \u2013 status bar -1, all actions disabled, applying undefined (C68_unvisited_defect) \u2013 and going to the next difference then skips its first one (C68_skips_first_defect).", "quantifier": "every open diff and everything done with it since, every file of it", "why_tests_cant": "Which branch is taken depends on the selection history of every file; the undefined behaviour needs a particular sequence of slots.", "anchors": ["src/modellist.cpp:ModelList::slotSelectionChanged", "src/diffmodel.cpp:DiffModel::setSelectedDifference", "src/modellist_p.cpp:ModelListPrivate::updateModelListActions", "src/modellist.cpp:ModelList::slotApplyDifference"]}
{"id": "C69", "title": "Receivers that call back", "statement": "In an open diff, receivers of the ModelList's signals may call its slots (navigation, selection, applying, saving, read-write) while a signal is delivered, any number of them, nested to any depth, depending on everything signalled so far: the operations never end in undefined behaviour, and if they end, the selection is valid, the navigation actions are right, the files and differences are the same (C69_safe), after an operation that updates the actions all of them are right (C69_actions), and a listener that is told before those receivers still knows the selection and its status bar is right, provided they pass files with their own differences (C69_announced). They end whenever the receivers stop calling after some number of signals (C69_ends), and never if every signal is answered by going to the next file (C69_endless). While a diff is opened the same holds for receivers that wait until there is something to select (C69_opening, C69_opening_fails, C69_opening_file; without a file name nothing happens, C69_opening_nofile); one that asks for the next file when the emptied list is signalled causes undefined behaviour (C69_opening_defect). Whatever the receivers do while an error is signalled, saving a file returns what it returns without them, and false only after an error was signalled (C69_result); with silent receivers saveDestination and saveAll return what they return without receivers (C69_silent_results).", "quantifier": "every open diff and everything done with it since, every family of receivers (functions from the signals so far to lists of slots called), every nesting depth, every list of operations; for opening: every reachable state and every text", "why_tests_cant": "The receivers and the interleaving of nested signals range over an infinite set; no finite number of test receivers covers every point at which a signal is delivered in the middle of a slot.", "anchors": ["src/modellist.cpp:ModelList::slotNextDifference", "src/modellist.cpp:ModelList::slotSelectionChanged", "src/modellist.cpp:ModelList::slotActionApplyDifference", "src/modellist.cpp:ModelList::saveDestination", "src/modellist.cpp:ModelList::parseDiffOutput", "src/modellist.cpp:ModelList::show", "src/modellist.cpp:ModelList::clear"]}
{"id": "C70", "title": "What is shown of an arbitrary unified diff stands in it", "statement": "For any text at all in which the unified format is recognized, if parsing is defined, the files, hunks and differences returned are exactly those that the text shows: between them any rubbish may stand; a file begins at a header line and has the names and time stamps written there; its hunks have the positions, function names and lines written there, cut into differences that are as long as possible; a hunk with more lines announced than present has those present; a hunk with a count that is no int is skipped; a header whose second line is missing ends everything; files without changes are left out (C70_unified_shown, C70_unified_parse). The reading is unique, so this determines the result (C70_unified_once, C70_unified_exact). Nothing is invented or shown twice: the files returned stand in the text one after the other without overlap (C70_unified_stands), and every line of a difference is a line of the text with its mark (C70_unified_lines).", "quantifier": "every list of lines whose format is recognized as unified, every generator, every platform convention for names, every collation, every heap", "why_tests_cant": "The texts are arbitrary, including malformed ones; the claim is that nothing is lost, invented, moved or read twice for any of them.", "anchors": ["src/parserbase.cpp:ParserBase::parseUnified", "src/parserbase.cpp:ParserBase::parseUnifiedDiffHeader", "src/parserbase.cpp:ParserBase::parseUnifiedHunkHeader", "src/parserbase.cpp:ParserBase::parseUnifiedHunkBody", "src/perforceparser.cpp:PerforceParser::parseUnifiedDiffHeader", "src/parser.cpp:Parser::parse"]}
{"id": "C71", "title": "What is shown of an arbitrary context diff stands in it", "statement": "For any text at all in which the context format is recognized, if parsing is defined, the files, hunks and differences returned are exactly those that the text shows: between them any rubbish may stand; a file begins at a header and has the names and time stamps written there; a hunk is a line of stars, two ranges and two sections, with the positions and function name written there; a hunk whose second range is missing is dropped; a line of stars without a range ends the file; the two sections are paired into differences that are as long as possible (C71_context_shown, C71_context_parse). The reading is unique, so this determines the result (C71_context_once, C71_context_exact). Nothing is invented or shown twice (C71_context_stands). Nothing is lost in a hunk without added lines in its old section and without removed lines in its new section (C71_context_complete); a hunk that has such lines is cut off there (C71_context_lost).", "quantifier": "every list of lines whose format is recognized as context, every generator, every platform convention for names, every collation, every heap", "why_tests_cant": "The texts are arbitrary, including malformed ones and sections that contradict each other; the claim is that nothing is lost, invented, moved or read twice for any of them.", "anchors": ["src/parserbase.cpp:ParserBase::parseContext", "src/parserbase.cpp:ParserBase::parseContextDiffHeader", "src/parserbase.cpp:ParserBase::parseContextHunkHeader", "src/parserbase.cpp:ParserBase::parseContextHunkBody", "src/cvsdiffparser.cpp:CVSDiffParser::CVSDiffParser", "src/perforceparser.cpp:PerforceParser::parseContextDiffHeader", "src/parser.cpp:Parser::parse"]}
{"id": "C72", "title": "What is shown of an arbitrary normal diff stands in it", "statement": "For any text at all in which the normal format is recognized, parsing ends without undefined behaviour (C72_normal_defined), and the files, hunks and differences returned are exactly those that the text shows: between the files any rubbish may stand; a file begins at its header line (for CVS an Index line before the diff line) and has the names written there; a hunk is a command (3a4, 5,6d4, 7,8c9,10) and the lines marked < and > that follow it, with the positions written in the command; commands at the very top of the text, without a header, form a file without names (except for Perforce); a change whose divider is missing has no new lines (C72_normal_shown, C72_normal_parse). The reading is unique, so this determines the result (C72_normal_once, C72_normal_exact). Nothing is invented or shown twice (C72_normal_stands), and every line of a difference stands in the text with its mark (C72_normal_lines).", "quantifier": "every list of lines whose format is recognized as normal, every generator, every platform convention for names, every collation, every heap", "why_tests_cant": "The texts are arbitrary, including malformed ones, truncated commands and rubbish between the files; the claim is that nothing is invented, moved or read twice for any of them.", "anchors": ["src/parserbase.cpp:ParserBase::parseNormal", "src/parserbase.cpp:ParserBase::parseNormalDiffHeader", "src/parserbase.cpp:ParserBase::parseNormalHunkHeader", "src/parserbase.cpp:ParserBase::parseNormalHunkBody", "src/cvsdiffparser.cpp:CVSDiffParser::parseNormalDiffHeader", "src/perforceparser.cpp:PerforceParser::parseNormalDiffHeader", "src/parser.cpp:Parser::parse"]}
{"id": "C73", "title": "From any text to the list and the saved file", "statement": "What a text shows is defined without reference to the code: its lines, without the remarks about missing line ends, in the format shown by the first line that shows one, read as in C70, C71 and C72 (TextShows); there is at most one reading (C73_once). Whatever the text is, from any state of the list, if the call is defined: opening it as a diff succeeds exactly if it shows anything; then the models in the list, as a client reads them, are exactly those shown, sorted by name, and the first difference of the first model is selected (C73_open, C73_openDiff, C73_open_sorted). When it is the output of a comparison, or a patch opened for a file or directory, there is a model for every file shown, marked as not applied, or as the operands say, and whatever the user does, saving it writes the original with the hunks shown laid over it (C73_compare, C73_patch). A patch that shows nothing is rejected (C73_patch_nothing).", "quantifier": "every text, every format and generator, every environment, every reachable state of the list, every sequence of user operations before saving", "why_tests_cant": "Texts, originals, histories and later operations are arbitrary; the claim connects the characters of the input with the characters of the output for all of them.", "anchors": ["src/parser.cpp:Parser::parse", "src/parserbase.cpp:ParserBase::parse", "src/modellist.cpp:ModelList::parseAndOpenDiff", "src/modellist.cpp:ModelList::openDiff", "src/modellist_p.cpp:ModelListPrivate::parseDiffOutput", "src/modellist.cpp:ModelList::openFileAndDiff", "src/modellist.cpp:ModelList::openDirAndDiff", "src/modellist.cpp:ModelList::slotDiffProcessFinished", "src/modellist.cpp:ModelList::saveDestination"]}
{"id": "C74", "title": "Any diff that was opened, written out and read again", "statement": "For any text at all, not only well-formed diffs: if every file that the text shows has names and time stamps and all its lines end with a newline, the diff recreated from the models can be read without an error and shows the same files, hunks, functions and lines, only that in a hunk without lines in one of the files the line numbers of that file move by one (C74_writable, C74_reread); with lines on both sides it shows exactly the same (C74_same), at every time of a session (C74_session). Writing is stable: reading the written text and writing it again gives the same text character by character (C74_stable). Defect: if the files have no source time stamps, as in every diff of git, the recreated text can not be read at all, and no error is reported (C74_git_defect, C74_git_session_defect).", "quantifier": "every text, every platform convention for names, every collation, every heap, every reachable state, every sequence of user operations and edits after opening", "why_tests_cant": "The texts are arbitrary, including malformed ones with rubbish between the hunks and counts that do not fit; a test can only try some.", "anchors": ["src/diffmodel.cpp: DiffModel::recreateDiff", "src/diffhunk.cpp: DiffHunk::recreateHunk", "src/modellist.cpp: ModelList::recreateDiff", "src/parserbase.cpp: ParserBase::parseUnified", "src/difference.cpp: Difference::recreateDifference"]}
{"id": "C75", "title": "Diff texts with Windows line ends", "statement": "A diff text whose line ends were all converted from LF to CR LF (by a mail program or by version control) is recognised as the same format of the same program as before (C75_format). A well-formed unified diff is then read without complaint, and shows the same files, hunks and differences, with a carriage return at the end of every line, every function text, and the last field of every file header (C75_unified): so names without time stamp, and last lines without newline, get a carriage return that is not there in the files. Defects: of a context diff, and of any Perforce diff, nothing at all is shown after the conversion and it can not be opened (C75_context_defect, C75_perforce_defect, C75_open_defect); in a normal diff all change commands lose their new lines (C75_normal_defect).", "quantifier": "every well-formed unified diff; every text at all for the recognition and for the other formats; every platform convention for names, every collation, every heap, every reachable state", "why_tests_cant": "The texts are arbitrary: that nothing is shown has to hold for every context or Perforce diff, and that everything is shown for every unified one.", "anchors": ["src/parserbase.cpp: ParserBase::ParserBase", "src/parserbase.cpp: ParserBase::parseContextHunkBody", "src/parserbase.cpp: ParserBase::parseNormalHunkBody", "src/parserbase.cpp: ParserBase::parseUnified", "src/perforceparser.cpp: PerforceParser::PerforceParser", "src/parser.cpp: Parser::cleanUpCrap", "src/modellist.cpp: ModelList::parseAndOpenDiff"]}
{"id": "C76", "title": "The files on the disk during a comparison", "statement": "Two files are compared and the diff program's output says how to get from the source to the destination. From then on, whatever the user does (navigating, marking and unmarking, saving with any kind of failure, in any order), the destination file always has the source text with exactly those changes made that were not marked when it was last saved; if nothing is unsaved, exactly the changes that are not marked now, so all marked gives the source and none marked gives the destination as it was in the beginning. No other file is ever written (C76_files). After 'apply all' and a save without failure the files are the same, so comparing them again with an honest diff program tells the user that they are identical; after 'unapply all' and a save the destination is what it was before the comparison (C76_again). When two directories are compared the same holds for every changed file at its place in the destination directory, and nothing else is written (C76_dirs).", "quantifier": "every well-formed unified diff output that applies to the source, every sequence of user actions of any length with any pattern of save failures, every reachable state before, every environment", "why_tests_cant": "The invariant between marks, unsaved flags and the text on the disk has to survive every interleaving of marking, navigation, successful and failed saves; tests try a few.", "anchors": ["src/modellist.cpp: ModelList::saveDestination", "src/modellist.cpp: ModelList::saveAll", "src/modellist.cpp: ModelList::slotDiffProcessFinished", "src/modellist.cpp: ModelList::blendOriginalIntoModelList", "src/diffmodel.cpp: DiffModel::applyDifference", "src/diffmodel.cpp: DiffModel::applyAllDifferences", "src/difference.cpp: Difference::apply"]}
{"id": "C77", "title": "Damage stays in its file", "statement": "In a unified diff of several files some files are damaged: after their first hunks stand any lines instead of further hunks (except lines that look like file headers or 'no newline' remarks), and the next file is announced by an 'Index:' or 'diff' line. The parser still returns. Every file is shown with all its hunks before the damage, followed by exactly the hunks that can be read at the beginning of the damaged lines; an undamaged file is shown completely, as if the others were not damaged. The diff is reported as malformed exactly if in some file lines are left over that do not announce another file (C77_contained, C77_others). What is false: within its file the damage does not stay where it is, everything after the first bad line is lost even if well-formed hunks follow (C77_lost_defect); an empty line inside a hunk, as written by diff --suppress-blank-empty, ends the hunk and loses the rest of the file (C77_blank_defect); and if the next file is not announced, a hunk that lacks its last changed line takes the header of the next file for it: the next file's hunks are shown in the first file, and nothing is reported (C77_swallow_defect).", "quantifier": "every diff with any number of files, hunks and damaged lines, every heap, path style and comparison function", "why_tests_cant": "What a parser makes of broken input depends on every line after the break; the set of possible broken texts is unbounded, and a test only shows one.", "anchors": ["src/parserbase.cpp: ParserBase::parseUnifiedHunkBody, ParserBase::parseUnifiedHunkHeader, ParserBase::checkHeader, ParserBase::parseUnifiedDiffHeader, ParserBase::parseUnified", "src/parser.cpp: Parser::parse"]}
{"id": "C78", "title": "A whole sitting with two files", "statement": "Two files are compared with a diff program that answers truthfully. In the sitting that follows the user navigates, marks, unmarks and saves (with any failures), compares again with refresh() or swap(), and other programs may change both files in between, all in any order and any number of times. At every moment at which differences are shown exactly one file is shown and the destination file has the text of the source file with exactly those changes made that were not marked when it was last saved; if nothing is unsaved, those not marked now (C78_file). The sitting never gets stuck: every action can be carried out, the diff program is given the two files and each truthful answer is taken, refresh() works at every moment (C78_goes_on). Only the destination file is ever written, and only by actions of the user (C78_writes). 'Apply all' and a save without failure at any moment make the files equal, and comparing again then says that they are identical and shows nothing (C78_ends).", "quantifier": "every sitting of any length, every text of the files and every change to them from outside, every truthful unified diff, every pattern of save failures, every reachable state before", "why_tests_cant": "The relation between marks, what was saved and what the files contain must hold after any number of comparisons, saves and outside changes in any order, including objects left over from earlier comparisons; tests run a few short sequences.", "anchors": ["src/modellist.cpp: ModelList::compare, ModelList::refresh, ModelList::swap, ModelList::slotDiffProcessFinished, ModelList::saveDestination, ModelList::clear", "src/kompareprocess.cpp: KompareProcess::KompareProcess", "src/difference.cpp: Difference::apply"]}
{"id": "C79", "title": "Damage in a context diff", "statement": "If a line stands in the wrong place after a hunk of a context diff, with anything at all after it, the files and hunks before it are shown and the diff is reported as malformed. If none of the misplaced lines looks like the first header line of a file, the well-formed files after them are shown too. (Not so otherwise: the line `*** a,b ****` of a later hunk of the same file looks like a file header; unless CVS wrote the diff, no later file is then shown.)", "quantifier": "all context diffs (plain and CVS) with any well-formed files before the misplaced line, any misplaced lines, and any well-formed files after them", "why_tests_cant": "Tests try a few damaged files; how the parser finds its way again depends on everything that follows the damage.", "anchors": ["src/parserbase.cpp:parseContextDiffHeader", "src/parserbase.cpp:parseContextHunkHeader", "src/parserbase.cpp:checkHeader", "src/cvsdiffparser.cpp"]}
{"id": "C80", "title": "A patch opened for a file or directory", "statement": "Opening a patch writes nothing. Afterwards there are unsaved changes exactly if Info.applied is set (the default), although nothing was done. Whatever the user then does, the patched file is never written: everything is saved to the place of the patch. For a patch of one file: the patch is as it was until the first save that does not fail; from then on the text of the file with exactly those changes made that were not marked at the last save stands in its place. Defects: saving at once replaces the patch by the unpatched text (of the last file, if there are several); unmarking everything, which chooses the patched text, counts as saved, so that a save then writes nothing unless there was one before.", "quantifier": "all unified patches that apply, all originals, all reachable states, all sequences of user operations with any failures of saving", "why_tests_cant": "The claim is about what stands in a file after every possible history of marking and saving.", "anchors": ["src/modellist.cpp:openFileAndDiff", "src/modellist.cpp:openDirAndDiff", "src/modellist.cpp:saveDestination", "src/modellist.cpp:saveAll", "src/modellist_p.cpp:setDepthAndApplied", "src/diffmodel.cpp:applyAllDifferences"]}
{"id": "C81", "title": "Saving on a file system", "statement": "On a file system with directories, files and permissions. Saving a compared file that may be written leaves its permissions as they were and changes no other file and no directory. After comparing directories, \"save all\" writes every changed file to its place in the destination directory if each file's directory exists or can be created in an existing one; it creates no other directories and changes no other files, and nothing is unsaved afterwards. Whatever fails, saving a model changes at most the one file it is saved to, which has its old or its new contents, and creates at most that file's directory; a model without unsaved changes touches nothing. Defect: a file whose directory and its parent are both missing in the destination (as for a new tree of directories) cannot be saved at all, and \"save all\" stops there.", "quantifier": "all file systems (what exists, with which permissions, what may be created or written), all reachable states, all sequences of user operations before saving", "why_tests_cant": "The claim quantifies over all states of the file system and all histories of marking.", "anchors": ["src/modellist.cpp:saveDestination", "src/modellist.cpp:saveAll"]}
{"id": "C82", "title": "A whole sitting with two directories", "statement": "Two directories are compared; the user navigates, marks and saves; files are changed with other programs; the directories are compared again, any number of times, in any order. Whenever differences are shown, every shown file in the destination directory has the text of the file of the same name in the source directory (empty if missing) with exactly those changes made that were not marked when it was last saved, and all files that are not shown are equal. No action gets stuck: every user action can be carried out while differences are shown, every truthful answer of the diff program is taken, and refresh() works at any moment. Only shown files of the destination directory are ever written, and only by the user's actions. If everything is marked, \"save all\" without failures makes the two directories equal, with nothing unsaved, and comparing them again reports that they are identical; and from every moment at which differences are shown the user can get there.", "quantifier": "all pairs of directory contents, all sittings (sequences of comparing, user actions, outside changes, comparing again), all truthful answers of the diff program", "why_tests_cant": "The claim is about every sequence of actions and every pair of directory contents; a test runs a few sequences on a few directories.", "anchors": ["src/modellist.cpp:compare", "src/modellist.cpp:refresh", "src/modellist.cpp:slotDiffProcessFinished", "src/modellist.cpp:blendOriginalIntoModelList", "src/modellist.cpp:saveAll"]}
{"id": "C83", "title": "Receivers that call back while a comparison ends", "statement": "When the diff program has ended and differences were read, receivers may call any navigating, marking or saving slot while the number of files, the files, the selection and the end of parsing are signalled, to any depth: there is no undefined behaviour, and unless they call each other for ever, in the end the same files and differences are there, one of them is selected, the navigation actions are right, no process is left, and afterwards saving any file writes the whole original with the hunks laid over it, as without receivers. All this stays so whatever the user does afterwards while the receivers go on calling back. If they stop calling, it ends. Comparing again with receivers that call nothing while the list is empty is the same as without them. Receivers that ignore errors do not change the result of a comparison that failed. (Not so: a receiver that marks everything and saves when the number of differences is signalled overwrites the destination with the lines of the hunks only; a receiver may not go to the next file at the end of parsing, which is also signalled if nothing could be read, nor when it is told that the files are identical after comparing again, nor when the start of the diff program is signalled: all these are undefined behaviour; and if it compares again at the end of parsing, the new process is the one that is deleted.)", "quantifier": "all answers of the diff program, all receivers (any answer to any sequence of signals), all depths of calling back, all later sequences of user actions", "why_tests_cant": "A test connects a few receivers; the claim is about every way of calling back in and to every depth.", "anchors": ["src/modellist.cpp:slotDiffProcessFinished", "src/modellist.cpp:parseDiffOutput", "src/modellist.cpp:show", "src/modellist.cpp:refresh", "src/modellist.cpp:blendOriginalIntoModelList"]}
{"id": "C84", "title": "Receivers that call back while a patch is opened", "statement": "openFileAndDiff and openDirAndDiff with receivers that wait until there is something to select and may then call any navigating, marking or saving slot whenever something is signalled, to any depth: there is no undefined behaviour, and unless they call each other for ever, the result is the same as without them, the same files and differences are there, one of them is selected, the navigation actions are right if it worked, and afterwards saving any file writes the whole original with the hunks of the patch laid over it. All this stays so whatever the user does afterwards while the receivers go on calling back. If they stop calling, it ends. Marks made while the number of differences is signalled do not survive: all differences get the mark asked for by Info::applied. If the file is no diff, receivers that ignore errors change nothing. (Not so: a receiver that goes to the next file when it is told that the file is no diff dereferences a null pointer.)", "quantifier": "all patches, files and directories, all receivers (any answer to any sequence of signals), all depths of calling back, all later sequences of user actions", "why_tests_cant": "A test connects a few receivers; the claim is about every way of calling back in and to every depth.", "anchors": ["src/modellist.cpp:openFileAndDiff", "src/modellist.cpp:openDirAndDiff", "src/modellist.cpp:parseDiffOutput", "src/modellist_p.cpp:setDepthAndApplied", "src/modellist.cpp:blendOriginalIntoModelList", "src/modellist.cpp:show"]}
{"id": "C85", "title": "A diff program that is still running", "statement": "As long as no diff program is running, compare(), refresh(), swap() and saveDiff() start one, and every other call does not care whether one is running (C85_idle, C85_others); afterwards one is running exactly if it could be started (C85_started); once its end was reported none is running (C85_over). The end of a comparison is always signalled, as the last signal (C85_told). Every history without undefined behaviour starts programs one at a time and is a history of the simple model in which a replaced process vanishes, so what is claimed elsewhere for those holds (C85_refines, C85_one_at_a_time). The list may be closed exactly when no program is running (C85_close). Defects: starting a comparison or saving a diff while a program is running is never defined - the destructor of the replaced process kills the program and the end is reported to the list from an object half destroyed, and even if that went well the list would give up the new process before using it (C85_running_defect); closing the list while a program is running is undefined (C85_close_defect); a client cannot go by the end of parsing, which is also signalled when a diff is opened while a program is running (C85_misled_defect); the end of the program of saveDiff is not signalled unless it reported differences (C85_untold_defect); if the program cannot be started nobody is told, then or later (C85_failed_start_defect).", "quantifier": "all states, calls, arguments, answers of the diff program, histories of any length, whether the program can be started, how it ends when killed", "why_tests_cant": "Whether a program is still running at the next call is a matter of timing, and a test with a fast diff program never sees it; the refinement is over all histories.", "anchors": ["src/modellist.cpp: ModelList::compare(Mode), ModelList::saveDiff, ModelList::slotDiffProcessFinished, ModelList::slotWriteDiffOutput, ModelList::refresh, ModelList::swap, ModelList::~ModelList", "src/modellist_p.h: diffProcess", "src/kompareprocess.cpp: KompareProcess::slotFinished, KompareProcess::start, KompareProcess::~KompareProcess"]}
