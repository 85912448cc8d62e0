{
 "C06": {
  "note": "Also proves exactly when the table access is undefined, with a concrete wrap-around witness."
 },
 "C07": {
  "note": "The default constructor exception is proved as a defect."
 },
 "C14": {
  "note": "The stale directory after setSourceFile without '/' is proved as a defect."
 },
 "C15": {
  "note": "Hypotheses: lines shorter than 65535 characters and the block within the 2^24 table limit; beyond the limit the difference is silently lost (C15_oversize_defect); with an unapplied difference of unequal sides the result is wrong (C15_unfair_counterexample)."
 },
 "C16": {
  "note": "Two forms: limits on the blocks actually touched, and limits stated on the texts only."
 },
 "C47": {
  "note": "Positive frame theorem plus the two defects (counter drift, unconnected differences)."
 },
 "C34": {
  "note": "Also proves that the file is not compared with the hunk (C34_unchecked_defect)."
 },
 "C35": {
  "note": "For all operation sequences; saved text = file with exactly the not-applied changes made. linesChanged edits are not part of the saved text (C35_edits_not_saved)."
 },
 "C48": {
  "note": "Whole path on the ModelList state machine, single file or directory, any user operations in between. A multi-file diff for one file blends only the first model (C48_only_first_defect)."
 },
 "C33": {
  "status": "proved",
  "note": "Round trip against the separate specification Spec/Context.lean; the three defects are proved as theorems about the model (revision shown as time stamp, one-line range, no-newline remark)."
 },
 "C32": {
  "status": "proved",
  "note": "Round trip against the separate specification Spec/Normal.lean; defects proved as theorems: several files always flagged malformed, unrecognised options become part of the file name, insertion placed one line earlier than from a unified diff, no-newline remark ends the reading, no cvs normal diff is ever read."
 },
 "C20": {
  "note": "Round trip for every writable model and for every full unified diff; each excluded case of the statement is proved to fail (C20_*_defect). Also: text reproduced character by character for diffs in the library's own form."
 },
 "C50": {
  "note": "Proved with the exceptions named in the statement, each of which is a theorem of its own (C50_local_name_defect, C50_separator_defect, C50_diff2_defect); C50_each_file covers all mixtures."
 },
 "C52": {
  "note": "Proved; the exceptions named in the statement are theorems of their own (C52_failed_save_ub, C52_silent_defect, C52_stale_result_defect)."
 },
 "C53": {
  "note": "Proved with the exceptions named in the statement (C53_slash_defect, C53_relative_defect)."
 },
 "C51": {
  "note": "Proved with the exceptions named in the statement (C51_applied_defect, C51_apply_all_defect, C51_foreign_difference_defect)."
 },
 "C54": {
  "note": "Proved with the exceptions named in the statement (C54_leak_defect, C54_assign_defect, C54_list_copy_defect)."
 },
 "C55": {
  "note": "Proved with the exceptions named in the statement (C55_latin1_defect, C55_bom_defect). The codecs other than UTF-8 and Latin-1 are arbitrary byte-wise decoders."
 },
 "C56": {
  "note": "Proved with the exception named in the statement (C56_defect). Events delivered in the nested loops are ends of diff processes, the only events whose handlers belong to this library; calls the user makes from other handlers are not modelled."
 },
 "C57": {
  "note": "Proved; the defects named in the statement are C57_context_defect, C57_normal_defect and C57_insert_defect."
 },
 "C58": {
  "note": "Proved; the defects and the undefined behaviour named in the statement are C58_never_saved_defect, C58_lost_edit_defect, C58_next_stuck_defect, C58_next_shifted_defect, C58_insert_line_defect, C58_reselect_defect and C58_emptied_ub."
 },
 "C59": {
  "note": "Proved; the undefined behaviour outside the rules is C59_shared_ub, C59_copy_ub, C59_copy_alias_defect, C59_line_ub and C59_twice_ub, the leaks are C59_hunk_leak_defect and C59_replaced_leak_defect. Addresses are never reused in the model."
 },
 "C60": {
  "note": "Proved; the parts of the expectation that are false are C60_patch_defect, C60_normal_defect and C60_context_defect."
 },
 "C61": {
  "note": "Proved about Model/Int32.lean, the parser of Model/Parser.lean with every increment and decrement checked; the bad cases are C61_unified_ub, C61_context_ub (undefined) and C61_normal_end_defect (a wrapped number) and C61_drift_defect (unbounded drift)."
 },
 "C62": {
  "note": "Proved about Model/Blend32.lean, blendFile with strict pointer arithmetic and checked line numbers; the undefined cases are C62_beyond_ub and the negation in C62_unified."
 },
 "C63": {
  "note": "Proved about Model/Disk.lean, the changes of the disk made by saveDestination, saveAll and slotWriteDiffOutput as lists of steps; a crash point is a prefix. Assumed: KIO leaves a prefix of the text or no file at the destination while copying; temporary files survive a crash."
 },
 "C64": {
  "note": "Names, directories and file names are part of what no operation of a user and no edit changes (`Frame.head`); the parser sets them together (`parse_paths`). C64_save_all needs different destination names and different temporary files."
 },
 "C65": {
  "note": "The code compares characters with each other and with ASCII characters only, so the model may be run on code units: a surrogate is written as a private-use character that no encoded text contains otherwise (Spec/Utf16.lean). C65_unified/_context/_normal show that this makes no difference for well-formed diffs."
 },
 "C66": {
  "note": "Alike (Spec/Moved.lean) is equality of the two lists after moving all differences and models by fixed offsets; two logs are compared from the point where the list was cleared. Deleted objects stay deleted in both, so also undefined behaviour occurs in both or in none."
 },
 "C67": {
  "note": "Proved about Model/LinesChanged32.lean, linesChanged with checked int operations and narrowed sizes (Qt 6: sizes are 64-bit)."
 },
 "C68": {
  "note": "The claim as stated is proved, including what goes wrong: C68_null_model_ub, C68_unvisited_defect, C68_skips_first_defect."
 },
 "C69": {
  "note": "The claim as stated is proved, including what goes wrong: C69_opening_defect. C69_silent shows that the slots with receivers are the slots of the other properties when nothing is connected. Receivers connected to signals of DiffModel, receivers that open, swap or refresh while a signal is delivered, and listeners that are told after the calling receivers are not covered."
 },
 "C70": {
  "note": "The claim as stated is proved. The order of the files is that of the sort by name (C31). Which texts are defined is C29, when malformed is set is C30. The context format is C71, the normal format C72."
 },
 "C71": {
  "note": "The claim as stated is proved. The order of the files is that of the sort by name (C31). Which texts are defined is C29, when malformed is set is C30. The unified format is C70."
 },
 "C72": {
  "note": "The claim as stated is proved. The order of the files is that of the sort by name (C31). When malformed is set is C30. The unified format is C70, the context format C71."
 },
 "C73": {
  "note": "The claim as stated is proved. Which texts make the call undefined is C29 and C23. When a file is given and several files are shown only the first model is completed with the text of the file (C48_only_first_defect), so that case is left out of C73_compare and C73_patch."
 },
 "C74": {
  "note": "The claim as stated is proved. 'The same files' is up to the order of files whose names the collation does not tell apart. A line longer than 65533 characters and line numbers or counts beyond int are excluded in Spec.MView.WholeLines."
 },
 "C75": {
  "note": "The claim as stated is proved. Lines of hunks have at most 65532 characters (the limit of C26, less one for the carriage return). Assumed of PCRE2: it is built with LF as newline (the usual default), so that a dot matches CR."
 },
 "C76": {
  "note": "The claim as stated is proved. The text of a file is taken to change only by the library's uploads (events of the log); an upload that reports success is taken to have stored the text, one that fails to have left the file alone. User actions are those of UserOp (navigation, marking, saving); opening something else ends the claim."
 },
 "C77": {
  "note": "The claim as stated is proved for unified diffs. Lines are shorter than 65535 characters (needed by the bounded matching of the regular expressions, as in C29/C30)."
 },
 "C78": {
  "note": "The claim as stated is proved. A truthful answer is: exit code 0 for equal texts, otherwise a well-formed unified diff of one file whose hunks change the source text into the destination text. Source and destination are different files; while nothing is shown (the diff program runs, or the files were found identical, or were changed outside) the user is taken to do nothing but compare again."
 },
 "C79": {
  "note": "The claim as stated is proved. C79_before holds for anything after the misplaced line, provided the parser returns (C29 says exactly when it does not). Misplaced lines are any lines but Perforce headers and 'no newline' remarks, the first of them is recognisable (no separator, header, star line or section line). C79_lost_defect proves what is false: a later hunk with removed lines makes the parser give up, so all later files are lost; diffs by CVS are not affected, because their headers need two tabs."
 },
 "C80": {
  "note": "The claim as stated is proved. C80_opening holds for any text; the others for well-formed unified patches whose hunks apply to the originals. Only uploads by this list change a file."
 },
 "C81": {
  "note": "The claim as stated is proved. What KIO::stat, KIO::mkdir and KIO::file_copy do is the model of Model/Tree.lean (copying replaces the file at once or fails; crashes in between are C63); the temporary file can be written (the other case is C36)."
 },
 "C82": {
  "note": "The claim as stated is proved. The diff program answers truthfully (DirAnswers: a well-formed unified diff whose hunks patch each file, or exit code 0 if nothing differs); files are those below the directories by the rest of their names, a missing file counting as empty; C82_ends and C82_reach: saving does not fail. A source file that is missing is read as empty, see C76."
 },
 "C83": {
  "note": "The claim as stated is proved. Receivers wait until there is something to select (Receivers.Waits), as in C69; those that start another process while status(Parsing) is delivered are not covered, as the output is taken to be the one of the process that ended. In C83_refresh_defect the deletion of the old process object during its own signal is taken to be harmless; what is shown is only what then becomes of the new one."
 },
 "C84": {
  "note": "The claim as stated is proved. Receivers wait until there is something to select (Receivers.Waits), as in C69; they do not open or compare anything themselves."
 },
 "C85": {
  "note": "The claim as stated is proved. That destroying a running QProcess kills the program, waits, and emits finished on the way is assumed of Qt (QProcess::~QProcess calls waitForFinished)."
 }
}