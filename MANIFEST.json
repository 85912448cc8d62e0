{
 "claims": [
  {
   "property": "C01",
   "status": "proved",
   "theorems": [
    "KompareDiff2.C01_inline_distance_exact"
   ],
   "note": ""
  },
  {
   "property": "C02",
   "status": "proved",
   "theorems": [
    "KompareDiff2.C02_line_distance_exact"
   ],
   "note": ""
  },
  {
   "property": "C03",
   "status": "proved",
   "theorems": [
    "KompareDiff2.C03_line_markers_wellformed"
   ],
   "note": ""
  },
  {
   "property": "C04",
   "status": "proved",
   "theorems": [
    "KompareDiff2.C04_line_markers_shortest"
   ],
   "note": ""
  },
  {
   "property": "C05",
   "status": "proved",
   "theorems": [
    "KompareDiff2.C05_inline_markers_isolate_changes"
   ],
   "note": ""
  },
  {
   "property": "C06",
   "status": "proved",
   "theorems": [
    "KompareDiff2.C06_table_memory",
    "KompareDiff2.C06_table_ub_iff",
    "KompareDiff2.C06_wraparound_counterexample"
   ],
   "note": "Also proves exactly when the table access is undefined, with a concrete wrap-around witness."
  },
  {
   "property": "C07",
   "status": "proved",
   "theorems": [
    "KompareDiff2.C07_string_equality",
    "KompareDiff2.C07_default_defect"
   ],
   "note": "The default constructor exception is proved as a defect."
  },
  {
   "property": "C08",
   "status": "proved",
   "theorems": [
    "KompareDiff2.C08_unsaved_iff",
    "KompareDiff2.C08_apply_effect"
   ],
   "note": ""
  },
  {
   "property": "C09",
   "status": "proved",
   "theorems": [
    "KompareDiff2.C09_parsed",
    "KompareDiff2.C09_applied_count"
   ],
   "note": ""
  },
  {
   "property": "C10",
   "status": "proved",
   "theorems": [
    "KompareDiff2.C10_parsed",
    "KompareDiff2.C10_any_order",
    "KompareDiff2.C10_apply_all",
    "KompareDiff2.C10_tracking",
    "KompareDiff2.C10_unified_fresh",
    "KompareDiff2.C10_unified"
   ],
   "note": ""
  },
  {
   "property": "C11",
   "status": "proved",
   "theorems": [
    "KompareDiff2.C11_any_order",
    "KompareDiff2.C11_unordered_counterexample",
    "KompareDiff2.C11_order_independent",
    "KompareDiff2.C11_reversible"
   ],
   "note": ""
  },
  {
   "property": "C12",
   "status": "proved",
   "theorems": [
    "KompareDiff2.C12_parsed",
    "KompareDiff2.C12_unsaved"
   ],
   "note": ""
  },
  {
   "property": "C13",
   "status": "proved",
   "theorems": [
    "KompareDiff2.C13_selection_at_index",
    "KompareDiff2.C13_next_prev",
    "KompareDiff2.C13_first_last",
    "KompareDiff2.C13_select"
   ],
   "note": ""
  },
  {
   "property": "C14",
   "status": "proved",
   "theorems": [
    "KompareDiff2.C14_split_new",
    "KompareDiff2.C14_set_with_slash",
    "KompareDiff2.C14_stale_directory_defect"
   ],
   "note": "The stale directory after setSourceFile without '/' is proved as a defect."
  },
  {
   "property": "C15",
   "status": "proved",
   "theorems": [
    "KompareDiff2.C15_edit_consistent",
    "KompareDiff2.C15_oversize_defect",
    "KompareDiff2.C15_unfair_counterexample"
   ],
   "note": "Hypotheses: lines shorter than 65535 characters and the block within the 2^24 table limit; beyond the limit the difference is silently lost (C15_oversize_defect); with an unapplied difference of unequal sides the result is wrong (C15_unfair_counterexample)."
  },
  {
   "property": "C16",
   "status": "proved",
   "theorems": [
    "KompareDiff2.C16_edit_history",
    "KompareDiff2.C16_edit_history_texts",
    "KompareDiff2.C16_empty_start"
   ],
   "note": "Two forms: limits on the blocks actually touched, and limits stated on the texts only."
  },
  {
   "property": "C17",
   "status": "proved",
   "theorems": [
    "KompareDiff2.C17_inserted_any_model",
    "KompareDiff2.C17_report_frame",
    "KompareDiff2.C17_report_contents"
   ],
   "note": ""
  },
  {
   "property": "C18",
   "status": "proved",
   "theorems": [
    "KompareDiff2.C18_minimal"
   ],
   "note": ""
  },
  {
   "property": "C19",
   "status": "proved",
   "theorems": [
    "KompareDiff2.C19_hunk_header_counts",
    "KompareDiff2.C19_reported_counts"
   ],
   "note": ""
  },
  {
   "property": "C20",
   "status": "proved",
   "theorems": [
    "KompareDiff2.C20_reread",
    "KompareDiff2.C20_round_trip",
    "KompareDiff2.C20_list",
    "KompareDiff2.C20_parse_recreate_parse",
    "KompareDiff2.C20_text_reproduced",
    "KompareDiff2.C20_timestamps_defect",
    "KompareDiff2.C20_timestamp_defect",
    "KompareDiff2.C20_revision_defect",
    "KompareDiff2.C20_empty_side_defect",
    "KompareDiff2.C20_no_newline_defect"
   ],
   "note": "Round trip for every writable model and for every full unified diff; each excluded case of the statement is proved to fail (C20_*_defect). Also: text reproduced character by character for diffs in the library's own form."
  },
  {
   "property": "C21",
   "status": "proved",
   "theorems": [
    "KompareDiff2.C21_unescape_escape",
    "KompareDiff2.C21_space_only_in_quotes"
   ],
   "note": ""
  },
  {
   "property": "C22",
   "status": "proved",
   "theorems": [
    "KompareDiff2.C22_split",
    "KompareDiff2.C22_split_lines"
   ],
   "note": ""
  },
  {
   "property": "C23",
   "status": "proved",
   "theorems": [
    "KompareDiff2.C23_every_list",
    "KompareDiff2.C23_clean",
    "KompareDiff2.C23_leading_remark_ub",
    "KompareDiff2.C23_clean_plain"
   ],
   "note": ""
  },
  {
   "property": "C24",
   "status": "proved",
   "theorems": [
    "KompareDiff2.C24_generator"
   ],
   "note": ""
  },
  {
   "property": "C25",
   "status": "proved",
   "theorems": [
    "KompareDiff2.C25_format",
    "KompareDiff2.C25_shows_unique",
    "KompareDiff2.C25_first_line",
    "KompareDiff2.C25_unsupported"
   ],
   "note": ""
  },
  {
   "property": "C26",
   "status": "proved",
   "theorems": [
    "KompareDiff2.C26_unified",
    "KompareDiff2.C26_unified_single"
   ],
   "note": ""
  },
  {
   "property": "C27",
   "status": "proved",
   "theorems": [
    "KompareDiff2.C27_unified_sound",
    "KompareDiff2.C27_context_sound",
    "KompareDiff2.C27_normal_sound",
    "KompareDiff2.C27_parse_sound"
   ],
   "note": ""
  },
  {
   "property": "C28",
   "status": "proved",
   "theorems": [
    "KompareDiff2.C28_parser_terminates"
   ],
   "note": ""
  },
  {
   "property": "C29",
   "status": "proved",
   "theorems": [
    "KompareDiff2.C29_every_input_has_a_reading",
    "KompareDiff2.C29_unified_ub_iff",
    "KompareDiff2.C29_context_ub_iff",
    "KompareDiff2.C29_other_formats_defined",
    "KompareDiff2.C29_unified_defined",
    "KompareDiff2.C29_text_defined",
    "KompareDiff2.C29_truncated_header_ub",
    "KompareDiff2.C29_context_truncated_ub"
   ],
   "note": ""
  },
  {
   "property": "C30",
   "status": "proved",
   "theorems": [
    "KompareDiff2.C30_normal_rest",
    "KompareDiff2.C30_normal_malformed_iff",
    "KompareDiff2.C30_normal_header_defect",
    "KompareDiff2.C30_perforce_normal_malformed_iff",
    "KompareDiff2.C30_perforce_normal_reading",
    "KompareDiff2.C30_unified_malformed_iff",
    "KompareDiff2.C30_context_malformed_iff",
    "KompareDiff2.C30_truncated_hunk_not_flagged",
    "KompareDiff2.C30_broken_header_not_flagged"
   ],
   "note": ""
  },
  {
   "property": "C31",
   "status": "proved",
   "theorems": [
    "KompareDiff2.C31_sorted",
    "KompareDiff2.C31_parse_sorted",
    "KompareDiff2.C31_strict_weak",
    "KompareDiff2.C31_any_sort",
    "KompareDiff2.C31_only_sort"
   ],
   "note": ""
  },
  {
   "property": "C32",
   "status": "proved",
   "theorems": [
    "KompareDiff2.C32_normal",
    "KompareDiff2.C32_several_files_defect",
    "KompareDiff2.C32_option_defect",
    "KompareDiff2.C32_insert_position_defect",
    "KompareDiff2.C32_no_newline_defect",
    "KompareDiff2.C32_cvs_defect"
   ],
   "note": "Round trip against the separate specification Spec/Normal.lean; defects proved as theorems: several files always flagged malformed, unrecognised options become part of the file name, insertion placed one line earlier than from a unified diff, no-newline remark ends the reading, no cvs normal diff is ever read."
  },
  {
   "property": "C33",
   "status": "proved",
   "theorems": [
    "KompareDiff2.C33_context",
    "KompareDiff2.C33_context_single",
    "KompareDiff2.C33_cvs_stamp_defect",
    "KompareDiff2.C33_one_line_defect",
    "KompareDiff2.C33_no_newline_defect"
   ],
   "note": "Round trip against the separate specification Spec/Context.lean; the three defects are proved as theorems about the model (revision shown as time stamp, one-line range, no-newline remark)."
  },
  {
   "property": "C34",
   "status": "proved",
   "theorems": [
    "KompareDiff2.C34_blend",
    "KompareDiff2.C34_frame",
    "KompareDiff2.C34_unchecked_defect"
   ],
   "note": "Also proves that the file is not compared with the hunk (C34_unchecked_defect)."
  },
  {
   "property": "C35",
   "status": "proved",
   "theorems": [
    "KompareDiff2.C35_saved",
    "KompareDiff2.C35_apply_all",
    "KompareDiff2.C35_edits_not_saved"
   ],
   "note": "For all operation sequences; saved text = file with exactly the not-applied changes made. linesChanged edits are not part of the saved text (C35_edits_not_saved)."
  },
  {
   "property": "C36",
   "status": "proved",
   "theorems": [
    "KompareDiff2.C36_save",
    "KompareDiff2.C36_target_dirs",
    "KompareDiff2.C36_target_defect",
    "KompareDiff2.C36_slot_defect",
    "KompareDiff2.C36_saveAll",
    "KompareDiff2.C36_saveAll_empty",
    "KompareDiff2.C36_saveAll_any",
    "KompareDiff2.C36_saveAll_upload_defect"
   ],
   "note": ""
  },
  {
   "property": "C37",
   "status": "proved",
   "theorems": [
    "KompareDiff2.C37_selection_valid",
    "KompareDiff2.C37_foreign_model_defect"
   ],
   "note": ""
  },
  {
   "property": "C38",
   "status": "proved",
   "theorems": [
    "KompareDiff2.C38_position",
    "KompareDiff2.C38_next",
    "KompareDiff2.C38_previous",
    "KompareDiff2.C38_next_times",
    "KompareDiff2.C38_previous_times",
    "KompareDiff2.C38_all_visited",
    "KompareDiff2.C38_next_previous",
    "KompareDiff2.C38_files"
   ],
   "note": ""
  },
  {
   "property": "C39",
   "status": "proved",
   "theorems": [
    "KompareDiff2.C39_navigation",
    "KompareDiff2.C39_writing",
    "KompareDiff2.C39_opened",
    "KompareDiff2.C39_readWrite",
    "KompareDiff2.C39_closed",
    "KompareDiff2.C39_slot_stale_defect"
   ],
   "note": ""
  },
  {
   "property": "C40",
   "status": "proved",
   "theorems": [
    "KompareDiff2.C40_failed_open",
    "KompareDiff2.C40_navigation_ub",
    "KompareDiff2.C40_enabled_ub",
    "KompareDiff2.C40_never_selected",
    "KompareDiff2.C40_pending",
    "KompareDiff2.C40_dangling_ub"
   ],
   "note": ""
  },
  {
   "property": "C41",
   "status": "proved",
   "theorems": [
    "KompareDiff2.C41_roles",
    "KompareDiff2.C41_compare",
    "KompareDiff2.C41_comparing_total",
    "KompareDiff2.C41_blending_total",
    "KompareDiff2.C41_swap",
    "KompareDiff2.C41_swap_defect",
    "KompareDiff2.C41_refresh",
    "KompareDiff2.C41_refresh_defect",
    "KompareDiff2.C41_no_info_ub"
   ],
   "note": ""
  },
  {
   "property": "C42",
   "status": "proved",
   "theorems": [
    "KompareDiff2.C42_swap",
    "KompareDiff2.C42_swap_involutive"
   ],
   "note": ""
  },
  {
   "property": "C43",
   "status": "proved",
   "theorems": [
    "KompareDiff2.C43_strip_one",
    "KompareDiff2.C43_depth_defect",
    "KompareDiff2.C43_zero_defect",
    "KompareDiff2.C43_intended_refuted",
    "KompareDiff2.C43_patch_names",
    "KompareDiff2.C43_compare_names"
   ],
   "note": ""
  },
  {
   "property": "C44",
   "status": "proved",
   "theorems": [
    "KompareDiff2.C44_load_save",
    "KompareDiff2.C44_save_frame",
    "KompareDiff2.C44_save_all",
    "KompareDiff2.C44_defaults"
   ],
   "note": ""
  },
  {
   "property": "C45",
   "status": "proved",
   "theorems": [
    "KompareDiff2.C45_command_line",
    "KompareDiff2.C45_operands",
    "KompareDiff2.C45_default",
    "KompareDiff2.C45_new_settings",
    "KompareDiff2.C45_null_settings_ub"
   ],
   "note": ""
  },
  {
   "property": "C46",
   "status": "proved",
   "theorems": [
    "KompareDiff2.C46_success",
    "KompareDiff2.C46_events",
    "KompareDiff2.C46_total",
    "KompareDiff2.C46_error_defect"
   ],
   "note": ""
  },
  {
   "property": "C47",
   "status": "proved",
   "theorems": [
    "KompareDiff2.C47_edit_invisible",
    "KompareDiff2.C47_counter_drift_defect",
    "KompareDiff2.C47_unconnected_defect"
   ],
   "note": "Positive frame theorem plus the two defects (counter drift, unconnected differences)."
  },
  {
   "property": "C48",
   "status": "proved",
   "theorems": [
    "KompareDiff2.C48_compare",
    "KompareDiff2.C48_patch",
    "KompareDiff2.C48_only_first_defect"
   ],
   "note": "Whole path on the ModelList state machine, single file or directory, any user operations in between. A multi-file diff for one file blends only the first model (C48_only_first_defect)."
  },
  {
   "property": "C49",
   "status": "proved",
   "theorems": [
    "KompareDiff2.C49_difference",
    "KompareDiff2.C49_parsed",
    "KompareDiff2.C49_normal_unmarked_defect",
    "KompareDiff2.C49_edited",
    "KompareDiff2.C49_again"
   ],
   "note": ""
  },
  {
   "property": "C50",
   "status": "proved",
   "theorems": [
    "KompareDiff2.C50_perforce",
    "KompareDiff2.C50_local_name_defect",
    "KompareDiff2.C50_diff2_defect",
    "KompareDiff2.C50_separator_defect",
    "KompareDiff2.C50_each_file"
   ],
   "note": "Proved with the exceptions named in the statement, each of which is a theorem of its own (C50_local_name_defect, C50_separator_defect, C50_diff2_defect); C50_each_file covers all mixtures."
  },
  {
   "property": "C51",
   "status": "proved",
   "theorems": [
    "KompareDiff2.C51_selects",
    "KompareDiff2.C51_others",
    "KompareDiff2.C51_opened",
    "KompareDiff2.C51_opened_count",
    "KompareDiff2.C51_announced",
    "KompareDiff2.C51_next",
    "KompareDiff2.C51_applied_defect",
    "KompareDiff2.C51_apply_all_defect",
    "KompareDiff2.C51_foreign_difference_defect"
   ],
   "note": "Proved with the exceptions named in the statement (C51_applied_defect, C51_apply_all_defect, C51_foreign_difference_defect)."
  },
  {
   "property": "C52",
   "status": "proved",
   "theorems": [
    "KompareDiff2.C52_pending",
    "KompareDiff2.C52_written",
    "KompareDiff2.C52_save_reported",
    "KompareDiff2.C52_failed_save_ub",
    "KompareDiff2.C52_saving",
    "KompareDiff2.C52_silent_defect",
    "KompareDiff2.C52_stale_result_defect"
   ],
   "note": "Proved; the exceptions named in the statement are theorems of their own (C52_failed_save_ub, C52_silent_defect, C52_stale_result_defect)."
  },
  {
   "property": "C53",
   "status": "proved",
   "theorems": [
    "KompareDiff2.C53_name",
    "KompareDiff2.C53_saveDiff",
    "KompareDiff2.C53_slash_defect",
    "KompareDiff2.C53_relative_defect",
    "KompareDiff2.C53_remote"
   ],
   "note": "Proved with the exceptions named in the statement (C53_slash_defect, C53_relative_defect)."
  },
  {
   "property": "C54",
   "status": "proved",
   "theorems": [
    "KompareDiff2.C54_never_twice",
    "KompareDiff2.C54_destroyed",
    "KompareDiff2.C54_pointers_valid",
    "KompareDiff2.C54_leak_defect",
    "KompareDiff2.C54_assign",
    "KompareDiff2.C54_assign_defect",
    "KompareDiff2.C54_list_copy_defect"
   ],
   "note": "Proved with the exceptions named in the statement (C54_leak_defect, C54_assign_defect, C54_list_copy_defect)."
  },
  {
   "property": "C55",
   "status": "proved",
   "theorems": [
    "KompareDiff2.C55_read",
    "KompareDiff2.C55_process",
    "KompareDiff2.C55_utf8",
    "KompareDiff2.C55_utf8_file",
    "KompareDiff2.C55_stdin",
    "KompareDiff2.C55_bom_defect",
    "KompareDiff2.C55_latin1_defect",
    "KompareDiff2.C55_compare",
    "KompareDiff2.C55_compare_utf8",
    "KompareDiff2.C55_saved_diff"
   ],
   "note": "Proved with the exceptions named in the statement (C55_latin1_defect, C55_bom_defect). The codecs other than UTF-8 and Latin-1 are arbitrary byte-wise decoders."
  },
  {
   "property": "C56",
   "status": "proved",
   "theorems": [
    "KompareDiff2.C56_atomic",
    "KompareDiff2.C56_upload",
    "KompareDiff2.C56_one_at_a_time",
    "KompareDiff2.C56_save_all",
    "KompareDiff2.C56_defect",
    "KompareDiff2.C56_slot"
   ],
   "note": "Proved with the exception named in the statement (C56_defect). Events delivered in the nested loops are ends of diff processes, the only events whose handlers belong to this library; calls the user makes from other handlers are not modelled."
  },
  {
   "property": "C57",
   "status": "proved",
   "theorems": [
    "KompareDiff2.C57_compare",
    "KompareDiff2.C57_agrees",
    "KompareDiff2.C57_patch",
    "KompareDiff2.C57_context_defect",
    "KompareDiff2.C57_normal_defect",
    "KompareDiff2.C57_insert_defect"
   ],
   "note": "Proved; the defects named in the statement are C57_context_defect, C57_normal_defect and C57_insert_defect."
  },
  {
   "property": "C58",
   "status": "proved",
   "theorems": [
    "KompareDiff2.C58_safe",
    "KompareDiff2.C58_never_saved_defect",
    "KompareDiff2.C58_lost_edit_defect",
    "KompareDiff2.C58_selection",
    "KompareDiff2.C58_next",
    "KompareDiff2.C58_next_before",
    "KompareDiff2.C58_next_stuck_defect",
    "KompareDiff2.C58_next_shifted_defect",
    "KompareDiff2.C58_insert_line_defect",
    "KompareDiff2.C58_emptied",
    "KompareDiff2.C58_emptied_ub",
    "KompareDiff2.C58_reselect",
    "KompareDiff2.C58_reselect_defect"
   ],
   "note": "Proved; the defects and the undefined behaviour named in the statement are C58_never_saved_defect, C58_lost_edit_defect, C58_next_stuck_defect, C58_next_shifted_defect, C58_insert_line_defect, C58_reselect_defect and C58_emptied_ub."
  },
  {
   "property": "C59",
   "status": "proved",
   "theorems": [
    "KompareDiff2.C59_safe",
    "KompareDiff2.C59_destroys",
    "KompareDiff2.C59_effect",
    "KompareDiff2.C59_frame",
    "KompareDiff2.C59_shared_ub",
    "KompareDiff2.C59_copy_ub",
    "KompareDiff2.C59_copy_alias_defect",
    "KompareDiff2.C59_line_ub",
    "KompareDiff2.C59_twice_ub",
    "KompareDiff2.C59_hunk_leak_defect",
    "KompareDiff2.C59_replaced_leak_defect"
   ],
   "note": "Proved; the undefined behaviour outside the rules is C59_shared_ub, C59_copy_ub, C59_copy_alias_defect, C59_line_ub and C59_twice_ub, the leaks are C59_hunk_leak_defect and C59_replaced_leak_defect. Addresses are never reused in the model."
  },
  {
   "property": "C60",
   "status": "proved",
   "theorems": [
    "KompareDiff2.C60_stable",
    "KompareDiff2.C60_compare",
    "KompareDiff2.C60_text",
    "KompareDiff2.C60_file",
    "KompareDiff2.C60_patch",
    "KompareDiff2.C60_session",
    "KompareDiff2.C60_reread",
    "KompareDiff2.C60_exact",
    "KompareDiff2.C60_patch_defect",
    "KompareDiff2.C60_normal_defect",
    "KompareDiff2.C60_context_defect"
   ],
   "note": "Proved; the parts of the expectation that are false are C60_patch_defect, C60_normal_defect and C60_context_defect."
  },
  {
   "property": "C61",
   "status": "proved",
   "theorems": [
    "KompareDiff2.C61_any_order",
    "KompareDiff2.C61_drift_defect",
    "KompareDiff2.C61_same_or_undefined",
    "KompareDiff2.C61_no_overflow",
    "KompareDiff2.C61_normal",
    "KompareDiff2.C61_in_range",
    "KompareDiff2.C61_unified_fits",
    "KompareDiff2.C61_unified_ub",
    "KompareDiff2.C61_context_fits",
    "KompareDiff2.C61_context_ub",
    "KompareDiff2.C61_tracking",
    "KompareDiff2.C61_unified",
    "KompareDiff2.C61_normal_end_defect"
   ],
   "note": "Proved about Model/Int32.lean, the parser of Model/Parser.lean with every increment and decrement checked; the bad cases are C61_unified_ub, C61_context_ub (undefined) and C61_normal_end_defect (a wrapped number) and C61_drift_defect (unbounded drift)."
  },
  {
   "property": "C62",
   "status": "proved",
   "theorems": [
    "KompareDiff2.C62_same_or_undefined",
    "KompareDiff2.C62_within",
    "KompareDiff2.C62_beyond_ub",
    "KompareDiff2.C62_patched",
    "KompareDiff2.C62_unified"
   ],
   "note": "Proved about Model/Blend32.lean, blendFile with strict pointer arithmetic and checked line numbers; the undefined cases are C62_beyond_ub and the negation in C62_unified."
  },
  {
   "property": "C63",
   "status": "proved",
   "theorems": [
    "KompareDiff2.C63_crash",
    "KompareDiff2.C63_ended",
    "KompareDiff2.C63_all_crash",
    "KompareDiff2.C63_same_target_defect",
    "KompareDiff2.C63_diff",
    "KompareDiff2.C63_diff_lost_defect",
    "KompareDiff2.C63_diff_truncated_defect"
   ],
   "note": "Proved about Model/Disk.lean, the changes of the disk made by saveDestination, saveAll and slotWriteDiffOutput as lists of steps; a crash point is a prefix. Assumed: KIO leaves a prefix of the text or no file at the destination while copying; temporary files survive a crash."
  },
  {
   "property": "C64",
   "status": "proved",
   "theorems": [
    "KompareDiff2.C64_names",
    "KompareDiff2.C64_target",
    "KompareDiff2.C64_save_all",
    "KompareDiff2.C64_stripped_defect"
   ],
   "note": "Names, directories and file names are part of what no operation of a user and no edit changes (`Frame.head`); the parser sets them together (`parse_paths`). C64_save_all needs different destination names and different temporary files."
  },
  {
   "property": "C65",
   "status": "proved",
   "theorems": [
    "KompareDiff2.C65_code_units",
    "KompareDiff2.C65_unified",
    "KompareDiff2.C65_context",
    "KompareDiff2.C65_normal",
    "KompareDiff2.C65_torn_defect",
    "KompareDiff2.C65_torn_difference_defect"
   ],
   "note": "The code compares characters with each other and with ASCII characters only, so the model may be run on code units: a surrogate is written as a private-use character that no encoded text contains otherwise (Spec/Utf16.lean). C65_unified/_context/_normal show that this makes no difference for well-formed diffs."
  },
  {
   "property": "C66",
   "status": "proved",
   "theorems": [
    "KompareDiff2.C66_opens_like_new",
    "KompareDiff2.C66_compares_like_new",
    "KompareDiff2.C66_refreshes_like_new",
    "KompareDiff2.C66_reads_like_new",
    "KompareDiff2.C66_session",
    "KompareDiff2.C66_edit",
    "KompareDiff2.C66_answers",
    "KompareDiff2.C66_histories",
    "KompareDiff2.C66_new_is_new",
    "KompareDiff2.C66_failed_counterexample"
   ],
   "note": "Alike (Spec/Moved.lean) is equality of the two lists after moving all differences and models by fixed offsets; two logs are compared from the point where the list was cleared. Deleted objects stay deleted in both, so also undefined behaviour occurs in both or in none."
  },
  {
   "property": "C67",
   "status": "proved",
   "theorems": [
    "KompareDiff2.C67_edit",
    "KompareDiff2.C67_edit_history",
    "KompareDiff2.C67_wrap_defect"
   ],
   "note": "Proved about Model/LinesChanged32.lean, linesChanged with checked int operations and narrowed sizes (Qt 6: sizes are 64-bit)."
  },
  {
   "property": "C68",
   "status": "proved",
   "theorems": [
    "KompareDiff2.C68_null_model_ub",
    "KompareDiff2.C68_null_difference",
    "KompareDiff2.C68_visited",
    "KompareDiff2.C68_opened",
    "KompareDiff2.C68_unvisited_defect",
    "KompareDiff2.C68_skips_first_defect"
   ],
   "note": "The claim as stated is proved, including what goes wrong: C68_null_model_ub, C68_unvisited_defect, C68_skips_first_defect."
  },
  {
   "property": "C69",
   "status": "proved",
   "theorems": [
    "KompareDiff2.C69_silent",
    "KompareDiff2.C69_silent_results",
    "KompareDiff2.C69_result",
    "KompareDiff2.C69_safe",
    "KompareDiff2.C69_actions",
    "KompareDiff2.C69_ends",
    "KompareDiff2.C69_endless",
    "KompareDiff2.C69_announced",
    "KompareDiff2.C69_opening",
    "KompareDiff2.C69_opening_fails",
    "KompareDiff2.C69_opening_file",
    "KompareDiff2.C69_opening_nofile",
    "KompareDiff2.C69_opening_defect"
   ],
   "note": "The claim as stated is proved, including what goes wrong: C69_opening_defect. C69_silent shows that the slots with receivers are the slots of the other properties when nothing is connected. Receivers connected to signals of DiffModel, receivers that open, swap or refresh while a signal is delivered, and listeners that are told after the calling receivers are not covered."
  },
  {
   "property": "C70",
   "status": "proved",
   "theorems": [
    "KompareDiff2.C70_unified_shown",
    "KompareDiff2.C70_unified_once",
    "KompareDiff2.C70_unified_exact",
    "KompareDiff2.C70_unified_stands",
    "KompareDiff2.C70_unified_lines",
    "KompareDiff2.C70_unified_parse"
   ],
   "note": "The claim as stated is proved. The order of the files is that of the sort by name (C31). Which texts are defined is C29, when malformed is set is C30. The context format is C71, the normal format C72."
  },
  {
   "property": "C71",
   "status": "proved",
   "theorems": [
    "KompareDiff2.C71_context_shown",
    "KompareDiff2.C71_context_once",
    "KompareDiff2.C71_context_exact",
    "KompareDiff2.C71_context_parse",
    "KompareDiff2.C71_context_stands",
    "KompareDiff2.C71_context_complete",
    "KompareDiff2.C71_context_lost"
   ],
   "note": "The claim as stated is proved. The order of the files is that of the sort by name (C31). Which texts are defined is C29, when malformed is set is C30. The unified format is C70."
  },
  {
   "property": "C72",
   "status": "proved",
   "theorems": [
    "KompareDiff2.C72_normal_shown",
    "KompareDiff2.C72_normal_defined",
    "KompareDiff2.C72_normal_once",
    "KompareDiff2.C72_normal_exact",
    "KompareDiff2.C72_normal_parse",
    "KompareDiff2.C72_normal_stands",
    "KompareDiff2.C72_normal_lines"
   ],
   "note": "The claim as stated is proved. The order of the files is that of the sort by name (C31). When malformed is set is C30. The unified format is C70, the context format C71."
  },
  {
   "property": "C73",
   "status": "proved",
   "theorems": [
    "KompareDiff2.C73_once",
    "KompareDiff2.C73_parse",
    "KompareDiff2.C73_exact",
    "KompareDiff2.C73_open",
    "KompareDiff2.C73_openDiff",
    "KompareDiff2.C73_open_sorted",
    "KompareDiff2.C73_compare",
    "KompareDiff2.C73_patch",
    "KompareDiff2.C73_patch_nothing"
   ],
   "note": "The claim as stated is proved. Which texts make the call undefined is C29 and C23. When a file is given and several files are shown only the first model is completed with the text of the file (C48_only_first_defect), so that case is left out of C73_compare and C73_patch."
  },
  {
   "property": "C74",
   "status": "proved",
   "theorems": [
    "KompareDiff2.C74_writable",
    "KompareDiff2.C74_reread",
    "KompareDiff2.C74_same",
    "KompareDiff2.C74_git_defect",
    "KompareDiff2.C74_session",
    "KompareDiff2.C74_git_session_defect",
    "KompareDiff2.C74_stable"
   ],
   "note": "The claim as stated is proved. 'The same files' is up to the order of files whose names the collation does not tell apart. A line longer than 65533 characters and line numbers or counts beyond int are excluded in Spec.MView.WholeLines."
  },
  {
   "property": "C75",
   "status": "proved",
   "theorems": [
    "KompareDiff2.C75_unified",
    "KompareDiff2.C75_format",
    "KompareDiff2.C75_perforce_defect",
    "KompareDiff2.C75_context_defect",
    "KompareDiff2.C75_normal_defect",
    "KompareDiff2.C75_open_defect"
   ],
   "note": "The claim as stated is proved. Lines of hunks have at most 65532 characters (the limit of C26, less one for the carriage return). Assumed of PCRE2: it is built with LF as newline (the usual default), so that a dot matches CR."
  },
  {
   "property": "C76",
   "status": "proved",
   "theorems": [
    "KompareDiff2.C76_files",
    "KompareDiff2.C76_again",
    "KompareDiff2.C76_dirs"
   ],
   "note": "The claim as stated is proved. The text of a file is taken to change only by the library's uploads (events of the log); an upload that reports success is taken to have stored the text, one that fails to have left the file alone. User actions are those of UserOp (navigation, marking, saving); opening something else ends the claim."
  },
  {
   "property": "C77",
   "status": "proved",
   "theorems": [
    "KompareDiff2.C77_contained",
    "KompareDiff2.C77_others",
    "KompareDiff2.C77_lost_defect",
    "KompareDiff2.C77_blank_defect",
    "KompareDiff2.C77_swallow_defect"
   ],
   "note": "The claim as stated is proved for unified diffs. Lines are shorter than 65535 characters (needed by the bounded matching of the regular expressions, as in C29/C30)."
  },
  {
   "property": "C78",
   "status": "proved",
   "theorems": [
    "KompareDiff2.C78_file",
    "KompareDiff2.C78_goes_on",
    "KompareDiff2.C78_writes",
    "KompareDiff2.C78_ends"
   ],
   "note": "The claim as stated is proved. A truthful answer is: exit code 0 for equal texts, otherwise a well-formed unified diff of one file whose hunks change the source text into the destination text. Source and destination are different files; while nothing is shown (the diff program runs, or the files were found identical, or were changed outside) the user is taken to do nothing but compare again."
  },
  {
   "property": "C79",
   "status": "proved",
   "theorems": [
    "KompareDiff2.C79_before",
    "KompareDiff2.C79_contained",
    "KompareDiff2.C79_lost_defect"
   ],
   "note": "The claim as stated is proved. C79_before holds for anything after the misplaced line, provided the parser returns (C29 says exactly when it does not). Misplaced lines are any lines but Perforce headers and 'no newline' remarks, the first of them is recognisable (no separator, header, star line or section line). C79_lost_defect proves what is false: a later hunk with removed lines makes the parser give up, so all later files are lost; diffs by CVS are not affected, because their headers need two tabs."
  },
  {
   "property": "C80",
   "status": "proved",
   "theorems": [
    "KompareDiff2.C80_opening",
    "KompareDiff2.C80_file",
    "KompareDiff2.C80_only_patch",
    "KompareDiff2.C80_save_all_defect",
    "KompareDiff2.C80_save_defect"
   ],
   "note": "The claim as stated is proved. C80_opening holds for any text; the others for well-formed unified patches whose hunks apply to the originals. Only uploads by this list change a file."
  },
  {
   "property": "C81",
   "status": "proved",
   "theorems": [
    "KompareDiff2.C81_file",
    "KompareDiff2.C81_dirs",
    "KompareDiff2.C81_frame",
    "KompareDiff2.C81_deep_defect",
    "KompareDiff2.C81_all",
    "KompareDiff2.C81_compared"
   ],
   "note": "The claim as stated is proved. What KIO::stat, KIO::mkdir and KIO::file_copy do is the model of Model/Tree.lean (copying replaces the file at once or fails; crashes in between are C63); the temporary file can be written (the other case is C36)."
  },
  {
   "property": "C82",
   "status": "proved",
   "theorems": [
    "KompareDiff2.C82_files",
    "KompareDiff2.C82_goes_on",
    "KompareDiff2.C82_writes",
    "KompareDiff2.C82_ends",
    "KompareDiff2.C82_reach"
   ],
   "note": "The claim as stated is proved. The diff program answers truthfully (DirAnswers: a well-formed unified diff whose hunks patch each file, or exit code 0 if nothing differs); files are those below the directories by the rest of their names, a missing file counting as empty; C82_ends and C82_reach: saving does not fail. A source file that is missing is read as empty, see C76."
  },
  {
   "property": "C83",
   "status": "proved",
   "theorems": [
    "KompareDiff2.C83_safe",
    "KompareDiff2.C83_saved",
    "KompareDiff2.C83_session",
    "KompareDiff2.C83_errors",
    "KompareDiff2.C83_ends",
    "KompareDiff2.C83_failed_defect",
    "KompareDiff2.C83_identical_defect",
    "KompareDiff2.C83_refresh_defect",
    "KompareDiff2.C83_refresh",
    "KompareDiff2.C83_start_defect",
    "KompareDiff2.C83_early_save_defect"
   ],
   "note": "The claim as stated is proved. Receivers wait until there is something to select (Receivers.Waits), as in C69; those that start another process while status(Parsing) is delivered are not covered, as the output is taken to be the one of the process that ended. In C83_refresh_defect the deletion of the old process object during its own signal is taken to be harmless; what is shown is only what then becomes of the new one."
  },
  {
   "property": "C84",
   "status": "proved",
   "theorems": [
    "KompareDiff2.C84_safe",
    "KompareDiff2.C84_fails",
    "KompareDiff2.C84_saved",
    "KompareDiff2.C84_session",
    "KompareDiff2.C84_ends",
    "KompareDiff2.C84_failed_defect"
   ],
   "note": "The claim as stated is proved. Receivers wait until there is something to select (Receivers.Waits), as in C69; they do not open or compare anything themselves."
  },
  {
   "property": "C85",
   "status": "proved",
   "theorems": [
    "KompareDiff2.C85_others",
    "KompareDiff2.C85_idle",
    "KompareDiff2.C85_running_defect",
    "KompareDiff2.C85_refines",
    "KompareDiff2.C85_one_at_a_time",
    "KompareDiff2.C85_over",
    "KompareDiff2.C85_told",
    "KompareDiff2.C85_untold_defect",
    "KompareDiff2.C85_misled_defect",
    "KompareDiff2.C85_failed_start_defect",
    "KompareDiff2.C85_started",
    "KompareDiff2.C85_close",
    "KompareDiff2.C85_close_defect"
   ],
   "note": "The claim as stated is proved. That destroying a running QProcess kills the program, waits, and emits finished on the way is assumed of Qt (QProcess::~QProcess calls waitForFinished)."
  }
 ]
}