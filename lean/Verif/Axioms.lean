import Verif.Props.Announce
import Verif.Props.AnyEdit
import Verif.Props.AnyOrder
import Verif.Props.AnyRange
import Verif.Props.AnyText
import Verif.Props.Blend
import Verif.Props.Compare
import Verif.Props.Context
import Verif.Props.Damage
import Verif.Props.DamageContext
import Verif.Props.Difference
import Verif.Props.DirSitting
import Verif.Props.Disk
import Verif.Props.Dos
import Verif.Props.Edit
import Verif.Props.EditRange
import Verif.Props.Encoding
import Verif.Props.EndToEnd
import Verif.Props.Info
import Verif.Props.InlineMarks
import Verif.Props.Levenshtein
import Verif.Props.Lifetime
import Verif.Props.LinesChanged
import Verif.Props.Location
import Verif.Props.ModelList
import Verif.Props.Moved
import Verif.Props.Names
import Verif.Props.Nested
import Verif.Props.Normal
import Verif.Props.NormalFlag
import Verif.Props.NullSelection
import Verif.Props.OnDisk
import Verif.Props.Overflow
import Verif.Props.Overlay
import Verif.Props.Own
import Verif.Props.Parser
import Verif.Props.ParserSound
import Verif.Props.PatchFile
import Verif.Props.Perforce
import Verif.Props.Process
import Verif.Props.ProcessLife
import Verif.Props.Recreate
import Verif.Props.RecreateDefects
import Verif.Props.Reentrant
import Verif.Props.ReentrantCompare
import Verif.Props.ReentrantPatch
import Verif.Props.Reprint
import Verif.Props.SaveAll
import Verif.Props.Shown
import Verif.Props.ShownContext
import Verif.Props.ShownNormal
import Verif.Props.Sitting
import Verif.Props.Sorting
import Verif.Props.Tracked
import Verif.Props.Tree
import Verif.Props.Utf16
import Verif.Props.Within
import Verif.Props.WriteBack
/-
The axioms of every property theorem (generated by tools/manifest.py).
-/
#print axioms KompareDiff2.C01_inline_distance_exact
#print axioms KompareDiff2.C02_line_distance_exact
#print axioms KompareDiff2.C03_line_markers_wellformed
#print axioms KompareDiff2.C04_line_markers_shortest
#print axioms KompareDiff2.C05_inline_markers_isolate_changes
#print axioms KompareDiff2.C06_table_memory
#print axioms KompareDiff2.C06_table_ub_iff
#print axioms KompareDiff2.C06_wraparound_counterexample
#print axioms KompareDiff2.C07_string_equality
#print axioms KompareDiff2.C07_default_defect
#print axioms KompareDiff2.C08_unsaved_iff
#print axioms KompareDiff2.C08_apply_effect
#print axioms KompareDiff2.C09_parsed
#print axioms KompareDiff2.C09_applied_count
#print axioms KompareDiff2.C10_parsed
#print axioms KompareDiff2.C10_any_order
#print axioms KompareDiff2.C10_apply_all
#print axioms KompareDiff2.C10_tracking
#print axioms KompareDiff2.C10_unified_fresh
#print axioms KompareDiff2.C10_unified
#print axioms KompareDiff2.C11_any_order
#print axioms KompareDiff2.C11_unordered_counterexample
#print axioms KompareDiff2.C11_order_independent
#print axioms KompareDiff2.C11_reversible
#print axioms KompareDiff2.C12_parsed
#print axioms KompareDiff2.C12_unsaved
#print axioms KompareDiff2.C13_selection_at_index
#print axioms KompareDiff2.C13_next_prev
#print axioms KompareDiff2.C13_first_last
#print axioms KompareDiff2.C13_select
#print axioms KompareDiff2.C14_split_new
#print axioms KompareDiff2.C14_set_with_slash
#print axioms KompareDiff2.C14_stale_directory_defect
#print axioms KompareDiff2.C15_edit_consistent
#print axioms KompareDiff2.C15_oversize_defect
#print axioms KompareDiff2.C15_unfair_counterexample
#print axioms KompareDiff2.C16_edit_history
#print axioms KompareDiff2.C16_edit_history_texts
#print axioms KompareDiff2.C16_empty_start
#print axioms KompareDiff2.C17_inserted_any_model
#print axioms KompareDiff2.C17_report_frame
#print axioms KompareDiff2.C17_report_contents
#print axioms KompareDiff2.C18_minimal
#print axioms KompareDiff2.C19_hunk_header_counts
#print axioms KompareDiff2.C19_reported_counts
#print axioms KompareDiff2.C20_reread
#print axioms KompareDiff2.C20_round_trip
#print axioms KompareDiff2.C20_list
#print axioms KompareDiff2.C20_parse_recreate_parse
#print axioms KompareDiff2.C20_text_reproduced
#print axioms KompareDiff2.C20_timestamps_defect
#print axioms KompareDiff2.C20_timestamp_defect
#print axioms KompareDiff2.C20_revision_defect
#print axioms KompareDiff2.C20_empty_side_defect
#print axioms KompareDiff2.C20_no_newline_defect
#print axioms KompareDiff2.C21_unescape_escape
#print axioms KompareDiff2.C21_space_only_in_quotes
#print axioms KompareDiff2.C22_split
#print axioms KompareDiff2.C22_split_lines
#print axioms KompareDiff2.C23_every_list
#print axioms KompareDiff2.C23_clean
#print axioms KompareDiff2.C23_leading_remark_ub
#print axioms KompareDiff2.C23_clean_plain
#print axioms KompareDiff2.C24_generator
#print axioms KompareDiff2.C25_format
#print axioms KompareDiff2.C25_shows_unique
#print axioms KompareDiff2.C25_first_line
#print axioms KompareDiff2.C25_unsupported
#print axioms KompareDiff2.C26_unified
#print axioms KompareDiff2.C26_unified_single
#print axioms KompareDiff2.C27_unified_sound
#print axioms KompareDiff2.C27_context_sound
#print axioms KompareDiff2.C27_normal_sound
#print axioms KompareDiff2.C27_parse_sound
#print axioms KompareDiff2.C28_parser_terminates
#print axioms KompareDiff2.C29_every_input_has_a_reading
#print axioms KompareDiff2.C29_unified_ub_iff
#print axioms KompareDiff2.C29_context_ub_iff
#print axioms KompareDiff2.C29_other_formats_defined
#print axioms KompareDiff2.C29_unified_defined
#print axioms KompareDiff2.C29_text_defined
#print axioms KompareDiff2.C29_truncated_header_ub
#print axioms KompareDiff2.C29_context_truncated_ub
#print axioms KompareDiff2.C30_normal_rest
#print axioms KompareDiff2.C30_normal_malformed_iff
#print axioms KompareDiff2.C30_normal_header_defect
#print axioms KompareDiff2.C30_perforce_normal_malformed_iff
#print axioms KompareDiff2.C30_perforce_normal_reading
#print axioms KompareDiff2.C30_unified_malformed_iff
#print axioms KompareDiff2.C30_context_malformed_iff
#print axioms KompareDiff2.C30_truncated_hunk_not_flagged
#print axioms KompareDiff2.C30_broken_header_not_flagged
#print axioms KompareDiff2.C31_sorted
#print axioms KompareDiff2.C31_parse_sorted
#print axioms KompareDiff2.C31_strict_weak
#print axioms KompareDiff2.C31_any_sort
#print axioms KompareDiff2.C31_only_sort
#print axioms KompareDiff2.C32_normal
#print axioms KompareDiff2.C32_several_files_defect
#print axioms KompareDiff2.C32_option_defect
#print axioms KompareDiff2.C32_insert_position_defect
#print axioms KompareDiff2.C32_no_newline_defect
#print axioms KompareDiff2.C32_cvs_defect
#print axioms KompareDiff2.C33_context
#print axioms KompareDiff2.C33_context_single
#print axioms KompareDiff2.C33_cvs_stamp_defect
#print axioms KompareDiff2.C33_one_line_defect
#print axioms KompareDiff2.C33_no_newline_defect
#print axioms KompareDiff2.C34_blend
#print axioms KompareDiff2.C34_frame
#print axioms KompareDiff2.C34_unchecked_defect
#print axioms KompareDiff2.C35_saved
#print axioms KompareDiff2.C35_apply_all
#print axioms KompareDiff2.C35_edits_not_saved
#print axioms KompareDiff2.C36_save
#print axioms KompareDiff2.C36_target_dirs
#print axioms KompareDiff2.C36_target_defect
#print axioms KompareDiff2.C36_slot_defect
#print axioms KompareDiff2.C36_saveAll
#print axioms KompareDiff2.C36_saveAll_empty
#print axioms KompareDiff2.C36_saveAll_any
#print axioms KompareDiff2.C36_saveAll_upload_defect
#print axioms KompareDiff2.C37_selection_valid
#print axioms KompareDiff2.C37_foreign_model_defect
#print axioms KompareDiff2.C38_position
#print axioms KompareDiff2.C38_next
#print axioms KompareDiff2.C38_previous
#print axioms KompareDiff2.C38_next_times
#print axioms KompareDiff2.C38_previous_times
#print axioms KompareDiff2.C38_all_visited
#print axioms KompareDiff2.C38_next_previous
#print axioms KompareDiff2.C38_files
#print axioms KompareDiff2.C39_navigation
#print axioms KompareDiff2.C39_writing
#print axioms KompareDiff2.C39_opened
#print axioms KompareDiff2.C39_readWrite
#print axioms KompareDiff2.C39_closed
#print axioms KompareDiff2.C39_slot_stale_defect
#print axioms KompareDiff2.C40_failed_open
#print axioms KompareDiff2.C40_navigation_ub
#print axioms KompareDiff2.C40_enabled_ub
#print axioms KompareDiff2.C40_never_selected
#print axioms KompareDiff2.C40_pending
#print axioms KompareDiff2.C40_dangling_ub
#print axioms KompareDiff2.C41_roles
#print axioms KompareDiff2.C41_compare
#print axioms KompareDiff2.C41_comparing_total
#print axioms KompareDiff2.C41_blending_total
#print axioms KompareDiff2.C41_swap
#print axioms KompareDiff2.C41_swap_defect
#print axioms KompareDiff2.C41_refresh
#print axioms KompareDiff2.C41_refresh_defect
#print axioms KompareDiff2.C41_no_info_ub
#print axioms KompareDiff2.C42_swap
#print axioms KompareDiff2.C42_swap_involutive
#print axioms KompareDiff2.C43_strip_one
#print axioms KompareDiff2.C43_depth_defect
#print axioms KompareDiff2.C43_zero_defect
#print axioms KompareDiff2.C43_intended_refuted
#print axioms KompareDiff2.C43_patch_names
#print axioms KompareDiff2.C43_compare_names
#print axioms KompareDiff2.C44_load_save
#print axioms KompareDiff2.C44_save_frame
#print axioms KompareDiff2.C44_save_all
#print axioms KompareDiff2.C44_defaults
#print axioms KompareDiff2.C45_command_line
#print axioms KompareDiff2.C45_operands
#print axioms KompareDiff2.C45_default
#print axioms KompareDiff2.C45_new_settings
#print axioms KompareDiff2.C45_null_settings_ub
#print axioms KompareDiff2.C46_success
#print axioms KompareDiff2.C46_events
#print axioms KompareDiff2.C46_total
#print axioms KompareDiff2.C46_error_defect
#print axioms KompareDiff2.C47_edit_invisible
#print axioms KompareDiff2.C47_counter_drift_defect
#print axioms KompareDiff2.C47_unconnected_defect
#print axioms KompareDiff2.C48_compare
#print axioms KompareDiff2.C48_patch
#print axioms KompareDiff2.C48_only_first_defect
#print axioms KompareDiff2.C49_difference
#print axioms KompareDiff2.C49_parsed
#print axioms KompareDiff2.C49_normal_unmarked_defect
#print axioms KompareDiff2.C49_edited
#print axioms KompareDiff2.C49_again
#print axioms KompareDiff2.C50_perforce
#print axioms KompareDiff2.C50_local_name_defect
#print axioms KompareDiff2.C50_diff2_defect
#print axioms KompareDiff2.C50_separator_defect
#print axioms KompareDiff2.C50_each_file
#print axioms KompareDiff2.C51_selects
#print axioms KompareDiff2.C51_others
#print axioms KompareDiff2.C51_opened
#print axioms KompareDiff2.C51_opened_count
#print axioms KompareDiff2.C51_announced
#print axioms KompareDiff2.C51_next
#print axioms KompareDiff2.C51_applied_defect
#print axioms KompareDiff2.C51_apply_all_defect
#print axioms KompareDiff2.C51_foreign_difference_defect
#print axioms KompareDiff2.C52_pending
#print axioms KompareDiff2.C52_written
#print axioms KompareDiff2.C52_save_reported
#print axioms KompareDiff2.C52_failed_save_ub
#print axioms KompareDiff2.C52_saving
#print axioms KompareDiff2.C52_silent_defect
#print axioms KompareDiff2.C52_stale_result_defect
#print axioms KompareDiff2.C53_name
#print axioms KompareDiff2.C53_saveDiff
#print axioms KompareDiff2.C53_slash_defect
#print axioms KompareDiff2.C53_relative_defect
#print axioms KompareDiff2.C53_remote
#print axioms KompareDiff2.C54_never_twice
#print axioms KompareDiff2.C54_destroyed
#print axioms KompareDiff2.C54_pointers_valid
#print axioms KompareDiff2.C54_leak_defect
#print axioms KompareDiff2.C54_assign
#print axioms KompareDiff2.C54_assign_defect
#print axioms KompareDiff2.C54_list_copy_defect
#print axioms KompareDiff2.C55_read
#print axioms KompareDiff2.C55_process
#print axioms KompareDiff2.C55_utf8
#print axioms KompareDiff2.C55_utf8_file
#print axioms KompareDiff2.C55_stdin
#print axioms KompareDiff2.C55_bom_defect
#print axioms KompareDiff2.C55_latin1_defect
#print axioms KompareDiff2.C55_compare
#print axioms KompareDiff2.C55_compare_utf8
#print axioms KompareDiff2.C55_saved_diff
#print axioms KompareDiff2.C56_atomic
#print axioms KompareDiff2.C56_upload
#print axioms KompareDiff2.C56_one_at_a_time
#print axioms KompareDiff2.C56_save_all
#print axioms KompareDiff2.C56_defect
#print axioms KompareDiff2.C56_slot
#print axioms KompareDiff2.C57_compare
#print axioms KompareDiff2.C57_agrees
#print axioms KompareDiff2.C57_patch
#print axioms KompareDiff2.C57_context_defect
#print axioms KompareDiff2.C57_normal_defect
#print axioms KompareDiff2.C57_insert_defect
#print axioms KompareDiff2.C58_safe
#print axioms KompareDiff2.C58_never_saved_defect
#print axioms KompareDiff2.C58_lost_edit_defect
#print axioms KompareDiff2.C58_selection
#print axioms KompareDiff2.C58_next
#print axioms KompareDiff2.C58_next_before
#print axioms KompareDiff2.C58_next_stuck_defect
#print axioms KompareDiff2.C58_next_shifted_defect
#print axioms KompareDiff2.C58_insert_line_defect
#print axioms KompareDiff2.C58_emptied
#print axioms KompareDiff2.C58_emptied_ub
#print axioms KompareDiff2.C58_reselect
#print axioms KompareDiff2.C58_reselect_defect
#print axioms KompareDiff2.C59_safe
#print axioms KompareDiff2.C59_destroys
#print axioms KompareDiff2.C59_effect
#print axioms KompareDiff2.C59_frame
#print axioms KompareDiff2.C59_shared_ub
#print axioms KompareDiff2.C59_copy_ub
#print axioms KompareDiff2.C59_copy_alias_defect
#print axioms KompareDiff2.C59_line_ub
#print axioms KompareDiff2.C59_twice_ub
#print axioms KompareDiff2.C59_hunk_leak_defect
#print axioms KompareDiff2.C59_replaced_leak_defect
#print axioms KompareDiff2.C60_stable
#print axioms KompareDiff2.C60_compare
#print axioms KompareDiff2.C60_text
#print axioms KompareDiff2.C60_file
#print axioms KompareDiff2.C60_patch
#print axioms KompareDiff2.C60_session
#print axioms KompareDiff2.C60_reread
#print axioms KompareDiff2.C60_exact
#print axioms KompareDiff2.C60_patch_defect
#print axioms KompareDiff2.C60_normal_defect
#print axioms KompareDiff2.C60_context_defect
#print axioms KompareDiff2.C61_any_order
#print axioms KompareDiff2.C61_drift_defect
#print axioms KompareDiff2.C61_same_or_undefined
#print axioms KompareDiff2.C61_no_overflow
#print axioms KompareDiff2.C61_normal
#print axioms KompareDiff2.C61_in_range
#print axioms KompareDiff2.C61_unified_fits
#print axioms KompareDiff2.C61_unified_ub
#print axioms KompareDiff2.C61_context_fits
#print axioms KompareDiff2.C61_context_ub
#print axioms KompareDiff2.C61_tracking
#print axioms KompareDiff2.C61_unified
#print axioms KompareDiff2.C61_normal_end_defect
#print axioms KompareDiff2.C62_same_or_undefined
#print axioms KompareDiff2.C62_within
#print axioms KompareDiff2.C62_beyond_ub
#print axioms KompareDiff2.C62_patched
#print axioms KompareDiff2.C62_unified
#print axioms KompareDiff2.C63_crash
#print axioms KompareDiff2.C63_ended
#print axioms KompareDiff2.C63_all_crash
#print axioms KompareDiff2.C63_same_target_defect
#print axioms KompareDiff2.C63_diff
#print axioms KompareDiff2.C63_diff_lost_defect
#print axioms KompareDiff2.C63_diff_truncated_defect
#print axioms KompareDiff2.C64_names
#print axioms KompareDiff2.C64_target
#print axioms KompareDiff2.C64_save_all
#print axioms KompareDiff2.C64_stripped_defect
#print axioms KompareDiff2.C65_code_units
#print axioms KompareDiff2.C65_unified
#print axioms KompareDiff2.C65_context
#print axioms KompareDiff2.C65_normal
#print axioms KompareDiff2.C65_torn_defect
#print axioms KompareDiff2.C65_torn_difference_defect
#print axioms KompareDiff2.C66_opens_like_new
#print axioms KompareDiff2.C66_compares_like_new
#print axioms KompareDiff2.C66_refreshes_like_new
#print axioms KompareDiff2.C66_reads_like_new
#print axioms KompareDiff2.C66_session
#print axioms KompareDiff2.C66_edit
#print axioms KompareDiff2.C66_answers
#print axioms KompareDiff2.C66_histories
#print axioms KompareDiff2.C66_new_is_new
#print axioms KompareDiff2.C66_failed_counterexample
#print axioms KompareDiff2.C67_edit
#print axioms KompareDiff2.C67_edit_history
#print axioms KompareDiff2.C67_wrap_defect
#print axioms KompareDiff2.C68_null_model_ub
#print axioms KompareDiff2.C68_null_difference
#print axioms KompareDiff2.C68_visited
#print axioms KompareDiff2.C68_opened
#print axioms KompareDiff2.C68_unvisited_defect
#print axioms KompareDiff2.C68_skips_first_defect
#print axioms KompareDiff2.C69_silent
#print axioms KompareDiff2.C69_silent_results
#print axioms KompareDiff2.C69_result
#print axioms KompareDiff2.C69_safe
#print axioms KompareDiff2.C69_actions
#print axioms KompareDiff2.C69_ends
#print axioms KompareDiff2.C69_endless
#print axioms KompareDiff2.C69_announced
#print axioms KompareDiff2.C69_opening
#print axioms KompareDiff2.C69_opening_fails
#print axioms KompareDiff2.C69_opening_file
#print axioms KompareDiff2.C69_opening_nofile
#print axioms KompareDiff2.C69_opening_defect
#print axioms KompareDiff2.C70_unified_shown
#print axioms KompareDiff2.C70_unified_once
#print axioms KompareDiff2.C70_unified_exact
#print axioms KompareDiff2.C70_unified_stands
#print axioms KompareDiff2.C70_unified_lines
#print axioms KompareDiff2.C70_unified_parse
#print axioms KompareDiff2.C71_context_shown
#print axioms KompareDiff2.C71_context_once
#print axioms KompareDiff2.C71_context_exact
#print axioms KompareDiff2.C71_context_parse
#print axioms KompareDiff2.C71_context_stands
#print axioms KompareDiff2.C71_context_complete
#print axioms KompareDiff2.C71_context_lost
#print axioms KompareDiff2.C72_normal_shown
#print axioms KompareDiff2.C72_normal_defined
#print axioms KompareDiff2.C72_normal_once
#print axioms KompareDiff2.C72_normal_exact
#print axioms KompareDiff2.C72_normal_parse
#print axioms KompareDiff2.C72_normal_stands
#print axioms KompareDiff2.C72_normal_lines
#print axioms KompareDiff2.C73_once
#print axioms KompareDiff2.C73_parse
#print axioms KompareDiff2.C73_exact
#print axioms KompareDiff2.C73_open
#print axioms KompareDiff2.C73_openDiff
#print axioms KompareDiff2.C73_open_sorted
#print axioms KompareDiff2.C73_compare
#print axioms KompareDiff2.C73_patch
#print axioms KompareDiff2.C73_patch_nothing
#print axioms KompareDiff2.C74_writable
#print axioms KompareDiff2.C74_reread
#print axioms KompareDiff2.C74_same
#print axioms KompareDiff2.C74_git_defect
#print axioms KompareDiff2.C74_session
#print axioms KompareDiff2.C74_git_session_defect
#print axioms KompareDiff2.C74_stable
#print axioms KompareDiff2.C75_unified
#print axioms KompareDiff2.C75_format
#print axioms KompareDiff2.C75_perforce_defect
#print axioms KompareDiff2.C75_context_defect
#print axioms KompareDiff2.C75_normal_defect
#print axioms KompareDiff2.C75_open_defect
#print axioms KompareDiff2.C76_files
#print axioms KompareDiff2.C76_again
#print axioms KompareDiff2.C76_dirs
#print axioms KompareDiff2.C77_contained
#print axioms KompareDiff2.C77_others
#print axioms KompareDiff2.C77_lost_defect
#print axioms KompareDiff2.C77_blank_defect
#print axioms KompareDiff2.C77_swallow_defect
#print axioms KompareDiff2.C78_file
#print axioms KompareDiff2.C78_goes_on
#print axioms KompareDiff2.C78_writes
#print axioms KompareDiff2.C78_ends
#print axioms KompareDiff2.C79_before
#print axioms KompareDiff2.C79_contained
#print axioms KompareDiff2.C79_lost_defect
#print axioms KompareDiff2.C80_opening
#print axioms KompareDiff2.C80_file
#print axioms KompareDiff2.C80_only_patch
#print axioms KompareDiff2.C80_save_all_defect
#print axioms KompareDiff2.C80_save_defect
#print axioms KompareDiff2.C81_file
#print axioms KompareDiff2.C81_dirs
#print axioms KompareDiff2.C81_frame
#print axioms KompareDiff2.C81_deep_defect
#print axioms KompareDiff2.C81_all
#print axioms KompareDiff2.C81_compared
#print axioms KompareDiff2.C82_files
#print axioms KompareDiff2.C82_goes_on
#print axioms KompareDiff2.C82_writes
#print axioms KompareDiff2.C82_ends
#print axioms KompareDiff2.C82_reach
#print axioms KompareDiff2.C83_safe
#print axioms KompareDiff2.C83_saved
#print axioms KompareDiff2.C83_session
#print axioms KompareDiff2.C83_errors
#print axioms KompareDiff2.C83_ends
#print axioms KompareDiff2.C83_failed_defect
#print axioms KompareDiff2.C83_identical_defect
#print axioms KompareDiff2.C83_refresh_defect
#print axioms KompareDiff2.C83_refresh
#print axioms KompareDiff2.C83_start_defect
#print axioms KompareDiff2.C83_early_save_defect
#print axioms KompareDiff2.C84_safe
#print axioms KompareDiff2.C84_fails
#print axioms KompareDiff2.C84_saved
#print axioms KompareDiff2.C84_session
#print axioms KompareDiff2.C84_ends
#print axioms KompareDiff2.C84_failed_defect
#print axioms KompareDiff2.C85_others
#print axioms KompareDiff2.C85_idle
#print axioms KompareDiff2.C85_running_defect
#print axioms KompareDiff2.C85_refines
#print axioms KompareDiff2.C85_one_at_a_time
#print axioms KompareDiff2.C85_over
#print axioms KompareDiff2.C85_told
#print axioms KompareDiff2.C85_untold_defect
#print axioms KompareDiff2.C85_misled_defect
#print axioms KompareDiff2.C85_failed_start_defect
#print axioms KompareDiff2.C85_started
#print axioms KompareDiff2.C85_close
#print axioms KompareDiff2.C85_close_defect
