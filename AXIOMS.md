# Axioms of the theorems

Generated by `tools/axioms.py` from `#print axioms`.

| property | theorem | axioms |
|---|---|---|
| C01 | `Verif.Props.C01_read_terminates` | propext, Classical.choice, Quot.sound |
| C03 | `Verif.Props.C03_keys_unique` | propext, Quot.sound |
| C04 | `Verif.Props.C04_sorted` | propext, Classical.choice, Quot.sound |
| C05 | `Verif.Props.C05_strict_conservative` | propext, Classical.choice, Quot.sound |
| C08 | `Verif.Props.C08_suffix_ignored` | propext, Classical.choice, Quot.sound |
| C02 | `Verif.Props.C02_documents_are_read` | propext, Classical.choice, Quot.sound |
| C06 | `Verif.Props.C06_duplicate_keys` | propext, Classical.choice, Quot.sound |
| C07 | `Verif.Props.C07_integers_exact` | propext, Classical.choice, Quot.sound |
| C09 | `Verif.Props.C09_truncation_rejected` | propext, Classical.choice, Quot.sound |
| C10 | `Verif.Props.C10_no_crash_false` | propext |
| C10 | `Verif.Props.C10_no_crash_partial` | propext, Classical.choice, Quot.sound |
| C10 | `Verif.Props.C10_exactly_partial` | propext, Classical.choice, Quot.sound |
| C11 | `Verif.Props.C11_string_value` | propext, Classical.choice, Quot.sound |
| C12 | `Verif.Props.C12_unicode_escapes` | propext, Classical.choice, Quot.sound |
| C13 | `Verif.Props.C13_ascii_keeps_unicode` | propext, Classical.choice, Quot.sound |
| C14 | `Verif.Props.C14_strings_distinct_false` | propext, Classical.choice, Quot.sound |
| C14 | `Verif.Props.C14_strings_distinct_partial` | propext, Classical.choice, Quot.sound |
| C14 | `Verif.Props.C14_exactly_partial` | propext, Classical.choice, Quot.sound |
| C15 | `Verif.Props.C15_literals` | propext, Classical.choice, Quot.sound |
| C58 | `Verif.Props.C58_unknown_escapes` | propext, Classical.choice, Quot.sound |
| C16 | `Verif.Props.C16_bounded_list_false` | none |
| C16 | `Verif.Props.C16_bounded_list_partial` | propext, Classical.choice, Quot.sound |
| C16 | `Verif.Props.C16_context_partial` | propext, Classical.choice, Quot.sound |
| C16 | `Verif.Props.C16_exactly_partial` | propext, Classical.choice, Quot.sound |
| C17 | `Verif.Props.C17_line_false` | propext |
| C17 | `Verif.Props.C17_line_partial` | propext, Classical.choice, Quot.sound |
| C17 | `Verif.Props.C17_exactly_partial` | propext, Classical.choice, Quot.sound |
| C18 | `Verif.Props.C18_column_false` | propext, Quot.sound |
| C18 | `Verif.Props.C18_column_partial` | propext, Classical.choice, Quot.sound |
| C18 | `Verif.Props.C16_exactly_partial` | propext, Classical.choice, Quot.sound |
| C19 | `Verif.Props.C19_display_false` | propext |
| C19 | `Verif.Props.C19_display_partial` | propext, Classical.choice, Quot.sound |
| C19 | `Verif.Props.C19_exactly_partial` | propext, Classical.choice, Quot.sound |
| C20 | `Verif.Props.C20_history_bounds_false` | propext |
| C20 | `Verif.Props.C20_history_bounds_partial` | propext, Classical.choice, Quot.sound |
| C20 | `Verif.Props.C20_exactly_partial` | propext, Classical.choice, Quot.sound |
| C21 | `Verif.Props.C21_round_trip_false` | propext, Quot.sound |
| C21 | `Verif.Props.C21_round_trip_partial` | propext, Classical.choice, Quot.sound |
| C22 | `Verif.Props.C22_compress_removes_layout` | propext, Classical.choice, Quot.sound |
| C23 | `Verif.Props.C23_layout_false` | propext, Quot.sound |
| C23 | `Verif.Props.C23_layout_partial` | propext, Quot.sound |
| C23 | `Verif.Props.C23_exactly_partial` | propext, Quot.sound |
| C24 | `Verif.Props.C24_edit_distance` | propext, Quot.sound |
| C25 | `Verif.Props.C25_metric` | propext, Classical.choice, Quot.sound |
| C26 | `Verif.Props.C26_percent_false` | propext, Classical.choice, Quot.sound |
| C26 | `Verif.Props.C26_percent_partial` | propext, Classical.choice, Quot.sound |
| C27 | `Verif.Props.C27_self_false` | propext, Quot.sound |
| C27 | `Verif.Props.C27_self_partial` | propext, Classical.choice, Quot.sound |
| C27 | `Verif.Props.C27_exactly_partial` | propext, Classical.choice, Quot.sound |
| C28 | `Verif.Props.C28_no_crash_false` | propext, Quot.sound |
| C28 | `Verif.Props.C28_no_crash_partial` | propext, Classical.choice, Quot.sound |
| C28 | `Verif.Props.C28_exactly_partial` | propext, Classical.choice, Quot.sound |
| C29 | `Verif.Props.C29_optimal` | propext, Classical.choice, Quot.sound |
| C30 | `Verif.Props.C30_tree_matching` | propext, Classical.choice, Quot.sound |
| C31 | `Verif.Props.C31_equal_false` | propext, Quot.sound |
| C31 | `Verif.Props.C31_equal_partial` | propext, Classical.choice, Quot.sound |
| C59 | `Verif.Props.C59_standard_output_false` | propext, Quot.sound |
| C59 | `Verif.Props.C59_standard_output_partial` | propext, Classical.choice, Quot.sound |
| C32 | `Verif.Props.C32_contains_false` | propext, Classical.choice, Quot.sound |
| C32 | `Verif.Props.C32_contains_partial` | propext, Classical.choice, Quot.sound |
| C33 | `Verif.Props.C33_words_false` | propext, Quot.sound |
| C33 | `Verif.Props.C33_words_partial` | propext, Classical.choice, Quot.sound |
| C34 | `Verif.Props.C34_line_false` | propext, Quot.sound |
| C34 | `Verif.Props.C34_line_partial` | propext, Classical.choice, Quot.sound |
| C34 | `Verif.Props.C34_line_complete` | propext, Classical.choice, Quot.sound |
| C55 | `Verif.Props.C55_unicode_false` | propext |
| C55 | `Verif.Props.C55_unicode_partial` | propext, Classical.choice, Quot.sound |
| C55 | `Verif.Props.C55_exactly_partial` | propext, Classical.choice, Quot.sound |
| C60 | `Verif.Props.C60_prompt_false` | propext, Quot.sound |
| C60 | `Verif.Props.C60_prompt_partial` | propext, Quot.sound |
| C60 | `Verif.Props.C60_exactly_partial` | propext, Classical.choice, Quot.sound |
| C35 | `Verif.Props.C35_results_false` | propext, Quot.sound |
| C35 | `Verif.Props.C35_results_partial` | propext, Quot.sound |
| C36 | `Verif.Props.C36_next_result` | propext, Classical.choice, Quot.sound |
| C36 | `Verif.Props.C36_cycle` | propext, Classical.choice, Quot.sound |
| C37 | `Verif.Props.C37_revealed` | propext, Quot.sound |
| C43 | `Verif.Props.C43_next_false` | propext, Quot.sound |
| C43 | `Verif.Props.C43_next_partial` | propext, Classical.choice, Quot.sound |
| C43 | `Verif.Props.C43_exactly_partial` | propext, Classical.choice, Quot.sound |
| C38 | `Verif.Props.C38_selection_false` | propext, Quot.sound |
| C38 | `Verif.Props.C38_selection_partial` | propext, Classical.choice, Quot.sound |
| C38 | `Verif.Props.C38_exactly_partial` | propext, Classical.choice, Quot.sound |
| C39 | `Verif.Props.C39_drawing_ends` | propext, Classical.choice, Quot.sound |
| C39 | `Verif.Props.C39_every_input_ends` | propext, Classical.choice, Quot.sound |
| C40 | `Verif.Props.C40_selected_line_on_screen` | propext, Classical.choice, Quot.sound |
| C41 | `Verif.Props.C41_up_down` | propext, Classical.choice, Quot.sound |
| C42 | `Verif.Props.C42_collapse_expand` | propext, Classical.choice, Quot.sound |
| C62 | `Verif.Props.C62_screen_is_window` | propext, Classical.choice, Quot.sound |
| C62 | `Verif.Props.C62_no_overlap` | propext, Quot.sound |
| C62 | `Verif.Props.C62_one_line_each` | propext, Classical.choice, Quot.sound |
| C63 | `Verif.Props.C63_down_false` | propext, Quot.sound |
| C63 | `Verif.Props.C63_down_partial` | propext, Classical.choice, Quot.sound |
| C63 | `Verif.Props.C63_exactly_partial` | propext, Classical.choice, Quot.sound |
| C64 | `Verif.Props.C64_right_false` | propext, Quot.sound |
| C64 | `Verif.Props.C64_right_partial` | propext, Classical.choice, Quot.sound |
| C64 | `Verif.Props.C64_exactly_partial` | propext, Classical.choice, Quot.sound |
| C56 | `Verif.Props.C56_flags` | propext, Quot.sound |
| C57 | `Verif.Props.C57_ceiling_false` | none |
| C57 | `Verif.Props.C57_ceiling_partial` | propext, Classical.choice, Quot.sound |
| C57 | `Verif.Props.C57_model_partial` | propext, Classical.choice, Quot.sound |
| C61 | `Verif.Props.C61_measure_false` | propext, Quot.sound |
| C61 | `Verif.Props.C61_measure_partial` | propext, Quot.sound |
| C61 | `Verif.Props.C61_overflow_bound_partial` | propext, Quot.sound |
| C46 | `Verif.Props.C46_options_false` | propext |
| C46 | `Verif.Props.C46_options_partial` | propext, Classical.choice, Quot.sound |
| C47 | `Verif.Props.C47_text` | propext, Classical.choice, Quot.sound |
| C48 | `Verif.Props.C48_command` | propext, Classical.choice, Quot.sound |
| C49 | `Verif.Props.C49_inputs_false` | propext |
| C49 | `Verif.Props.C49_inputs_partial` | propext, Classical.choice, Quot.sound |
| C50 | `Verif.Props.C50_fifo_map` | propext, Quot.sound |
| C51 | `Verif.Props.C51_arguments` | propext, Quot.sound |
| C52 | `Verif.Props.C52_temporary_files_false` | propext, Quot.sound |
| C52 | `Verif.Props.C52_temporary_files_partial` | propext, Classical.choice, Quot.sound |
| C52 | `Verif.Props.C52_exactly_partial` | propext, Quot.sound |
| C53 | `Verif.Props.C53_concatenation_false` | propext, Quot.sound |
| C53 | `Verif.Props.C53_concatenation_partial` | propext, Classical.choice, Quot.sound |
| C53 | `Verif.Props.C128_filter` | propext, Classical.choice, Quot.sound |
| C54 | `Verif.Props.C54_status_false` | propext, Quot.sound |
| C54 | `Verif.Props.C54_status_partial` | propext, Classical.choice, Quot.sound |
| C65 | `Verif.Props.C65_waiting_false` | propext, Classical.choice, Quot.sound |
| C65 | `Verif.Props.C65_waiting_partial` | propext, Classical.choice, Quot.sound |
| C65 | `Verif.Props.C129_external` | propext, Classical.choice, Quot.sound |
| C66 | `Verif.Props.C66_files_false` | propext, Classical.choice, Quot.sound |
| C66 | `Verif.Props.C66_files_partial` | propext, Classical.choice, Quot.sound |
| C66 | `Verif.Props.C129_external` | propext, Classical.choice, Quot.sound |
| C67 | `Verif.Props.C67_comparison_false` | propext, Quot.sound |
| C67 | `Verif.Props.C67_comparison_partial` | propext, Classical.choice, Quot.sound |
| C67 | `Verif.Props.C131_comparing` | propext, Classical.choice, Quot.sound |
| C68 | `Verif.Props.C68_browsing_false` | propext, Quot.sound |
| C68 | `Verif.Props.C68_browsing_partial` | propext, Classical.choice, Quot.sound |
| C68 | `Verif.Props.C130_browsing` | propext, Classical.choice, Quot.sound |
| C69 | `Verif.Props.C69_reports_false` | propext, Quot.sound |
| C69 | `Verif.Props.C69_reports_partial` | propext, Classical.choice, Quot.sound |
| C69 | `Verif.Props.C125_standard_error` | propext, Classical.choice, Quot.sound |
| C44 | `Verif.Props.C44_active_window` | propext, Classical.choice, Quot.sound |
| C45 | `Verif.Props.C45_selections` | propext, Classical.choice, Quot.sound |
| C70 | `Verif.Props.C70_answers` | propext, Classical.choice, Quot.sound |
| C74 | `Verif.Props.C74_folded_false` | propext, Quot.sound |
| C74 | `Verif.Props.C74_folded_partial` | propext, Classical.choice, Quot.sound |
| C74 | `Verif.Props.C74_exactly_partial` | propext, Classical.choice, Quot.sound |
| C75 | `Verif.Props.C75_no_crash_false` | propext, Quot.sound |
| C75 | `Verif.Props.C75_no_crash_partial` | propext, Classical.choice, Quot.sound |
| C75 | `Verif.Props.C75_exactly_partial` | propext, Classical.choice, Quot.sound |
| C76 | `Verif.Props.C76_own_document_false` | propext, Quot.sound |
| C76 | `Verif.Props.C76_own_document_partial` | propext, Classical.choice, Quot.sound |
| C76 | `Verif.Props.C76_exactly_partial` | propext, Classical.choice, Quot.sound |
| C77 | `Verif.Props.C77_listing` | propext, Classical.choice, Quot.sound |
| C77 | `Verif.Props.C77_filled` | propext, Classical.choice, Quot.sound |
| C78 | `Verif.Props.C78_highlight` | propext, Classical.choice, Quot.sound |
| C71 | `Verif.Props.C71_marks_false` | propext, Quot.sound |
| C71 | `Verif.Props.C71_marks_partial` | propext, Classical.choice, Quot.sound |
| C71 | `Verif.Props.C71_exactly_partial` | propext, Classical.choice, Quot.sound |
| C72 | `Verif.Props.C72_level_false` | propext, Quot.sound |
| C72 | `Verif.Props.C72_row_false` | propext, Quot.sound |
| C72 | `Verif.Props.C72_level_partial` | propext, Classical.choice, Quot.sound |
| C72 | `Verif.Props.C72_row_partial` | propext, Classical.choice, Quot.sound |
| C73 | `Verif.Props.C73_selection_false` | propext, Quot.sound |
| C73 | `Verif.Props.C73_selection_partial` | propext, Classical.choice, Quot.sound |
| C79 | `Verif.Props.C79_next_false` | propext, Quot.sound |
| C79 | `Verif.Props.C79_next_partial` | propext, Classical.choice, Quot.sound |
| C79 | `Verif.Props.C79_exactly_partial` | propext, Classical.choice, Quot.sound |
| C79 | `Verif.Props.C79_results` | propext, Classical.choice, Quot.sound |
| C80 | `Verif.Props.C80_stop_false` | propext |
| C80 | `Verif.Props.C80_stop_partial` | propext, Classical.choice, Quot.sound |
| C80 | `Verif.Props.C80_exactly_partial` | propext, Classical.choice, Quot.sound |
| C81 | `Verif.Props.C81_commands` | propext, Quot.sound |
| C82 | `Verif.Props.C82_case` | propext, Classical.choice, Quot.sound |
| C83 | `Verif.Props.C83_unbound_false` | propext, Quot.sound |
| C83 | `Verif.Props.C83_unbound_partial` | propext, Quot.sound |
| C83 | `Verif.Props.C83_exactly_partial` | propext, Classical.choice, Quot.sound |
| C84 | `Verif.Props.C84_prompt` | propext |
| C85 | `Verif.Props.C85_sessions` | propext, Quot.sound |
| C86 | `Verif.Props.C86_size` | propext, Classical.choice, Quot.sound |
| C87 | `Verif.Props.C87_picture_false` | propext, Quot.sound |
| C87 | `Verif.Props.C87_picture_partial` | propext, Classical.choice, Quot.sound |
| C87 | `Verif.Props.C87_exactly_partial` | propext, Classical.choice, Quot.sound |
| C88 | `Verif.Props.C88_marks_false` | propext, Quot.sound |
| C88 | `Verif.Props.C88_marks_partial` | propext, Classical.choice, Quot.sound |
| C89 | `Verif.Props.C89_message` | propext, Classical.choice, Quot.sound |
| C89 | `Verif.Props.C89_message_seen` | propext, Classical.choice, Quot.sound |
| C90 | `Verif.Props.C90_value_false` | propext, Classical.choice, Quot.sound |
| C90 | `Verif.Props.C90_value_partial` | propext, Classical.choice, Quot.sound |
| C90 | `Verif.Props.C90_accuracy_partial` | propext, Classical.choice, Quot.sound |
| C90 | `Verif.Props.C90_infinite` | propext, Classical.choice, Quot.sound |
| C91 | `Verif.Props.C91_stable_false` | propext, Classical.choice, Quot.sound |
| C91 | `Verif.Props.C91_stable_partial` | propext, Classical.choice, Quot.sound |
| C92 | `Verif.Props.C92_language_false` | propext, Quot.sound |
| C92 | `Verif.Props.C92_language_partial` | propext, Quot.sound |
| C92 | `Verif.Props.C92_exactly_partial` | propext, Classical.choice, Quot.sound |
| C93 | `Verif.Props.C93_order` | propext, Classical.choice, Quot.sound |
| C94 | `Verif.Props.C94_picture_false` | propext, Quot.sound |
| C94 | `Verif.Props.C94_picture_partial` | propext, Classical.choice, Quot.sound |
| C94 | `Verif.Props.C94_exactly_partial` | propext, Classical.choice, Quot.sound |
| C95 | `Verif.Props.C95_signs_false` | propext, Quot.sound |
| C95 | `Verif.Props.C95_signs_partial` | propext, Classical.choice, Quot.sound |
| C95 | `Verif.Props.C94_exactly_partial` | propext, Classical.choice, Quot.sound |
| C96 | `Verif.Props.C96_titles_false` | propext, Quot.sound |
| C96 | `Verif.Props.C96_titles_partial` | propext, Classical.choice, Quot.sound |
| C97 | `Verif.Props.C97_message_false` | propext, Quot.sound |
| C97 | `Verif.Props.C97_message_partial` | propext, Classical.choice, Quot.sound |
| C97 | `Verif.Props.C97_exactly_partial` | propext, Classical.choice, Quot.sound |
| C97 | `Verif.Props.C97_message_seen` | propext, Classical.choice, Quot.sound |
| C98 | `Verif.Props.C98_pointers` | propext, Classical.choice, Quot.sound |
| C99 | `Verif.Props.C99_memory_false` | propext |
| C99 | `Verif.Props.C99_memory_partial` | propext, Classical.choice, Quot.sound |
| C99 | `Verif.Props.C99_exactly_partial` | propext, Classical.choice, Quot.sound |
| C99 | `Verif.Props.C99_errors_partial` | propext, Classical.choice, Quot.sound |
| C100 | `Verif.Props.C100_equal_false` | propext, Quot.sound |
| C100 | `Verif.Props.C100_equal_partial` | propext, Classical.choice, Quot.sound |
| C101 | `Verif.Props.C101_first_warning` | propext, Quot.sound |
| C102 | `Verif.Props.C102_no_settings_false` | propext |
| C102 | `Verif.Props.C102_no_settings_partial` | propext, Quot.sound |
| C102 | `Verif.Props.C102_exactly_partial` | propext, Quot.sound |
| C103 | `Verif.Props.C103_prompt_false` | propext, Quot.sound |
| C103 | `Verif.Props.C103_prompt_partial` | propext, Classical.choice, Quot.sound |
| C103 | `Verif.Props.C103_typed_partial` | propext, Classical.choice, Quot.sound |
| C103 | `Verif.Props.C103_resized_partial` | propext, Classical.choice, Quot.sound |
| C104 | `Verif.Props.C104_no_trace` | propext, Classical.choice, Quot.sound |
| C105 | `Verif.Props.C105_no_trace_diff_false` | propext, Quot.sound |
| C105 | `Verif.Props.C105_no_trace_diff_partial` | propext, Classical.choice, Quot.sound |
| C106 | `Verif.Props.C106_hex_false` | propext, Quot.sound |
| C106 | `Verif.Props.C106_no_separator_false` | propext, Classical.choice, Quot.sound |
| C106 | `Verif.Props.C106_report_partial` | propext, Classical.choice, Quot.sound |
| C106 | `Verif.Props.C106_exactly_partial` | propext, Classical.choice, Quot.sound |
| C107 | `Verif.Props.C107_folding` | propext, Classical.choice, Quot.sound |
| C108 | `Verif.Props.C108_moves` | propext, Classical.choice, Quot.sound |
| C108 | `Verif.Props.C108_diff` | propext, Classical.choice, Quot.sound |
| C109 | `Verif.Props.C109_keys` | propext, Quot.sound |
| C110 | `Verif.Props.C110_up` | propext, Classical.choice, Quot.sound |
| C110 | `Verif.Props.C110_to_the_root` | propext, Classical.choice, Quot.sound |
| C111 | `Verif.Props.C111_down_false` | propext, Quot.sound |
| C111 | `Verif.Props.C111_down_partial` | propext, Classical.choice, Quot.sound |
| C111 | `Verif.Props.C111_exactly_partial` | propext, Classical.choice, Quot.sound |
| C112 | `Verif.Props.C112_terminal_false` | propext, Quot.sound |
| C112 | `Verif.Props.C112_terminal_partial` | propext, Quot.sound |
| C113 | `Verif.Props.C113_reports_false` | propext, Quot.sound |
| C113 | `Verif.Props.C113_reports_partial` | propext, Quot.sound |
| C114 | `Verif.Props.C114_signals_false` | propext, Quot.sound |
| C114 | `Verif.Props.C114_signals_partial` | propext, Quot.sound |
| C115 | `Verif.Props.C115_redirected_false` | propext, Quot.sound |
| C115 | `Verif.Props.C115_redirected_partial` | propext, Classical.choice, Quot.sound |
| C116 | `Verif.Props.C116_afresh_false` | propext, Quot.sound |
| C116 | `Verif.Props.C116_afresh_partial` | propext, Quot.sound |
| C116 | `Verif.Props.C116_unused_partial` | propext, Classical.choice, Quot.sound |
| C117 | `Verif.Props.C117_temporary_false` | propext, Quot.sound |
| C117 | `Verif.Props.C117_temporary_partial` | propext, Quot.sound |
| C118 | `Verif.Props.C118_formatting` | propext, Classical.choice, Quot.sound |
| C119 | `Verif.Props.C119_map` | propext, Classical.choice, Quot.sound |
| C120 | `Verif.Props.C120_signs` | propext, Classical.choice, Quot.sound |
| C121 | `Verif.Props.C121_pairs_false` | propext, Classical.choice, Quot.sound |
| C121 | `Verif.Props.C121_pairs_partial` | propext, Classical.choice, Quot.sound |
| C122 | `Verif.Props.C122_help_false` | propext, Quot.sound |
| C122 | `Verif.Props.C122_help_partial` | propext, Classical.choice, Quot.sound |
| C123 | `Verif.Props.C123_output_false` | propext, Quot.sound |
| C123 | `Verif.Props.C123_output_partial` | propext, Quot.sound |
| C124 | `Verif.Props.C124_silence` | propext, Quot.sound |
| C124 | `Verif.Props.C124_silence_converse` | propext, Quot.sound |
| C125 | `Verif.Props.C125_standard_error` | propext, Classical.choice, Quot.sound |
| C126 | `Verif.Props.C126_accepted_exactly` | propext, Classical.choice, Quot.sound |
| C127 | `Verif.Props.C127_refused_exactly` | propext, Classical.choice, Quot.sound |
| C128 | `Verif.Props.C128_filter` | propext, Classical.choice, Quot.sound |
| C129 | `Verif.Props.C129_external` | propext, Classical.choice, Quot.sound |
| C130 | `Verif.Props.C130_browsing` | propext, Classical.choice, Quot.sound |
| C131 | `Verif.Props.C131_comparing` | propext, Classical.choice, Quot.sound |
| C132 | `Verif.Props.C132_no_signs_false` | propext, Quot.sound |
| C132 | `Verif.Props.C132_no_signs_partial` | propext, Classical.choice, Quot.sound |
| C133 | `Verif.Props.C133_exchange_false` | propext, Quot.sound |
| C133 | `Verif.Props.C133_exchange_partial` | propext, Classical.choice, Quot.sound |
| C133 | `Verif.Props.C133_exchange_unique_partial` | propext, Classical.choice, Quot.sound |
| C133 | `Verif.Props.C133_exchange_edit_partial` | propext, Classical.choice, Quot.sound |
| C134 | `Verif.Props.C134_signs` | propext, Classical.choice, Quot.sound |
| C135 | `Verif.Props.C135_one_alignment` | propext, Classical.choice, Quot.sound |
| C135 | `Verif.Props.C135_comparison` | propext, Classical.choice, Quot.sound |
| C136 | `Verif.Props.C136_in_common_false` | propext, Classical.choice, Quot.sound |
| C136 | `Verif.Props.C136_exactly_partial` | propext, Classical.choice, Quot.sound |
| C137 | `Verif.Props.C137_inserted_partial` | propext, Classical.choice, Quot.sound |
| C137 | `Verif.Props.C137_removed_partial` | propext, Classical.choice, Quot.sound |
| C137 | `Verif.Props.C137_members_partial` | propext, Classical.choice, Quot.sound |
| C137 | `Verif.Props.C137_appended_partial` | propext, Classical.choice, Quot.sound |
| C137 | `Verif.Props.C137_cut_partial` | propext, Classical.choice, Quot.sound |
| C137 | `Verif.Props.C137_inserted_false` | propext, Quot.sound |
| C138 | `Verif.Props.C138_in_place_partial` | propext, Classical.choice, Quot.sound |
| C138 | `Verif.Props.C138_in_place_false` | propext, Quot.sound |
| C139 | `Verif.Props.C139_edit_partial` | propext, Classical.choice, Quot.sound |
| C139 | `Verif.Props.C137_inserted_false` | propext, Quot.sound |
| C139 | `Verif.Props.C138_in_place_false` | propext, Quot.sound |
| C140 | `Verif.Props.C140_by_position_partial` | propext, Classical.choice, Quot.sound |
| C140 | `Verif.Props.C140_records_false` | propext, Quot.sound |
| C141 | `Verif.Props.C141_local` | propext, Classical.choice, Quot.sound |
| C142 | `Verif.Props.C142_moved_partial` | propext, Classical.choice, Quot.sound |
| C142 | `Verif.Props.C142_members_partial` | propext, Classical.choice, Quot.sound |
| C142 | `Verif.Props.C142_neighbours_partial` | propext, Classical.choice, Quot.sound |
| C142 | `Verif.Props.C142_two_partial` | propext, Classical.choice, Quot.sound |
| C142 | `Verif.Props.C142_moved_false` | propext, Quot.sound |
| C143 | `Verif.Props.C143_same` | propext, Classical.choice, Quot.sound |
| C143 | `Verif.Props.C143_indistinct_partial` | propext, Classical.choice, Quot.sound |
