'Spex.C01_document' depends on axioms: [propext, Classical.choice, Quot.sound]
'Spex.C01_range_iff' depends on axioms: [propext, Classical.choice, Quot.sound]
'Spex.C01_range_exact' depends on axioms: [propext, Classical.choice, Quot.sound]
'Spex.C01_row_range_exact' depends on axioms: [propext, Classical.choice, Quot.sound]
'Spex.C01_range_iff' depends on axioms: [propext, Classical.choice, Quot.sound]
'Spex.C02_range_diagnostics' depends on axioms: [propext, Classical.choice, Quot.sound]
'Spex.C01_document' depends on axioms: [propext, Classical.choice, Quot.sound]
'Spex.C03_dynamic_iff' depends on axioms: [propext, Classical.choice, Quot.sound]
'Spex.C03_dynamic_range' depends on axioms: [propext, Classical.choice, Quot.sound]
'Spex.C03_dynamic_range_invalid' depends on axioms: [propext, Classical.choice, Quot.sound]
'Spex.C03_document_partial' depends on axioms: [propext, Classical.choice, Quot.sound]
'Spex.C03_reserved_false' depends on axioms: [propext, Classical.choice, Quot.sound]
'Spex.C04_document' depends on axioms: [propext, Classical.choice, Quot.sound]
'Spex.C04_brief_ok' depends on axioms: [propext, Classical.choice, Quot.sound]
'Spex.C01_document' depends on axioms: [propext, Classical.choice, Quot.sound]
'Spex.C05_document_values' depends on axioms: [propext, Classical.choice, Quot.sound]
'Spex.C05_brief_quotation' depends on axioms: [propext, Classical.choice, Quot.sound]
'Spex.C05_brief_exact' depends on axioms: [propext, Classical.choice, Quot.sound]
'Spex.C06_document' depends on axioms: [propext, Classical.choice, Quot.sound]
'Spex.C06_document_values' depends on axioms: [propext, Classical.choice, Quot.sound]
'Spex.C06_normalize_alphabet' depends on axioms: [propext, Quot.sound]
'Spex.C06_normalize_exact' depends on axioms: [propext, Quot.sound]
'Spex.C06_normal_iff' depends on axioms: [propext, Quot.sound]
'Spex.C07_document_sound' depends on axioms: [propext, Quot.sound]
'Spex.C07_document_partial' depends on axioms: [propext, Classical.choice, Quot.sound]
'Spex.C07_document_values_partial' depends on axioms: [propext, Classical.choice, Quot.sound]
'Spex.C07_identifier_silent' depends on axioms: [propext, Classical.choice, Quot.sound]
'Spex.C07_invalid_flagged_partial' depends on axioms: [propext, Classical.choice, Quot.sound]
'Spex.C07_invalid_flagged_false' depends on axioms: [propext, Classical.choice, Quot.sound]
'Spex.C07_blank_false' depends on axioms: [propext, Classical.choice, Quot.sound]
'Spex.C08_label_exact' depends on axioms: [propext, Classical.choice, Quot.sound]
'Spex.C08_value_label_exact' depends on axioms: [propext, Classical.choice, Quot.sound]
'Spex.C01_document' depends on axioms: [propext, Classical.choice, Quot.sound]
'Spex.C05_document_values' depends on axioms: [propext, Classical.choice, Quot.sound]
'Spex.C08_total' depends on axioms: [propext, Classical.choice, Quot.sound]
'Spex.C08_acronym' depends on axioms: [propext, Classical.choice, Quot.sound]
'Spex.C08_initials' depends on axioms: [propext, Classical.choice, Quot.sound]
'Spex.C09_exact' depends on axioms: [propext, Classical.choice, Quot.sound]
'Spex.C05_document_values' depends on axioms: [propext, Classical.choice, Quot.sound]
'Spex.C09_rearrange_num_label' depends on axioms: [propext, Classical.choice, Quot.sound]
'Spex.C09_text_kept' depends on axioms: [propext, Quot.sound]
'Spex.C09_multiline_false' depends on axioms: [propext, Classical.choice, Quot.sound]
'Spex.C10_rows_preserved' depends on axioms: [propext, Quot.sound]
'Spex.C11_visual_rows' depends on axioms: [propext, Classical.choice, Quot.sound]
'Spex.C11_row_without_own_cell_false' depends on axioms: [propext, Classical.choice, Quot.sound]
'Spex.C11_gap_false' depends on axioms: [propext, Classical.choice, Quot.sound]
'Spex.C12_identity' depends on axioms: [propext, Quot.sound]
'Spex.C13_choice' depends on axioms: [propext, Classical.choice, Quot.sound]
'Spex.C13_dispatch' depends on axioms: [propext, Classical.choice, Quot.sound]
'Spex.C14_struct_exact' depends on axioms: [propext, Quot.sound]
'Spex.C14_value_exact' depends on axioms: [propext, Quot.sound]
'Spex.C14_struct_columns' depends on axioms: [propext, Quot.sound]
'Spex.C14_value_columns' depends on axioms: [propext, Quot.sound]
'Spex.C14_row_cells' depends on axioms: [propext, Quot.sound]
'Spex.C14_duplicate_headers_false' depends on axioms: [propext, Quot.sound]
'Spex.C15_headers' depends on axioms: [propext, Classical.choice, Quot.sound]
'Spex.C16_partition' depends on axioms: [propext, Classical.choice, Quot.sound]
'Spex.C17_overlap_not_silent' depends on axioms: [propext, Classical.choice, Quot.sound]
'Spex.C17_C18_neighbours_exact' depends on axioms: [propext, Classical.choice, Quot.sound]
'Spex.C18_gap_not_silent' depends on axioms: [propext, Classical.choice, Quot.sound]
'Spex.C17_C18_neighbours_exact' depends on axioms: [propext, Classical.choice, Quot.sound]
'Spex.C19_no_false_alarm' depends on axioms: [propext, Classical.choice, Quot.sound]
'Spex.C20_order_exact' depends on axioms: [propext, Classical.choice, Quot.sound]
'Spex.C20_order_sound' depends on axioms: [propext, Classical.choice, Quot.sound]
'Spex.C20_order_complete_partial' depends on axioms: [propext, Classical.choice, Quot.sound]
'Spex.C20_order_never_silent' depends on axioms: [propext, Classical.choice, Quot.sound]
'Spex.C20_order_complete_false' depends on axioms: [propext, Classical.choice, Quot.sound]
'Spex.C21_duplicate_labels_exact' depends on axioms: [propext, Classical.choice, Quot.sound]
'Spex.C22_duplicate_values_exact' depends on axioms: [propext, Classical.choice, Quot.sound]
'Spex.C21_duplicate_labels_exact' depends on axioms: [propext, Classical.choice, Quot.sound]
'Spex.C23_fields_from_rows' depends on axioms: [propext, Classical.choice, Quot.sound]
'Spex.C23_field_count' depends on axioms: [propext, Classical.choice, Quot.sound]
'Spex.C24_nested_linked' depends on axioms: [propext, Classical.choice, Quot.sound]
'Spex.C24_own_last' depends on axioms: [propext, Classical.choice, Quot.sound]
'Spex.C25_one_report' depends on axioms: [propext, Classical.choice, Quot.sound]
'Spex.C26_concatenation' depends on axioms: [propext, Classical.choice, Quot.sound]
'Spex.C26_ends_iff' depends on axioms: [propext, Classical.choice, Quot.sound]
'Spex.C26_isolation_partial' depends on axioms: [propext, Classical.choice, Quot.sound]
'Spex.C26_abort_false' depends on axioms: [propext, Classical.choice, Quot.sound]
'Spex.C26_abort_override_false' depends on axioms: [propext, Classical.choice, Quot.sound]
'Spex.C27_good_prefix' depends on axioms: [propext, Classical.choice, Quot.sound]
'Spex.C28_skip_inert' depends on axioms: [propext, Quot.sound]
'Spex.C29_ignore_only_hides' depends on axioms: [propext, Classical.choice, Quot.sound]
'Spex.C30_diagnostics_wellformed' depends on axioms: [propext, Classical.choice, Quot.sound]
'Spex.C30_message_code' depends on axioms: [propext, Classical.choice, Quot.sound]
'Spex.C30_exceptions' depends on axioms: [propext, Classical.choice, Quot.sound]
'Spex.C31_nothing_lost' depends on axioms: [propext, Classical.choice, Quot.sound]
'Spex.C32_terminates' depends on axioms: [propext, Classical.choice, Quot.sound]
'Spex.C33_numbering' depends on axioms: [propext, Classical.choice, Quot.sound]
'Spex.C33_placeholders_distinct' depends on axioms: [propext, Quot.sound]
'Spex.C34_ranges' depends on axioms: [propext, Classical.choice, Quot.sound]
'Spex.C34_schema_partial' depends on axioms: [propext, Classical.choice, Quot.sound]
'Spex.C34_formula_false' depends on axioms: [propext, Classical.choice, Quot.sound]
'Spex.C34_empty_false' depends on axioms: [propext, Classical.choice, Quot.sound]
'Spex.C35_empty_until_end' does not depend on any axioms
'Spex.C35_success' depends on axioms: [propext, Classical.choice, Quot.sound]
'Spex.C35_failure' depends on axioms: [propext, Classical.choice, Quot.sound]
'Spex.C35_stopped' depends on axioms: [propext, Classical.choice, Quot.sound]
'Spex.C36_override_honoured_partial' depends on axioms: [propext, Classical.choice, Quot.sound]
'Spex.C36_unused_inert' depends on axioms: [propext, Quot.sound]
'Spex.C36_report_listed' depends on axioms: [propext, Quot.sound]
'Spex.C36_struct_ignored_false' depends on axioms: [propext, Classical.choice, Quot.sound]
'Spex.C37_root_figure' depends on axioms: [propext, Classical.choice, Quot.sound]
'Spex.C38_counting' depends on axioms: [propext, Quot.sound]
'Spex.C38_silent' depends on axioms: [propext, Quot.sound]
'Spex.C38_html' depends on axioms: [propext, Quot.sound]
'Spex.C38_html_silent' depends on axioms: [propext, Quot.sound]
'Spex.C38_two_phases' depends on axioms: [propext, Quot.sound]
'Spex.C38_bound_partial' depends on axioms: [propext, Classical.choice, Quot.sound]
'Spex.C38_bound_false' depends on axioms: [propext, Classical.choice, Quot.sound]
'Spex.C39_tiling_partial' depends on axioms: [propext, Classical.choice, Quot.sound]
'Spex.C39_other_vmerge_refused' depends on axioms: [propext, Quot.sound]
'Spex.C39_misaligned_false' depends on axioms: [propext, Classical.choice, Quot.sound]
'Spex.C40_cells_once_partial' depends on axioms: [propext, Classical.choice, Quot.sound]
'Spex.C40_zero_span_false' depends on axioms: [propext, Classical.choice, Quot.sound]
'Spex.C41_two_stages_partial' depends on axioms: [propext, Classical.choice, Quot.sound]
'Spex.C42_list' depends on axioms: [propext, Classical.choice, Quot.sound]
'Spex.C42_items_in_order' depends on axioms: [propext, Classical.choice, Quot.sound]
'Spex.C42_no_failure' depends on axioms: [propext, Classical.choice, Quot.sound]
'Spex.C43_body_well_formed' depends on axioms: [propext, Classical.choice, Quot.sound]
'Spex.C43_word_document' depends on axioms: [propext, Classical.choice, Quot.sound]
'Spex.C44_text' depends on axioms: [propext, Classical.choice, Quot.sound]
'Spex.C44_page_read_back_partial' depends on axioms: [propext, Classical.choice, Quot.sound]
'Spex.C44_title_false' depends on axioms: [propext]
'Spex.C44_head_false' depends on axioms: [propext]
'Spex.C44_cr_false' depends on axioms: [propext]
'Spex.C45_same_class_iff_equal' depends on axioms: [propext, Classical.choice, Quot.sound]
'Spex.C45_sheet_defines_classes' depends on axioms: [propext, Classical.choice, Quot.sound]
'Spex.C45_caches_apart' depends on axioms: [propext, Classical.choice, Quot.sound]
'Spex.C46_assoc' depends on axioms: [propext]
'Spex.C46_identity' depends on axioms: [propext]
'Spex.C46_last_layer' depends on axioms: [propext]
'Spex.C47_decorations_partial' depends on axioms: [propext]
'Spex.C47_disabled_false' depends on axioms: [propext]
'Spex.C48_history' depends on axioms: [propext, Quot.sound]
'Spex.C48_chain' depends on axioms: [propext, Classical.choice, Quot.sound]
'Spex.C48_no_formatting' depends on axioms: [propext, Quot.sound]
'Spex.C49_each_table_once' depends on axioms: [propext, Classical.choice, Quot.sound]
'Spex.C49_tables_of_page' depends on axioms: [propext, Classical.choice, Quot.sound]
'Spex.C49_document_order_partial' depends on axioms: [propext, Quot.sound]
'Spex.C49_document_order_false' depends on axioms: [propext, Classical.choice, Quot.sound]
'Spex.C49_negative_span_false' depends on axioms: [propext, Classical.choice, Quot.sound]
'Spex.C50_nothing_invented' depends on axioms: [propext, Quot.sound]
'Spex.C50_kept_exact' depends on axioms: [propext, Quot.sound]
'Spex.C50_kept_all' depends on axioms: [propext]
'Spex.C50_text_preserved_partial' depends on axioms: [propext, Quot.sound]
'Spex.C50_paragraph_kept' depends on axioms: [propext, Quot.sound]
'Spex.C50_second_text_false' depends on axioms: [propext, Classical.choice, Quot.sound]
'Spex.C50_second_run_false' depends on axioms: [propext, Classical.choice, Quot.sound]
'Spex.C51_header_text' depends on axioms: [propext, Classical.choice, Quot.sound]
'Spex.C51_revision' depends on axioms: [propext, Classical.choice, Quot.sound]
'Spex.C51_no_revision' depends on axioms: [propext, Classical.choice, Quot.sound]
'Spex.C51_title' depends on axioms: [propext, Quot.sound]
'Spex.C51_identity' depends on axioms: [propext, Classical.choice, Quot.sound]
'Spex.C52_success' depends on axioms: [propext, Classical.choice, Quot.sound]
'Spex.C52_failure' depends on axioms: [propext, Classical.choice, Quot.sound]
'Spex.C52_status' depends on axioms: [propext, Classical.choice, Quot.sound]
'Spex.C52_other_suffix' depends on axioms: [propext]
'Spex.C53_accepted' depends on axioms: [propext, Quot.sound]
'Spex.C53_refused' depends on axioms: [propext]
'Spex.C54_own_output' depends on axioms: [propext, Classical.choice, Quot.sound]
'Spex.C54_frame' depends on axioms: [propext, Classical.choice, Quot.sound]
'Spex.C54_same_name_false' depends on axioms: [propext, Classical.choice, Quot.sound]
'Spex.C55_own_report_partial' depends on axioms: [propext, Classical.choice, Quot.sound]
'Spex.C55_same_name_partial' depends on axioms: [propext, Classical.choice, Quot.sound]
'Spex.C55_same_file_name_false' depends on axioms: [propext, Classical.choice, Quot.sound]
'Spex.C56_not_served_partial' depends on axioms: [propext, Classical.choice, Quot.sound]
'Spex.C56_unknown_false' depends on axioms: [propext, Classical.choice, Quot.sound]
'Spex.C57_standard' depends on axioms: [propext, Classical.choice, Quot.sound]
'Spex.C57_client' depends on axioms: [propext, Classical.choice, Quot.sound]
'Spex.C58_whole_file' depends on axioms: [propext, Quot.sound]
'Spex.C58_pieces' depends on axioms: [propext]
'Spex.C59_stored_partial' depends on axioms: [propext, Classical.choice, Quot.sound]
'Spex.C59_confined_partial' depends on axioms: [propext, Classical.choice, Quot.sound]
'Spex.C59_outside_false' depends on axioms: [propext, Classical.choice, Quot.sound]
'Spex.C60_removed' depends on axioms: [propext, Classical.choice, Quot.sound]
'Spex.C60_available' depends on axioms: [propext, Classical.choice, Quot.sound]
'Spex.C61_roundtrip' depends on axioms: [propext, Classical.choice, Quot.sound]
'Spex.C61_injective' depends on axioms: [propext, Classical.choice, Quot.sound]
'Spex.C61_no_control' depends on axioms: [propext, Quot.sound]
'Spex.C62_figure_id' depends on axioms: [propext, Quot.sound]
'Spex.C62_title' depends on axioms: [propext, Quot.sound]
'Spex.C62_body' depends on axioms: [propext, Quot.sound]
'Spex.C62_wrapped' depends on axioms: [propext, Quot.sound]
'Spex.C62_not_wrapped' depends on axioms: [propext, Quot.sound]
'Spex.C62_tables' depends on axioms: [propext]
'Spex.C63_writer_history' depends on axioms: [propext, Classical.choice, Quot.sound]
'Spex.C64_list_terminates' depends on axioms: [propext, Classical.choice, Quot.sound]
'Spex.C64_document_terminates' depends on axioms: [propext, Classical.choice, Quot.sound]
'Spex.C65_identity' depends on axioms: [propext, Classical.choice, Quot.sound]
'Spex.C65_first_stage_failure' depends on axioms: [propext, Quot.sound]
'Spex.C66_figures' depends on axioms: [propext, Classical.choice, Quot.sound]
'Spex.C67_cell_texts_partial' depends on axioms: [propext, Classical.choice, Quot.sound]
'Spex.C67_line_breaks' depends on axioms: [propext, Quot.sound]
'Spex.C68_layout_figure_partial' depends on axioms: [propext, Classical.choice, Quot.sound]
'Spex.C68_in_json_partial' depends on axioms: [propext, Classical.choice, Quot.sound]
'Spex.C69_formatting_shown_partial' depends on axioms: [propext, Classical.choice, Quot.sound]
'Spex.C69_runs_partial' depends on axioms: [propext, Classical.choice, Quot.sound]
'Spex.C69_switch_false' depends on axioms: [propext, Classical.choice, Quot.sound]
'Spex.C69_auto_color_false' depends on axioms: [propext, Classical.choice, Quot.sound]
'Spex.C69_paragraph_style_false' depends on axioms: [propext, Classical.choice, Quot.sound]
'Spex.C70_markers_partial' depends on axioms: [propext, Classical.choice, Quot.sound]
'Spex.C70_letters_false' depends on axioms: [propext, Classical.choice, Quot.sound]
'Spex.C70_brackets_false' depends on axioms: [propext, Classical.choice, Quot.sound]
'Spex.C70_mixed_false' depends on axioms: [propext, Classical.choice, Quot.sound]
'Spex.C70_deep_false' depends on axioms: [propext, Classical.choice, Quot.sound]
'Spex.C71_summary' depends on axioms: [propext, Classical.choice, Quot.sound]
'Spex.C71_diagnostics_partial' depends on axioms: [propext, Classical.choice, Quot.sound]
'Spex.C71_order' depends on axioms: [propext, Classical.choice, Quot.sound]
'Spex.C71_served_partial' depends on axioms: [propext, Classical.choice, Quot.sound]
'Spex.C71_inherited_false' depends on axioms: [propext, Classical.choice, Quot.sound]
'Spex.C72_shown_partial' depends on axioms: [propext, Classical.choice, Quot.sound]
'Spex.C72_first_partial' depends on axioms: [propext, Classical.choice, Quot.sound]
'Spex.C72_table_number' depends on axioms: [propext, Classical.choice, Quot.sound]
'Spex.C72_difference_false' depends on axioms: [propext, Classical.choice, Quot.sound]
'Spex.C72_letter_false' depends on axioms: [propext, Classical.choice, Quot.sound]
'Spex.C72_word_false' depends on axioms: [propext, Classical.choice, Quot.sound]
'Spex.C73_stream' depends on axioms: [propext, Classical.choice, Quot.sound]
'Spex.C73_report_partial' depends on axioms: [propext, Classical.choice, Quot.sound]
'Spex.C73_progress_partial' depends on axioms: [propext, Classical.choice, Quot.sound]
'Spex.C73_failure_false' depends on axioms: [propext, Classical.choice, Quot.sound]
'Spex.C73_split_false' depends on axioms: [propext, Classical.choice, Quot.sound]
'Spex.C74_answer' depends on axioms: [propext, Quot.sound]
'Spex.C75_values_figure_partial' depends on axioms: [propext, Classical.choice, Quot.sound]
'Spex.C75_in_json_partial' depends on axioms: [propext, Classical.choice, Quot.sound]
'Spex.C76_layout_partial' depends on axioms: [propext, Classical.choice, Quot.sound]
'Spex.C76_values_partial' depends on axioms: [propext, Classical.choice, Quot.sound]
'Spex.C76_in_json_partial' depends on axioms: [propext, Classical.choice, Quot.sound]
'Spex.C77_cell_reads_partial' depends on axioms: [propext, Classical.choice, Quot.sound]
'Spex.C78_figures_partial' depends on axioms: [propext, Classical.choice, Quot.sound]
'Spex.C78_in_json_partial' depends on axioms: [propext, Classical.choice, Quot.sound]
'Spex.C79_entity' depends on axioms: [propext, Classical.choice, Quot.sound]
'Spex.C79_diagnostic' depends on axioms: [propext, Classical.choice, Quot.sound]
'Spex.C79_read_back' depends on axioms: [propext, Classical.choice, Quot.sound]
'Spex.C80_own_tables_partial' depends on axioms: [propext, Classical.choice, Quot.sound]
'Spex.C80_whole_document_partial' depends on axioms: [propext, Classical.choice, Quot.sound]
'Spex.C81_cut_short' depends on axioms: [propext, Quot.sound]
'Spex.C81_killed' depends on axioms: [propext, Classical.choice, Quot.sound]
'Spex.C81_validated' depends on axioms: [propext, Classical.choice, Quot.sound]
'Spex.C82_restart' depends on axioms: [propext, Classical.choice, Quot.sound]
'Spex.C82_restart_cli' depends on axioms: [propext, Classical.choice, Quot.sound]
'Spex.C82_again' depends on axioms: [propext, Classical.choice, Quot.sound]
'Spex.C82_from_page' depends on axioms: [propext, Quot.sound]
'Spex.C82_from_cut_page' depends on axioms: [propext, Quot.sound]
'Spex.C82_same_name_false' depends on axioms: [propext, Classical.choice, Quot.sound]
'Spex.C83_files' depends on axioms: [propext, Quot.sound]
'Spex.C83_left_page' depends on axioms: [propext, Classical.choice, Quot.sound]
'Spex.C83_readable_iff' depends on axioms: [propext, Classical.choice, Quot.sound]
'Spex.C83_run' depends on axioms: [propext, Classical.choice, Quot.sound]
'Spex.C84_same_run' depends on axioms: [propext, Quot.sound]
'Spex.C84_figure' depends on axioms: [propext, Classical.choice, Quot.sound]
'Spex.C84_document' depends on axioms: [propext, Classical.choice, Quot.sound]
'Spex.C84_aborted_partial' depends on axioms: [propext, Classical.choice, Quot.sound]
'Spex.C84_program' depends on axioms: [propext, Quot.sound]
'Spex.C84_summary' depends on axioms: [propext, Classical.choice, Quot.sound]
'Spex.C84_unnamed_false' depends on axioms: [propext, Classical.choice, Quot.sound]
'Spex.C85_opened' depends on axioms: [propext, Classical.choice, Quot.sound]
'Spex.C85_taken' depends on axioms: [propext, Quot.sound]
'Spex.C85_refused' depends on axioms: [propext, Classical.choice, Quot.sound]
'Spex.C86_next_to_page_partial' depends on axioms: [propext, Classical.choice, Quot.sound]
'Spex.C86_served_false' depends on axioms: [propext, Classical.choice, Quot.sound]
'Spex.C87_field' depends on axioms: [propext, Classical.choice, Quot.sound]
'Spex.C87_distinct_partial' depends on axioms: [propext, Classical.choice, Quot.sound]
'Spex.C87_clean_partial' depends on axioms: [propext, Classical.choice, Quot.sound]
'Spex.C87_distinct_false' depends on axioms: [propext, Classical.choice, Quot.sound]
'Spex.C87_underscore_false' depends on axioms: [propext, Classical.choice, Quot.sound]
'Spex.C87_field_false' depends on axioms: [propext, Classical.choice, Quot.sound]
'Spex.C88_local_partial' depends on axioms: [propext, Classical.choice, Quot.sound]
'Spex.C88_revision_false' depends on axioms: [propext, Classical.choice, Quot.sound]
'Spex.C89_script' depends on axioms: [propext, Classical.choice, Quot.sound]
'Spex.C89_order' depends on axioms: [propext, Classical.choice, Quot.sound]
'Spex.C89_markup_partial' depends on axioms: [propext, Classical.choice, Quot.sound]
'Spex.C89_figure_id_false' depends on axioms: [propext, Classical.choice, Quot.sound]
'Spex.C89_markup_false' depends on axioms: [propext, Classical.choice, Quot.sound]
'Spex.C90_file' depends on axioms: [propext, Classical.choice, Quot.sound]
'Spex.C90_console' depends on axioms: [propext, Quot.sound]
'Spex.C90_killed' depends on axioms: [propext, Classical.choice, Quot.sound]
'Spex.C90_stdout' depends on axioms: [propext, Classical.choice, Quot.sound]
'Spex.C91_accepted' depends on axioms: [propext, Classical.choice, Quot.sound]
'Spex.C91_one_meaning' depends on axioms: [propext, Classical.choice, Quot.sound]
'Spex.C91_path' depends on axioms: [propext, Classical.choice, Quot.sound]
'Spex.C91_text' depends on axioms: [propext, Classical.choice, Quot.sound]
'Spex.C91_output' depends on axioms: [propext, Classical.choice, Quot.sound]
'Spex.C91_run' depends on axioms: [propext, Classical.choice, Quot.sound]
'Spex.C91_failed' depends on axioms: [propext, Classical.choice, Quot.sound]
'Spex.C91_refused_partial' depends on axioms: [propext, Classical.choice, Quot.sound]
'Spex.C91_refused_false' depends on axioms: [propext, Classical.choice, Quot.sound]
'Spex.C92_attribute' depends on axioms: [propext, Classical.choice, Quot.sound]
'Spex.C92_missing' depends on axioms: [propext, Classical.choice, Quot.sound]
'Spex.C92_element' depends on axioms: [propext, Classical.choice, Quot.sound]
'Spex.C92_descendants' depends on axioms: [propext, Classical.choice, Quot.sound]
'Spex.C92_order' depends on axioms: [propext, Quot.sound]
'Spex.C93_downloads' depends on axioms: [propext, Classical.choice, Quot.sound]
'Spex.C93_bundle_partial' depends on axioms: [propext]
'Spex.C93_alone_false' depends on axioms: [propext]
'Spex.C94_same' depends on axioms: [propext, Classical.choice, Quot.sound]
'Spex.C94_stream' depends on axioms: [propext, Classical.choice, Quot.sound]
'Spex.C94_served_partial' depends on axioms: [propext, Classical.choice, Quot.sound]
'Spex.C94_reports' depends on axioms: [propext, Quot.sound]
'Spex.C94_elsewhere_false' depends on axioms: [propext, Classical.choice, Quot.sound]
'Spex.C95_served_partial' depends on axioms: [propext, Classical.choice, Quot.sound]
'Spex.C95_word_partial' depends on axioms: [propext, Classical.choice, Quot.sound]
'Spex.C95_same_name_false' depends on axioms: [propext, Classical.choice, Quot.sound]
'Spex.C96_number' depends on axioms: [propext, Classical.choice, Quot.sound]
'Spex.C96_not_a_number' depends on axioms: [propext, Classical.choice, Quot.sound]
'Spex.C96_unique' depends on axioms: [propext, Classical.choice, Quot.sound]
'Spex.C96_spans' depends on axioms: [propext, Classical.choice, Quot.sound]
'Spex.C96_written' depends on axioms: [propext, Classical.choice, Quot.sound]
'Spex.C96_read_back' depends on axioms: [propext, Classical.choice, Quot.sound]
'Spex.C97_content' depends on axioms: [propext, Classical.choice, Quot.sound]
'Spex.C97_same_output' depends on axioms: [propext, Classical.choice, Quot.sound]
'Spex.C98_shutdown_partial' depends on axioms: [propext, Classical.choice, Quot.sound]
'Spex.C98_kept_partial' depends on axioms: [propext, Classical.choice, Quot.sound]
'Spex.C98_forgotten' depends on axioms: [propext, Quot.sound]
'Spex.C98_too_large' depends on axioms: [propext, Quot.sound]
'Spex.C98_killed_false' depends on axioms: [propext, Classical.choice, Quot.sound]
'Spex.C99_figure_partial' depends on axioms: [propext, Classical.choice, Quot.sound]
'Spex.C99_page_partial' depends on axioms: [propext, Classical.choice, Quot.sound]
'Spex.C99_no_spans' depends on axioms: [propext, Quot.sound]
'Spex.C99_order_false' depends on axioms: [propext, Classical.choice, Quot.sound]
'Spex.C99_two_columns_false' depends on axioms: [propext, Classical.choice, Quot.sound]
'Spex.C100_only_tables' depends on axioms: [propext, Classical.choice, Quot.sound]
'Spex.C100_model' depends on axioms: [propext, Classical.choice, Quot.sound]
'Spex.C100_continued' depends on axioms: [propext, Classical.choice, Quot.sound]
'Spex.C101_order' depends on axioms: [propext, Classical.choice, Quot.sound]
'Spex.C101_split' depends on axioms: [propext, Classical.choice, Quot.sound]
'Spex.C101_alone' depends on axioms: [propext, Classical.choice, Quot.sound]
'Spex.C101_same_name_false' depends on axioms: [propext, Classical.choice, Quot.sound]
'Spex.C101_page_false' depends on axioms: [propext, Classical.choice, Quot.sound]
'Spex.C102_together' depends on axioms: [propext, Quot.sound]
'Spex.C102_ends' depends on axioms: [propext, Quot.sound]
'Spex.C102_names' depends on axioms: [propext, Quot.sound]
'Spex.C102_directories' does not depend on any axioms
'Spex.C102_same_output_false' depends on axioms: [propext, Classical.choice, Quot.sound]
'Spex.C103_context' depends on axioms: [propext, Quot.sound]
'Spex.C103_card' depends on axioms: [propext, Quot.sound]
'Spex.C103_heading' depends on axioms: [propext]
'Spex.C103_columns_false' depends on axioms: [propext, Classical.choice, Quot.sound]
'Spex.C104_debug_values' depends on axioms: [propext, Quot.sound]
'Spex.C104_debug' depends on axioms: [propext, Quot.sound]
'Spex.C104_quiet' depends on axioms: [propext, Quot.sound]
'Spex.C104_port' depends on axioms: [propext, Classical.choice, Quot.sound]
'Spex.C104_cache_partial' depends on axioms: [propext]
'Spex.C104_cache_false' depends on axioms: [propext, Classical.choice, Quot.sound] 
