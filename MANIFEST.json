{"claims": [
 {"property": "C01", "status": "proved", "theorems": ["Spex.C01_document", "Spex.C01_range_iff", "Spex.C01_range_exact", "Spex.C01_row_range_exact"], "note": ""},
 {"property": "C02", "status": "proved", "theorems": ["Spex.C01_range_iff", "Spex.C02_range_diagnostics", "Spex.C01_document"], "note": ""},
 {"property": "C03", "status": "partial", "theorems": ["Spex.C03_dynamic_iff", "Spex.C03_dynamic_range", "Spex.C03_dynamic_range_invalid", "Spex.C03_document_partial", "Spex.C03_reserved_false"], "note": "the ranges of reserved and obsolete rows of a dynamic list are read as if they were outside of it, the witness is proved"},
 {"property": "C04", "status": "proved", "theorems": ["Spex.C04_document", "Spex.C04_brief_ok"], "note": ""},
 {"property": "C05", "status": "proved", "theorems": ["Spex.C01_document", "Spex.C05_document_values", "Spex.C05_brief_quotation", "Spex.C05_brief_exact"], "note": ""},
 {"property": "C06", "status": "proved", "theorems": ["Spex.C06_document", "Spex.C06_document_values", "Spex.C06_normalize_alphabet", "Spex.C06_normalize_exact", "Spex.C06_normal_iff"], "note": ""},
 {"property": "C07", "status": "partial", "theorems": ["Spex.C07_document_sound", "Spex.C07_document_partial", "Spex.C07_document_values_partial", "Spex.C07_identifier_silent", "Spex.C07_invalid_flagged_partial", "Spex.C07_invalid_flagged_false", "Spex.C07_blank_false"], "note": "the code does not flag every label which is not an identifier, and flags labels written with a blank in a column of their own; witnesses are proved"},
 {"property": "C08", "status": "proved", "theorems": ["Spex.C08_label_exact", "Spex.C08_value_label_exact", "Spex.C01_document", "Spex.C05_document_values", "Spex.C08_total", "Spex.C08_acronym", "Spex.C08_initials"], "note": ""},
 {"property": "C09", "status": "proved", "theorems": ["Spex.C09_exact", "Spex.C05_document_values", "Spex.C09_rearrange_num_label", "Spex.C09_text_kept", "Spex.C09_multiline_false"], "note": "As stated, for labels of one line (C09_exact is about every text); the code drops text after a line break, the witness is proved"},
 {"property": "C10", "status": "proved", "theorems": ["Spex.C10_rows_preserved"], "note": ""},
 {"property": "C11", "status": "proved", "theorems": ["Spex.C11_visual_rows", "Spex.C11_row_without_own_cell_false", "Spex.C11_gap_false"], "note": "As stated, for grids without gaps in which every row has a cell of its own (rows may differ in width); otherwise cells are misplaced or lost, witnesses are proved"},
 {"property": "C12", "status": "proved", "theorems": ["Spex.C12_identity"], "note": ""},
 {"property": "C13", "status": "proved", "theorems": ["Spex.C13_choice", "Spex.C13_dispatch"], "note": ""},
 {"property": "C14", "status": "proved", "theorems": ["Spex.C14_struct_exact", "Spex.C14_value_exact", "Spex.C14_struct_columns", "Spex.C14_value_columns", "Spex.C14_row_cells", "Spex.C14_duplicate_headers_false"], "note": "the exact rule for every header list; with distinct headers it is the first column which names the component, with repeated ones it is not, the witness is proved"},
 {"property": "C15", "status": "proved", "theorems": ["Spex.C15_headers"], "note": ""},
 {"property": "C16", "status": "proved", "theorems": ["Spex.C16_partition"], "note": ""},
 {"property": "C17", "status": "proved", "theorems": ["Spex.C17_overlap_not_silent", "Spex.C17_C18_neighbours_exact"], "note": ""},
 {"property": "C18", "status": "proved", "theorems": ["Spex.C18_gap_not_silent", "Spex.C17_C18_neighbours_exact"], "note": ""},
 {"property": "C19", "status": "proved", "theorems": ["Spex.C19_no_false_alarm"], "note": ""},
 {"property": "C20", "status": "partial", "theorems": ["Spex.C20_order_exact", "Spex.C20_order_sound", "Spex.C20_order_complete_partial", "Spex.C20_order_never_silent", "Spex.C20_order_complete_false"], "note": "the code compares with the first field of a run only; an inversion of later fields is reported as T1001, the witness is proved"},
 {"property": "C21", "status": "proved", "theorems": ["Spex.C21_duplicate_labels_exact"], "note": ""},
 {"property": "C22", "status": "proved", "theorems": ["Spex.C22_duplicate_values_exact", "Spex.C21_duplicate_labels_exact"], "note": ""},
 {"property": "C23", "status": "proved", "theorems": ["Spex.C23_fields_from_rows", "Spex.C23_field_count"], "note": ""},
 {"property": "C24", "status": "proved", "theorems": ["Spex.C24_nested_linked", "Spex.C24_own_last"], "note": ""},
 {"property": "C25", "status": "proved", "theorems": ["Spex.C25_one_report"], "note": ""},
 {"property": "C26", "status": "partial", "theorems": ["Spex.C26_concatenation", "Spex.C26_ends_iff", "Spex.C26_isolation_partial", "Spex.C26_abort_false", "Spex.C26_abort_override_false"], "note": "a table without rows, or one which lacks the columns of its required extractor, aborts the run; witnesses are proved"},
 {"property": "C27", "status": "proved", "theorems": ["Spex.C27_good_prefix"], "note": ""},
 {"property": "C28", "status": "proved", "theorems": ["Spex.C28_skip_inert"], "note": ""},
 {"property": "C29", "status": "proved", "theorems": ["Spex.C29_ignore_only_hides"], "note": ""},
 {"property": "C30", "status": "proved", "theorems": ["Spex.C30_diagnostics_wellformed", "Spex.C30_message_code", "Spex.C30_exceptions"], "note": ""},
 {"property": "C31", "status": "proved", "theorems": ["Spex.C31_nothing_lost"], "note": ""},
 {"property": "C32", "status": "proved", "theorems": ["Spex.C32_terminates"], "note": ""},
 {"property": "C33", "status": "proved", "theorems": ["Spex.C33_numbering", "Spex.C33_placeholders_distinct"], "note": ""},
 {"property": "C34", "status": "partial", "theorems": ["Spex.C34_ranges", "Spex.C34_schema_partial", "Spex.C34_formula_false", "Spex.C34_empty_false"], "note": "the code also writes ranges with formulas which the schema does not allow, and figures without fields; witnesses are proved"},
 {"property": "C35", "status": "proved", "theorems": ["Spex.C35_empty_until_end", "Spex.C35_success", "Spex.C35_failure", "Spex.C35_stopped"], "note": ""},
 {"property": "C36", "status": "partial", "theorems": ["Spex.C36_override_honoured_partial", "Spex.C36_unused_inert", "Spex.C36_report_listed", "Spex.C36_struct_ignored_false"], "note": "for tables of values; for bits and bytes tables the code ignores overrides, the witness is proved"},
 {"property": "C37", "status": "proved", "theorems": ["Spex.C37_root_figure"], "note": ""},
 {"property": "C38", "status": "partial", "theorems": ["Spex.C38_counting", "Spex.C38_silent", "Spex.C38_html", "Spex.C38_html_silent", "Spex.C38_two_phases", "Spex.C38_bound_partial", "Spex.C38_bound_false"], "note": "nested and split figures count as well, so the total announced in the phase json can be exceeded; the witness is proved. The phase html is covered completely"},
 {"property": "C39", "status": "partial", "theorems": ["Spex.C39_tiling_partial", "Spex.C39_other_vmerge_refused", "Spex.C39_misaligned_false"], "note": "for tables whose vertical merges are aligned with the cell above; misaligned merges of the same width are accepted and do not tile, the witness is proved"},
 {"property": "C40", "status": "partial", "theorems": ["Spex.C40_cells_once_partial", "Spex.C40_zero_span_false"], "note": "for tables whose vertical merges are aligned with the cell above and whose column spans are positive; cells with the column span 0 are lost, the witness is proved; the content of a cell is read before any of it has been passed over as part of another table"},
 {"property": "C41", "status": "partial", "theorems": ["Spex.C41_two_stages_partial"], "note": "for tables with rectangular merges, whose data rows have each a cell of their own (rows may differ in width); header rows may stand anywhere, if no merge joins them with data rows; the other cases are false, see C39_misaligned_false and C11_row_without_own_cell_false"},
 {"property": "C42", "status": "proved", "theorems": ["Spex.C42_list", "Spex.C42_items_in_order", "Spex.C42_no_failure"], "note": ""},
 {"property": "C43", "status": "proved", "theorems": ["Spex.C43_body_well_formed", "Spex.C43_word_document"], "note": ""},
 {"property": "C44", "status": "partial", "theorems": ["Spex.C44_text", "Spex.C44_page_read_back_partial", "Spex.C44_title_false", "Spex.C44_head_false", "Spex.C44_cr_false"], "note": "title, revision and file name are written unescaped, and carriage returns are read as line feeds; witnesses are proved"},
 {"property": "C45", "status": "proved", "theorems": ["Spex.C45_same_class_iff_equal", "Spex.C45_sheet_defines_classes", "Spex.C45_caches_apart"], "note": ""},
 {"property": "C46", "status": "proved", "theorems": ["Spex.C46_assoc", "Spex.C46_identity", "Spex.C46_last_layer"], "note": ""},
 {"property": "C47", "status": "partial", "theorems": ["Spex.C47_decorations_partial", "Spex.C47_disabled_false"], "note": "for formatting without explicitly disabled decorations; an explicitly disabled one is shown, the witness is proved"},
 {"property": "C48", "status": "proved", "theorems": ["Spex.C48_history", "Spex.C48_chain", "Spex.C48_no_formatting"], "note": ""},
 {"property": "C49", "status": "partial", "theorems": ["Spex.C49_each_table_once", "Spex.C49_tables_of_page", "Spex.C49_document_order_partial", "Spex.C49_document_order_false", "Spex.C49_negative_span_false"], "note": "each table once, for documents without negative spans; the order is that of the document for the tables outside cells, but a table in a merged away cell comes later, and a negative span hides a table; witnesses are proved"},
 {"property": "C50", "status": "partial", "theorems": ["Spex.C50_nothing_invented", "Spex.C50_kept_exact", "Spex.C50_kept_all", "Spex.C50_text_preserved_partial", "Spex.C50_paragraph_kept", "Spex.C50_second_text_false", "Spex.C50_second_run_false"], "note": "for paragraphs whose runs hold at most one text and whose hyperlinks and fields hold one run; further texts are dropped, witnesses are proved; what is kept of any paragraph is stated exactly"},
 {"property": "C51", "status": "proved", "theorems": ["Spex.C51_header_text", "Spex.C51_revision", "Spex.C51_no_revision", "Spex.C51_title", "Spex.C51_identity"], "note": ""},
 {"property": "C52", "status": "proved", "theorems": ["Spex.C52_success", "Spex.C52_failure", "Spex.C52_status", "Spex.C52_other_suffix"], "note": ""},
 {"property": "C53", "status": "proved", "theorems": ["Spex.C53_accepted", "Spex.C53_refused"], "note": ""},
 {"property": "C54", "status": "proved", "theorems": ["Spex.C54_own_output", "Spex.C54_frame", "Spex.C54_same_name_false"], "note": "for inputs with the same name in different directories only the last model remains, the witness is proved"},
 {"property": "C55", "status": "partial", "theorems": ["Spex.C55_own_report_partial", "Spex.C55_same_name_partial", "Spex.C55_same_file_name_false"], "note": "False of the code: the cache is keyed by file name, so a second version sent under the same name replaces the report served under the hash of the first (C55_same_file_name_false). Proved for all histories in which different documents have different base names, and in general that what is served was made from a document of the same base name."},
 {"property": "C56", "status": "partial", "theorems": ["Spex.C56_not_served_partial", "Spex.C56_unknown_false"], "note": "False of the code: the answer is that of an exception (500) for every history and every such hash (C56_unknown_false). Proved: nothing is ever served under such a hash."},
 {"property": "C57", "status": "proved", "theorems": ["Spex.C57_standard", "Spex.C57_client"], "note": ""},
 {"property": "C58", "status": "proved", "theorems": ["Spex.C58_whole_file", "Spex.C58_pieces"], "note": "For every hash function which can be computed in a streaming way, as hashlib promises."},
 {"property": "C59", "status": "partial", "theorems": ["Spex.C59_stored_partial", "Spex.C59_confined_partial", "Spex.C59_outside_false"], "note": "False of the code: the file name of the client may lead anywhere (C59_outside_false). Proved for names which are the plain name of a file."},
 {"property": "C60", "status": "proved", "theorems": ["Spex.C60_removed", "Spex.C60_available"], "note": "A stream which is closed before anything was read from it leaves its directory to the finalizer of TemporaryDirectory; the theorem says so."},
 {"property": "C61", "status": "proved", "theorems": ["Spex.C61_roundtrip", "Spex.C61_injective", "Spex.C61_no_control"], "note": ""},
 {"property": "C62", "status": "proved", "theorems": ["Spex.C62_figure_id", "Spex.C62_title", "Spex.C62_body", "Spex.C62_wrapped", "Spex.C62_not_wrapped", "Spex.C62_tables"], "note": ""},
 {"property": "C63", "status": "proved", "theorems": ["Spex.C63_writer_history"], "note": ""},
 {"property": "C64", "status": "proved", "theorems": ["Spex.C64_list_terminates", "Spex.C64_document_terminates"], "note": ""},
 {"property": "C65", "status": "proved", "theorems": ["Spex.C65_identity", "Spex.C65_first_stage_failure"], "note": "for titles, revisions and file names without characters special to HTML (see C44)"},
 {"property": "C66", "status": "proved", "theorems": ["Spex.C66_figures"], "note": "for titles, revisions and file names without characters special to HTML (see C44)"},
 {"property": "C67", "status": "partial", "theorems": ["Spex.C67_cell_texts_partial", "Spex.C67_line_breaks"], "note": "For tables as in C41 (rectangular merges, data rows each with a cell of its own) and cells without nested tables and lists. The text of a paragraph is what C50 says is kept of it, with carriage returns read as line feeds (C67_line_breaks)."},
 {"property": "C68", "status": "partial", "theorems": ["Spex.C68_layout_figure_partial", "Spex.C68_in_json_partial"], "note": "For tables as in C67, not inside another table, with one heading row, headings that name bits or bytes and a description and no attribute column, labels in ASCII which do not begin with 'note', and figures without hard-coded extractors for that specification and revision."},
 {"property": "C69", "status": "partial", "theorems": ["Spex.C69_formatting_shown_partial", "Spex.C69_runs_partial", "Spex.C69_switch_false", "Spex.C69_auto_color_false", "Spex.C69_paragraph_style_false"], "note": "Holds when no line is switched off explicitly (C47), switches are not written as 'false' or 'off' and colours are six letters or digits; the three _false theorems show that other spellings and paragraph styles are not respected. Font sizes are left out by the code on purpose."},
 {"property": "C70", "status": "partial", "theorems": ["Spex.C70_markers_partial", "Spex.C70_letters_false", "Spex.C70_brackets_false", "Spex.C70_mixed_false", "Spex.C70_deep_false"], "note": "Holds for lists nested step by step in lists of the same kind whose level is a bullet or numbered with figures, small letters or small Roman numerals, when numberings list their levels in order; the four _false theorems show that the other cases go wrong."},
 {"property": "C71", "status": "partial", "theorems": ["Spex.C71_summary", "Spex.C71_diagnostics_partial", "Spex.C71_order", "Spex.C71_served_partial", "Spex.C71_inherited_false"], "note": "Holds unless a figure to be shown has the name of a property of every JavaScript object (e.g. 'constructor'): then no diagnostic is shown at all (C71_inherited_false). C71_served_partial: for the page the server makes after any history, under the conditions of C55."},
 {"property": "C72", "status": "partial", "theorems": ["Spex.C72_shown_partial", "Spex.C72_first_partial", "Spex.C72_table_number", "Spex.C72_difference_false", "Spex.C72_letter_false", "Spex.C72_word_false"], "note": "Holds for figures whose id is a number of at most 15 digits, if their table bears this number and no other does. C72_table_number says which tables of the Word document bear which number. The _false theorems show that other ids go wrong: for figure '12-1' the table of figure 11 is shown, for '5A' and words none."},
 {"property": "C73", "status": "partial", "theorems": ["Spex.C73_stream", "Spex.C73_report_partial", "Spex.C73_progress_partial", "Spex.C73_failure_false", "Spex.C73_split_false"], "note": "C73_stream holds for every history and every standard reader of event streams. The page itself needs that every event reaches it in one piece (C73_split_false otherwise), and tells nothing of failed runs (C73_failure_false)."},
 {"property": "C74", "status": "proved", "theorems": ["Spex.C74_answer"], "note": ""},
 {"property": "C75", "status": "partial", "theorems": ["Spex.C75_values_figure_partial", "Spex.C75_in_json_partial"], "note": "For tables as in C67, not inside another table, with one heading row, one column of values and one of descriptions and no attribute column, names in ASCII which start with a letter, and figures without hard-coded labels or extractors for that specification and revision."},
 {"property": "C76", "status": "partial", "theorems": ["Spex.C76_layout_partial", "Spex.C76_values_partial", "Spex.C76_in_json_partial"], "note": "For tables as in C67, not inside another table, with one heading row, plain paragraphs in the cells, at least one paragraph in each label cell, no number of more than 4300 digits in a range cell, and figures without hard-coded extractors for that specification and revision."},
 {"property": "C77", "status": "partial", "theorems": ["Spex.C77_cell_reads_partial"], "note": "For tables as in C67 (inner tables too). The text of a paragraph is what C50 says is kept of it, with carriage returns read as line feeds."},
 {"property": "C78", "status": "partial", "theorems": ["Spex.C78_figures_partial", "Spex.C78_in_json_partial"], "note": "For figures without hard-coded extractors for that specification and revision (one figure in each of three specifications), with a heading row on top at every depth (repeated headings are read by the rule of C14); there may be further header rows anywhere; tables as in C67. The entities and all diagnostics are stated exactly, for rows which lack cells too."},
 {"property": "C79", "status": "proved", "theorems": ["Spex.C79_entity", "Spex.C79_diagnostic", "Spex.C79_read_back"], "note": ""},
 {"property": "C80", "status": "partial", "theorems": ["Spex.C80_own_tables_partial", "Spex.C80_whole_document_partial"], "note": "For documents in which all merges are rectangular (as in C67), each table on its own is, or wraps, a figure as in C78, a figure with an extractor of its own (with the columns it expects, or with others), a table below a title without an id, or one without the word Figure, and first rows are plain. Which tables are tables of their own, the file and the result of the run are stated exactly."},
 {"property": "C81", "status": "proved", "theorems": ["Spex.C81_cut_short", "Spex.C81_killed", "Spex.C81_validated"], "note": "A kill is modelled as a state of the files (Model/Kill): the HTML and CSS files may hold anything until the first stage is over, the JSON file any first part of its final text. Files cut within the bytes of a character (which cannot be decoded) and buffers of the operating system are not modelled."},
 {"property": "C82", "status": "proved", "theorems": ["Spex.C82_restart", "Spex.C82_restart_cli", "Spex.C82_again", "Spex.C82_from_page", "Spex.C82_from_cut_page", "Spex.C82_same_name_false"], "note": "For inputs whose names differ in more than their suffix; C82_same_name_false shows that this is needed. The statement about a page which was cut uses the reader of XML of Model/XmlRead in the place of lxml."},
 {"property": "C83", "status": "proved", "theorems": ["Spex.C83_files", "Spex.C83_left_page", "Spex.C83_readable_iff", "Spex.C83_run"], "note": "For documents whose title, revision and file name have no characters with a special meaning and whose text can be written in XML. The reader of XML of Model/XmlRead stands for lxml. That the files are written when the renderer is destroyed is taken from the code, not modelled."},
 {"property": "C84", "status": "partial", "theorems": ["Spex.C84_same_run", "Spex.C84_figure", "Spex.C84_document", "Spex.C84_aborted_partial", "Spex.C84_program", "Spex.C84_summary", "Spex.C84_unnamed_false"], "note": "False of the code when a table has no row or lacks the columns which an extractor of its own expects: the run ends without the figure being named (C84_unnamed_false), which C84_aborted_partial says exactly. Levels, colours and layout of the messages, stack traces and spex.log are not modelled."},
 {"property": "C85", "status": "proved", "theorems": ["Spex.C85_opened", "Spex.C85_taken", "Spex.C85_refused"], "note": "The archive itself is not modelled: each of the four files is there as XML, or raises an exception (KeyError if it is missing)."},
 {"property": "C86", "status": "partial", "theorems": ["Spex.C86_next_to_page_partial", "Spex.C86_served_false"], "note": "Holds in the output directory. False of the server: it keeps the page and the JSON file of an upload but not the style sheet, so the reference gives an error whatever the history (C86_served_false)."},
 {"property": "C87", "status": "partial", "theorems": ["Spex.C87_field", "Spex.C87_distinct_partial", "Spex.C87_clean_partial", "Spex.C87_distinct_false", "Spex.C87_underscore_false", "Spex.C87_field_false"], "note": "C87_field is proved for documents of which no figure failed; a figure which fails leaves nested entities whose parent is missing (C87_field_false). The ids are different under conditions on the document: ids of titles and keys without underscores, different keys within an entity (in C87_clean_partial these follow from the diagnostics), at most one table in a cell. Without the last or the first two entities can have the same id and nothing is reported (C87_distinct_false, C87_underscore_false)."},
 {"property": "C88", "status": "partial", "theorems": ["Spex.C88_local_partial", "Spex.C88_revision_false"], "note": "Proved for revisions which are treated alike, in particular all without entries in the table of quirks. False between a revision with such an entry and one without: the same table gives other labels (C88_revision_false)."},
 {"property": "C89", "status": "partial", "theorems": ["Spex.C89_script", "Spex.C89_order", "Spex.C89_markup_partial", "Spex.C89_figure_id_false", "Spex.C89_markup_false"], "note": "Proved for the data of the script, and for the markup of documents from Word unless `<` stands in the id of a figure. False in general: the id of a figure without a table of its number is inserted as markup, so a tag in the title of a figure becomes a tag of the page (C89_markup_false)."},
 {"property": "C90", "status": "proved", "theorems": ["Spex.C90_file", "Spex.C90_console", "Spex.C90_killed", "Spex.C90_stdout"], "note": "Without SPEX_DEBUG and colours; stack frames and contexts are data, contexts are assumed to be JSON."},
 {"property": "C91", "status": "partial", "theorems": ["Spex.C91_accepted", "Spex.C91_one_meaning", "Spex.C91_path", "Spex.C91_text", "Spex.C91_output", "Spex.C91_run", "Spex.C91_failed", "Spex.C91_refused_partial", "Spex.C91_refused_false"], "note": "False of the code: a command line which is refused can leave directories behind, because arg_output makes them while argparse still reads (C91_refused_false). Everything else is proved. Symbolic links and permissions are not modelled."},
 {"property": "C92", "status": "proved", "theorems": ["Spex.C92_attribute", "Spex.C92_missing", "Spex.C92_element", "Spex.C92_descendants", "Spex.C92_order"], "note": "For the queries used, which are paths of child steps and `.//name`. XPath itself is lxml's; the other properties of Word documents refer to these queries."},
 {"property": "C93", "status": "partial", "theorems": ["Spex.C93_downloads", "Spex.C93_bundle_partial", "Spex.C93_alone_false"], "note": "That a downloaded report can be shown without a network is false of the code: it still refers to a style sheet on another server (C93_alone_false). Checksums are assumed to be hexadecimal digits. The contents of the style sheets and scripts are not modelled."},
 {"property": "C94", "status": "partial", "theorems": ["Spex.C94_same", "Spex.C94_stream", "Spex.C94_served_partial", "Spex.C94_reports", "Spex.C94_elsewhere_false"], "note": "Needs file names without directories: with another name an upload replaces the document of another one (C94_elsewhere_false). C94_served_partial also needs that different documents are never sent under names with the same base name, as C55 does. The reports of the first stage are read from a list which does not depend on files written meanwhile; for Word documents it is that of the modelled first stage (C94_reports)."},
 {"property": "C95", "status": "partial", "theorems": ["Spex.C95_served_partial", "Spex.C95_word_partial", "Spex.C95_same_name_false"], "note": "Needs file names without directories, different base names for different documents, and that no other document sent has the same checksum. With one name for two documents it is false (C95_same_name_false). C95_word_partial is for the Word documents of C80."},
 {"property": "C96", "status": "proved", "theorems": ["Spex.C96_number", "Spex.C96_not_a_number", "Spex.C96_unique", "Spex.C96_spans", "Spex.C96_written", "Spex.C96_read_back"], "note": "`int` and `str` are Python's and modelled from its documentation and CPython's source; which characters are decimal digits and with which value is a table of the class Uni. The numbers of lists, levels and spans in other properties are stated with the same WholeNumber."},
 {"property": "C97", "status": "proved", "theorems": ["Spex.C97_content", "Spex.C97_same_output"], "note": "Of the head, which names the specification and its revision, everything counts. Outside the paragraphs of cells the nesting of elements counts, but no attribute other than colspan and rowspan."},
 {"property": "C98", "status": "partial", "theorems": ["Spex.C98_shutdown_partial", "Spex.C98_kept_partial", "Spex.C98_forgotten", "Spex.C98_too_large", "Spex.C98_killed_false"], "note": "The files and directories are as before for file names without directories (with others C59 is false). A server which is killed leaves its cache and the documents sent, and no later server removes them (C98_killed_false). That the directories are removed at the shutdown relies on the finalizers of tempfile.TemporaryDirectory, as `cleanup` is named but not called."},
 {"property": "C99", "status": "partial", "theorems": ["Spex.C99_figure_partial", "Spex.C99_page_partial", "Spex.C99_no_spans", "Spex.C99_order_false", "Spex.C99_two_columns_false"], "note": "Columns with ranges or values keep their order among each other, and so do columns with labels or descriptions; otherwise it is false of the code, which takes the first column that can be read for labels (C99_order_false). There has to be a column of descriptions, because a table of values without one is only read if it has two columns (C99_two_columns_false). Rows have a cell (with a paragraph for labels and descriptions) below each heading which counts, or are rows of headings, or have one cell; figures have no extractor of their own."},
 {"property": "C100", "status": "proved", "theorems": ["Spex.C100_only_tables", "Spex.C100_model", "Spex.C100_continued"], "note": "For two Word files with the same styles, numbering and header. The page, the style sheet, the reports, the exception if there is one, the files left behind by a failure and the JSON model are equal if the outermost tables are the same in the same order; C100_continued is about documents which have further tables at their end."},
 {"property": "C101", "status": "proved", "theorems": ["Spex.C101_order", "Spex.C101_split", "Spex.C101_alone", "Spex.C101_same_name_false", "Spex.C101_page_false"], "note": "For names which differ in more than their suffix. Without this it is false of the code: with the same name in two directories the order decides which model is left (C101_same_name_false), and a page made by a run can be an input of the next run only (C101_page_false). The log file is not among the files here (see C90)."},
 {"property": "C102", "status": "proved", "theorems": ["Spex.C102_together", "Spex.C102_ends", "Spex.C102_names", "Spex.C102_directories", "Spex.C102_same_output_false"], "note": "Under the condition of the statement; with a common output, a run which is successful alone can fail (C102_same_output_false). A file is truncated in one step and written in one step; what can be in it between is not seen by a run which does not read it. The log file in the working directory is not among the files: a second run in the same directory removes the log of the first."},
 {"property": "C103", "status": "proved", "theorems": ["Spex.C103_context", "Spex.C103_card", "Spex.C103_heading", "Spex.C103_columns_false"], "note": "The headings of a table are shown with commas between them, and cannot be told apart if there are commas in them (C103_columns_false). What `x-text` shows of a value is modelled from the documentation of Alpine and JavaScript. Which cards are on the page is C71."},
 {"property": "C104", "status": "partial", "theorems": ["Spex.C104_debug_values", "Spex.C104_debug", "Spex.C104_quiet", "Spex.C104_port", "Spex.C104_cache_partial", "Spex.C104_cache_false"], "note": "That the server keeps no reports with SPEX_CACHE=n is false of the code, which only prints the setting (C104_cache_false). The values of SPEX_DEBUG and SPEX_CACHE consist of ASCII characters. Colours are left out, and what loguru makes of an exception is arbitrary."}
]}
