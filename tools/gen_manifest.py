#!/usr/bin/env python3
"""Writes MANIFEST.json. One entry per property: status, theorem names (without namespace), note."""
import json, os

CLAIMS = [
    ("C01", "proved", "C01_document C01_range_iff C01_range_exact C01_row_range_exact", ""),
    ("C02", "proved", "C01_range_iff C02_range_diagnostics C01_document", ""),
    ("C03", "partial", "C03_dynamic_iff C03_dynamic_range C03_dynamic_range_invalid C03_document_partial C03_reserved_false",
     "the ranges of reserved and obsolete rows of a dynamic list are read as if they were outside of it, the witness is proved"),
    ("C04", "proved", "C04_document C04_brief_ok", ""),
    ("C05", "proved", "C01_document C05_document_values C05_brief_quotation C05_brief_exact", ""),
    ("C06", "proved", "C06_document C06_document_values C06_normalize_alphabet C06_normalize_exact C06_normal_iff", ""),
    ("C07", "partial", "C07_document_sound C07_document_partial C07_document_values_partial C07_identifier_silent C07_invalid_flagged_partial C07_invalid_flagged_false C07_blank_false",
     "the code does not flag every label which is not an identifier, and flags labels written with a blank in a column of their own; witnesses are proved"),
    ("C08", "proved", "C08_label_exact C08_value_label_exact C01_document C05_document_values C08_total C08_acronym C08_initials", ""),
    ("C09", "proved", "C09_exact C05_document_values C09_rearrange_num_label C09_text_kept C09_multiline_false",
     "As stated, for labels of one line (C09_exact is about every text); the code drops text after a line break, the witness is proved"),
    ("C10", "proved", "C10_rows_preserved", ""),
    ("C11", "proved", "C11_visual_rows C11_row_without_own_cell_false C11_gap_false",
     "As stated, for grids without gaps in which every row has a cell of its own (rows may differ in width); otherwise cells are misplaced or lost, witnesses are proved"),
    ("C12", "proved", "C12_identity", ""),
    ("C13", "proved", "C13_choice C13_dispatch", ""),
    ("C14", "proved", "C14_struct_exact C14_value_exact C14_struct_columns C14_value_columns C14_row_cells C14_duplicate_headers_false",
     "the exact rule for every header list; with distinct headers it is the first column which names the component, with repeated ones it is not, the witness is proved"),
    ("C15", "proved", "C15_headers", ""),
    ("C16", "proved", "C16_partition", ""),
    ("C17", "proved", "C17_overlap_not_silent C17_C18_neighbours_exact", ""),
    ("C18", "proved", "C18_gap_not_silent C17_C18_neighbours_exact", ""),
    ("C19", "proved", "C19_no_false_alarm", ""),
    ("C20", "partial", "C20_order_exact C20_order_sound C20_order_complete_partial C20_order_never_silent C20_order_complete_false",
     "the code compares with the first field of a run only; an inversion of later fields is reported as T1001, the witness is proved"),
    ("C21", "proved", "C21_duplicate_labels_exact", ""),
    ("C22", "proved", "C22_duplicate_values_exact C21_duplicate_labels_exact", ""),
    ("C23", "proved", "C23_fields_from_rows C23_field_count", ""),
    ("C24", "proved", "C24_nested_linked C24_own_last", ""),
    ("C25", "proved", "C25_one_report", ""),
    ("C26", "partial", "C26_concatenation C26_ends_iff C26_isolation_partial C26_abort_false C26_abort_override_false",
     "a table without rows, or one which lacks the columns of its required extractor, aborts the run; witnesses are proved"),
    ("C27", "proved", "C27_good_prefix", ""),
    ("C28", "proved", "C28_skip_inert", ""),
    ("C29", "proved", "C29_ignore_only_hides", ""),
    ("C30", "proved", "C30_diagnostics_wellformed C30_message_code C30_exceptions", ""),
    ("C31", "proved", "C31_nothing_lost", ""),
    ("C32", "proved", "C32_terminates", ""),
    ("C33", "proved", "C33_numbering C33_placeholders_distinct", ""),
    ("C34", "partial", "C34_ranges C34_schema_partial C34_formula_false C34_empty_false",
     "the code also writes ranges with formulas which the schema does not allow, and figures without fields; witnesses are proved"),
    ("C35", "proved", "C35_empty_until_end C35_success C35_failure C35_stopped", ""),
    ("C36", "partial", "C36_override_honoured_partial C36_unused_inert C36_report_listed C36_struct_ignored_false",
     "for tables of values; for bits and bytes tables the code ignores overrides, the witness is proved"),
    ("C37", "proved", "C37_root_figure", ""),
    ("C38", "partial", "C38_counting C38_silent C38_html C38_html_silent C38_two_phases C38_bound_partial C38_bound_false",
     "nested and split figures count as well, so the total announced in the phase json can be exceeded; the witness is proved. The phase html is covered completely"),
    ("C39", "partial", "C39_tiling_partial C39_other_vmerge_refused C39_misaligned_false",
     "for tables whose vertical merges are aligned with the cell above; misaligned merges of the same width are accepted and do not tile, the witness is proved"),
    ("C40", "partial", "C40_cells_once_partial C40_zero_span_false",
     "for tables whose vertical merges are aligned with the cell above and whose column spans are positive; cells with the column span 0 are lost, the witness is proved; the content of a cell is read before any of it has been passed over as part of another table"),
    ("C41", "partial", "C41_two_stages_partial",
     "for tables with rectangular merges, whose data rows have each a cell of their own (rows may differ in width); header rows may stand anywhere, if no merge joins them with data rows; the other cases are false, see C39_misaligned_false and C11_row_without_own_cell_false"),
    ("C42", "proved", "C42_list C42_items_in_order C42_no_failure", ""),
    ("C43", "proved", "C43_body_well_formed C43_word_document", ""),
    ("C44", "partial", "C44_text C44_page_read_back_partial C44_title_false C44_head_false C44_cr_false",
     "title, revision and file name are written unescaped, and carriage returns are read as line feeds; witnesses are proved"),
    ("C45", "proved", "C45_same_class_iff_equal C45_sheet_defines_classes C45_caches_apart", ""),
    ("C46", "proved", "C46_assoc C46_identity C46_last_layer", ""),
    ("C47", "partial", "C47_decorations_partial C47_disabled_false",
     "for formatting without explicitly disabled decorations; an explicitly disabled one is shown, the witness is proved"),
    ("C48", "proved", "C48_history C48_chain C48_no_formatting", ""),
    ("C49", "partial", "C49_each_table_once C49_tables_of_page C49_document_order_partial C49_document_order_false C49_negative_span_false",
     "each table once, for documents without negative spans; the order is that of the document for the tables outside cells, but a table in a merged away cell comes later, and a negative span hides a table; witnesses are proved"),
    ("C50", "partial", "C50_nothing_invented C50_kept_exact C50_kept_all C50_text_preserved_partial C50_paragraph_kept C50_second_text_false C50_second_run_false",
     "for paragraphs whose runs hold at most one text and whose hyperlinks and fields hold one run; further texts are dropped, witnesses are proved; what is kept of any paragraph is stated exactly"),
    ("C51", "proved", "C51_header_text C51_revision C51_no_revision C51_title C51_identity", ""),
    ("C52", "proved", "C52_success C52_failure C52_status C52_other_suffix", ""),
    ("C53", "proved", "C53_accepted C53_refused", ""),
    ("C54", "proved", "C54_own_output C54_frame C54_same_name_false", "for inputs with the same name in different directories only the last model remains, the witness is proved"),
    ("C55", "partial", "C55_own_report_partial C55_same_name_partial C55_same_file_name_false",
     "False of the code: the cache is keyed by file name, so a second version sent under the same name replaces the report served under the hash of the first (C55_same_file_name_false). Proved for all histories in which different documents have different base names, and in general that what is served was made from a document of the same base name."),
    ("C56", "partial", "C56_not_served_partial C56_unknown_false",
     "False of the code: the answer is that of an exception (500) for every history and every such hash (C56_unknown_false). Proved: nothing is ever served under such a hash."),
    ("C57", "proved", "C57_standard C57_client", ""),
    ("C58", "proved", "C58_whole_file C58_pieces", "For every hash function which can be computed in a streaming way, as hashlib promises."),
    ("C59", "partial", "C59_stored_partial C59_confined_partial C59_outside_false",
     "False of the code: the file name of the client may lead anywhere (C59_outside_false). Proved for names which are the plain name of a file."),
    ("C60", "proved", "C60_removed C60_available",
     "A stream which is closed before anything was read from it leaves its directory to the finalizer of TemporaryDirectory; the theorem says so."),
    ("C61", "proved", "C61_roundtrip C61_injective C61_no_control", ""),
    ("C62", "proved", "C62_figure_id C62_title C62_body C62_wrapped C62_not_wrapped C62_tables", ""),
    ("C63", "proved", "C63_writer_history", ""),
    ("C64", "proved", "C64_list_terminates C64_document_terminates", ""),
    ("C65", "proved", "C65_identity C65_first_stage_failure", "for titles, revisions and file names without characters special to HTML (see C44)"),
    ("C66", "proved", "C66_figures", "for titles, revisions and file names without characters special to HTML (see C44)"),
    ("C67", "partial", "C67_cell_texts_partial C67_line_breaks",
     "For tables as in C41 (rectangular merges, data rows each with a cell of its own) and cells without nested tables and lists. The text of a paragraph is what C50 says is kept of it, with carriage returns read as line feeds (C67_line_breaks)."),
    ("C68", "partial", "C68_layout_figure_partial C68_in_json_partial",
     "For tables as in C67, not inside another table, with one heading row, headings that name bits or bytes and a description and no attribute column, labels in ASCII which do not begin with 'note', and figures without hard-coded extractors for that specification and revision."),
    ("C69", "partial", "C69_formatting_shown_partial C69_runs_partial C69_switch_false C69_auto_color_false C69_paragraph_style_false",
     "Holds when no line is switched off explicitly (C47), switches are not written as 'false' or 'off' and colours are six letters or digits; the three _false theorems show that other spellings and paragraph styles are not respected. Font sizes are left out by the code on purpose."),
    ("C70", "partial", "C70_markers_partial C70_letters_false C70_brackets_false C70_mixed_false C70_deep_false",
     "Holds for lists nested step by step in lists of the same kind whose level is a bullet or numbered with figures, small letters or small Roman numerals, when numberings list their levels in order; the four _false theorems show that the other cases go wrong."),
    ("C71", "partial", "C71_summary C71_diagnostics_partial C71_order C71_served_partial C71_inherited_false",
     "Holds unless a figure to be shown has the name of a property of every JavaScript object (e.g. 'constructor'): then no diagnostic is shown at all (C71_inherited_false). C71_served_partial: for the page the server makes after any history, under the conditions of C55."),
    ("C72", "partial", "C72_shown_partial C72_first_partial C72_table_number C72_difference_false C72_letter_false C72_word_false",
     "Holds for figures whose id is a number of at most 15 digits, if their table bears this number and no other does. C72_table_number says which tables of the Word document bear which number. The _false theorems show that other ids go wrong: for figure '12-1' the table of figure 11 is shown, for '5A' and words none."),
    ("C73", "partial", "C73_stream C73_report_partial C73_progress_partial C73_failure_false C73_split_false",
     "C73_stream holds for every history and every standard reader of event streams. The page itself needs that every event reaches it in one piece (C73_split_false otherwise), and tells nothing of failed runs (C73_failure_false)."),
    ("C74", "proved", "C74_answer", ""),
    ("C75", "partial", "C75_values_figure_partial C75_in_json_partial",
     "For tables as in C67, not inside another table, with one heading row, one column of values and one of descriptions and no attribute column, names in ASCII which start with a letter, and figures without hard-coded labels or extractors for that specification and revision."),
    ("C76", "partial", "C76_layout_partial C76_values_partial C76_in_json_partial",
     "For tables as in C67, not inside another table, with one heading row, plain paragraphs in the cells, at least one paragraph in each label cell, no number of more than 4300 digits in a range cell, and figures without hard-coded extractors for that specification and revision."),
    ("C77", "partial", "C77_cell_reads_partial",
     "For tables as in C67 (inner tables too). The text of a paragraph is what C50 says is kept of it, with carriage returns read as line feeds."),
    ("C78", "partial", "C78_figures_partial C78_in_json_partial",
     "For figures without hard-coded extractors for that specification and revision (one figure in each of three specifications), with a heading row on top at every depth (repeated headings are read by the rule of C14); there may be further header rows anywhere; tables as in C67. The entities and all diagnostics are stated exactly, for rows which lack cells too."),
    ("C79", "proved", "C79_entity C79_diagnostic C79_read_back", ""),
    ("C80", "partial", "C80_own_tables_partial C80_whole_document_partial",
     "For documents in which all merges are rectangular (as in C67), each table on its own is, or wraps, a figure as in C78, a figure with an extractor of its own (with the columns it expects, or with others), a table below a title without an id, or one without the word Figure, and first rows are plain. Which tables are tables of their own, the file and the result of the run are stated exactly."),
    ("C81", "proved", "C81_cut_short C81_killed C81_validated",
     "A kill is modelled as a state of the files (Model/Kill): the HTML and CSS files may hold anything until the first stage is over, the JSON file any first part of its final text. Files cut within the bytes of a character (which cannot be decoded) and buffers of the operating system are not modelled."),
    ("C82", "proved", "C82_restart C82_restart_cli C82_again C82_from_page C82_from_cut_page C82_same_name_false",
     "For inputs whose names differ in more than their suffix; C82_same_name_false shows that this is needed. The statement about a page which was cut uses the reader of XML of Model/XmlRead in the place of lxml."),
    ("C83", "proved", "C83_files C83_left_page C83_readable_iff C83_run",
     "For documents whose title, revision and file name have no characters with a special meaning and whose text can be written in XML. The reader of XML of Model/XmlRead stands for lxml. That the files are written when the renderer is destroyed is taken from the code, not modelled."),
    ("C84", "partial", "C84_same_run C84_figure C84_document C84_aborted_partial C84_program C84_summary C84_unnamed_false",
     "False of the code when a table has no row or lacks the columns which an extractor of its own expects: the run ends without the figure being named (C84_unnamed_false), which C84_aborted_partial says exactly. Levels, colours and layout of the messages, stack traces and spex.log are not modelled."),
    ("C85", "proved", "C85_opened C85_taken C85_refused",
     "The archive itself is not modelled: each of the four files is there as XML, or raises an exception (KeyError if it is missing)."),
    ("C86", "partial", "C86_next_to_page_partial C86_served_false",
     "Holds in the output directory. False of the server: it keeps the page and the JSON file of an upload but not the style sheet, so the reference gives an error whatever the history (C86_served_false)."),
    ("C87", "partial", "C87_field C87_distinct_partial C87_clean_partial C87_distinct_false C87_underscore_false C87_field_false",
     "C87_field is proved for documents of which no figure failed; a figure which fails leaves nested entities whose parent is missing (C87_field_false). The ids are different under conditions on the document: ids of titles and keys without underscores, different keys within an entity (in C87_clean_partial these follow from the diagnostics), at most one table in a cell. Without the last or the first two entities can have the same id and nothing is reported (C87_distinct_false, C87_underscore_false)."),
    ("C88", "partial", "C88_local_partial C88_revision_false",
     "Proved for revisions which are treated alike, in particular all without entries in the table of quirks. False between a revision with such an entry and one without: the same table gives other labels (C88_revision_false)."),
    ("C89", "partial", "C89_script C89_order C89_markup_partial C89_figure_id_false C89_markup_false",
     "Proved for the data of the script, and for the markup of documents from Word unless `<` stands in the id of a figure. False in general: the id of a figure without a table of its number is inserted as markup, so a tag in the title of a figure becomes a tag of the page (C89_markup_false)."),
    ("C90", "proved", "C90_file C90_console C90_killed C90_stdout",
     "Without SPEX_DEBUG and colours; stack frames and contexts are data, contexts are assumed to be JSON."),
    ("C91", "partial", "C91_accepted C91_one_meaning C91_path C91_text C91_output C91_run C91_failed C91_refused_partial C91_refused_false",
     "False of the code: a command line which is refused can leave directories behind, because arg_output makes them while argparse still reads (C91_refused_false). Everything else is proved. Symbolic links and permissions are not modelled."),
    ("C92", "proved", "C92_attribute C92_missing C92_element C92_descendants C92_order",
     "For the queries used, which are paths of child steps and `.//name`. XPath itself is lxml's; the other properties of Word documents refer to these queries."),
    ("C93", "partial", "C93_downloads C93_bundle_partial C93_alone_false",
     "That a downloaded report can be shown without a network is false of the code: it still refers to a style sheet on another server (C93_alone_false). Checksums are assumed to be hexadecimal digits. The contents of the style sheets and scripts are not modelled."),
    ("C94", "partial", "C94_same C94_stream C94_served_partial C94_reports C94_elsewhere_false",
     "Needs file names without directories: with another name an upload replaces the document of another one (C94_elsewhere_false). C94_served_partial also needs that different documents are never sent under names with the same base name, as C55 does. The reports of the first stage are read from a list which does not depend on files written meanwhile; for Word documents it is that of the modelled first stage (C94_reports)."),
    ("C95", "partial", "C95_served_partial C95_word_partial C95_same_name_false",
     "Needs file names without directories, different base names for different documents, and that no other document sent has the same checksum. With one name for two documents it is false (C95_same_name_false). C95_word_partial is for the Word documents of C80."),
    ("C96", "proved", "C96_number C96_not_a_number C96_unique C96_spans C96_written C96_read_back",
     "`int` and `str` are Python's and modelled from its documentation and CPython's source; which characters are decimal digits and with which value is a table of the class Uni. The numbers of lists, levels and spans in other properties are stated with the same WholeNumber."),
    ("C97", "proved", "C97_content C97_same_output",
     "Of the head, which names the specification and its revision, everything counts. Outside the paragraphs of cells the nesting of elements counts, but no attribute other than colspan and rowspan."),
    ("C98", "partial", "C98_shutdown_partial C98_kept_partial C98_forgotten C98_too_large C98_killed_false",
     "The files and directories are as before for file names without directories (with others C59 is false). A server which is killed leaves its cache and the documents sent, and no later server removes them (C98_killed_false). That the directories are removed at the shutdown relies on the finalizers of tempfile.TemporaryDirectory, as `cleanup` is named but not called."),
    ("C99", "partial", "C99_figure_partial C99_page_partial C99_no_spans C99_order_false C99_two_columns_false",
     "Columns with ranges or values keep their order among each other, and so do columns with labels or descriptions; otherwise it is false of the code, which takes the first column that can be read for labels (C99_order_false). There has to be a column of descriptions, because a table of values without one is only read if it has two columns (C99_two_columns_false). Rows have a cell (with a paragraph for labels and descriptions) below each heading which counts, or are rows of headings, or have one cell; figures have no extractor of their own."),
    ("C100", "proved", "C100_only_tables C100_model C100_continued",
     "For two Word files with the same styles, numbering and header. The page, the style sheet, the reports, the exception if there is one, the files left behind by a failure and the JSON model are equal if the outermost tables are the same in the same order; C100_continued is about documents which have further tables at their end."),
    ("C101", "proved", "C101_order C101_split C101_alone C101_same_name_false C101_page_false",
     "For names which differ in more than their suffix. Without this it is false of the code: with the same name in two directories the order decides which model is left (C101_same_name_false), and a page made by a run can be an input of the next run only (C101_page_false). The log file is not among the files here (see C90)."),
    ("C102", "proved", "C102_together C102_ends C102_names C102_directories C102_same_output_false",
     "Under the condition of the statement; with a common output, a run which is successful alone can fail (C102_same_output_false). A file is truncated in one step and written in one step; what can be in it between is not seen by a run which does not read it. The log file in the working directory is not among the files: a second run in the same directory removes the log of the first."),
    ("C103", "proved", "C103_context C103_card C103_heading C103_columns_false",
     "The headings of a table are shown with commas between them, and cannot be told apart if there are commas in them (C103_columns_false). What `x-text` shows of a value is modelled from the documentation of Alpine and JavaScript. Which cards are on the page is C71."),
    ("C104", "partial", "C104_debug_values C104_debug C104_quiet C104_port C104_cache_partial C104_cache_false",
     "That the server keeps no reports with SPEX_CACHE=n is false of the code, which only prints the setting (C104_cache_false). The values of SPEX_DEBUG and SPEX_CACHE consist of ASCII characters. Colours are left out, and what loguru makes of an exception is arbitrary."),
]

here = os.path.dirname(os.path.dirname(os.path.abspath(__file__)))
lines = []
for pid, status, thms, note in CLAIMS:
    lines.append(" " + json.dumps({"property": pid, "status": status,
                                   "theorems": ["Spex." + t for t in thms.split()], "note": note}))
with open(os.path.join(here, "MANIFEST.json"), "w") as f:
    f.write('{"claims": [\n' + ",\n".join(lines) + "\n]}\n")
