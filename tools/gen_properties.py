#!/usr/bin/env python3
"""Writes /verif/properties.jsonl (one JSON object per line)."""
import json, pathlib
P = []
def p(id, title, statement, quantifier, why, *anchors):
    P.append(dict(id=id, title=title, statement=statement, quantifier=quantifier,
                  why_tests_cant=why, anchors=list(anchors)))
S="src/spex/jsonspec/extractors/structtable.py"; V="src/spex/jsonspec/extractors/valuetable.py"
H="src/spex/jsonspec/extractors/helpers.py"; R="src/spex/jsonspec/extractors/regular_expressions.py"
D="src/spex/jsonspec/document.py"; RI="src/spex/jsonspec/rowiter.py"; F="src/spex/jsonspec/extractors/figure.py"
L="src/spex/jsonspec/lint.py"; PS="src/spex/parse.py"; W="src/spex/writer.py"; M="src/spex/__main__.py"
TW="src/spex/htmlspec/docx/tablewrap.py"; HP="src/spex/htmlspec/parser.py"; HR="src/spex/htmlspec/htmlrenderer.py"
CSS="src/spex/htmlspec/css.py"; RP="src/spex/htmlspec/docx/runproperties.py"; ST="src/spex/htmlspec/docx/styles.py"
NU="src/spex/htmlspec/docx/numbering.py"; HD="src/spex/htmlspec/docx/header.py"; APP="src/spexsrv/application/app.py"
Q="src/spex/jsonspec/quirks/"; SC="src/spex/resources/stage2.schema.json"; STM="src/spex/htmlspec/stream.py"
RV="src/spexsrv/application/report_view.py"

p("C01","Range cells decode to the exact decimal offsets",
  "A bits/bytes row whose range cell reads H or H:L (decimal, any zero padding, any white space around the colon, any trailing text that does not extend the numbers) is emitted with range {low: L, high: H}, or {low: H, high: H} for the single form, with the exact decimal values; no range diagnostic is raised when L <= H.",
  "all pairs of decimal numerals of any length (below CPython's 4300 digit limit), all white space between the parts, all trailing text",
  "the space of numerals, paddings and spacing is infinite; tests sample a handful of ranges",
  S+"::_parse_range", R+"::RANGE_REGEX")
p("C02","Range diagnostics are exact",
  "Parsing a range cell outside a dynamic list raises R1001 exactly when the text does not start with a decimal digit (and then the text itself is emitted as the range), raises R1002 exactly when the parsed low exceeds the parsed high, and raises nothing else.",
  "every range text", "must hold for every string, including malformed ones", S+"::_parse_range")
p("C03","Dynamic-list ranges keep both formulas, in the right roles",
  "In a dynamic list section a range text 'A:B' over letters, digits, + - * ( ) with arbitrary blanks and newlines followed by anything is emitted as {low: B, high: A} with all blanks and newlines removed (what follows is dropped); any other text is emitted verbatim with R1001.",
  "every range text", "infinite input space", S+"::_parse_dynamic_range", R+"::DYNAMIC_RANGE_REGEX")
p("C04","Briefs are bounded and trimmed",
  "Every brief found anywhere in the generated model, in any field of any figure, is at most 60 characters long, does not end with a period and does not start with a space; struct briefs are also never empty.",
  "every document, every figure, nesting depth and field", "quantifies over all documents and cell texts",
  H+"::content_extract_brief", S+"::_struct_field", V+"::_content_extract_brief")
p("C05","Briefs are quotations of the cell",
  "A brief is always a contiguous piece of the content cell's text, located after text of the label part; a cell text without a colon never yields a brief. It is the description behind the name, the acronym in parentheses and the colon, without blanks in front and periods at the end, if that has at most 60 characters, and else its first sentence if that has; else there is none.",
  "every cell text", "infinite input space; depends on regex backtracking behaviour", H+"::content_extract_brief", R+"::STRUCT_LABEL_REGEX")
p("C06","Label alphabet",
  "A label emitted by the normaliser contains no blank, no slash and no hyphen; struct labels are lower case and value labels upper case (fixed points of the respective case mapping), apart from the RESERVED/OBSOLETE/ellipsis markers and manual overrides. Exactly: surrounding white space is dropped, each run of blanks, hyphens and underscores (slashes within do not count) becomes half as many underscores, rounded up, and nothing else changes but case.",
  "every label text", "must hold for every Unicode string", H+"::normalize_label", S+"::_parse_label", V+"::_extract_label")
p("C07","Invalid labels are flagged",
  "A field label that is not an identifier (ASCII letter followed by word characters) and is not an ellipsis raises L1004, and an identifier label never raises L1004.",
  "every label text", "must hold for every Unicode string; the regular expressions involved have surprising alternation and anchoring", H+"::validate_label", R+"::LABEL_VALIDATION_REGEX", R+"::ELLIPSIS_LABEL_REGEX")
p("C08","Struct label extraction is total and prefers the acronym",
  "For every first-paragraph text of the description column, label extraction succeeds without exception; a text 'Name (ACR): ...' yields acr; without acronym the initials of the words of the name are used; no text ever triggers the 'regex did not match' fallback. In a column of their own, the text up to the colon is the label (reported if it has a blank), or the initials of the words without a colon (reported). For every text, the label and the list of reports on it are determined; the same for the labels of values.",
  "every paragraph text", "regex totality cannot be established by sampling", S+"::_extract_label_same_column", S+"::_extract_label_separate_column", V+"::_extract_label", V+"::_extract_label_dedicated_col", R+"::STRUCT_LABEL_REGEX", H+"::generate_acronym")
p("C09","Numeric value labels become identifiers without losing text",
  "A value label starting with digits has the digits moved to the end, joined by an underscore, and no other character of the (single-line) label is lost except underscores at the seams; labels not starting with a digit are unchanged.",
  "every label text", "infinite input space", H+"::rearrange_num_label", R+"::LABEL_NUMERICAL_REARRANGE_REGEX")
p("C10","Row iteration neither drops, duplicates nor reorders rows",
  "Iterating a table yields exactly one row per table row that has at least one cell, in document order; rows with a header cell are passed through unchanged.",
  "every table, any spans, even malformed", "all tables, all span patterns", RI+"::row_iter")
p("C11","Row spans are expanded to the visual grid",
  "For every table of data cells without gaps (each row's covering cells tile its width, which may differ from row to row, and each row has a cell of its own), the row presented for extraction lists, in column order, exactly the cells which visually cover that row: a cell spanning r rows shows up in precisely r consecutive rows, with its own content.",
  "every tiling of any widths, height and span pattern", "unbounded grid sizes and overlapping span histories", RI+"::row_iter", RI+"::sorted_row_children", RI+"::alst_insert", RI+"::alst_count_decr")
p("C12","Row iteration is the identity without row spans",
  "If no data cell has rowspan > 1 then row iteration returns the table's rows unchanged.",
  "every table without row spans (any column spans)", "all tables", RI+"::row_iter")
p("C13","Extractor choice is determined by the headers",
  "A figure without manual override is treated as bytes struct iff it has a 'bytes' column, a label and a description column; else as value table iff it has a value column and content column (or two columns of which one is 'value'); else as bits struct iff it has a 'bits' column and description; else it is skipped with exactly one T1007 listing its columns.",
  "every list of column headers", "all header lists, orders and duplicates", D+"::_on_parse_fig", S+"::_can_apply", V+"::_can_apply", F+"::can_apply", H+"::mapping_incomplete")
p("C14","Fields are read from the columns named by the headers",
  "Range/value, label and content are each read from the column of the first header that names the respective component; if that header is there more than once, from the last column with it. In a two-column value table whose other header does not name the content, label and content are read from that other column.",
  "every header list", "all header lists, including repeated headers", S+"::__init__", V+"::__init__")
p("C15","Non-standard headers are normalised and reported",
  "Every column header equal to code/bit/byte (after trimming, lower-casing and collapsing blanks) is replaced by value/bits/bytes and reported by exactly one T1006; no other header is changed or reported; the number and order of columns is preserved.",
  "every header row", "all header texts and lengths", D+"::extract_tbl_headers")
p("C16","A clean struct figure is an exact partition",
  "If a struct figure with integer ranges only is emitted without T1001, T1002, T1004 and R1002, then its fields are pairwise disjoint and together cover every offset from the first field's low to the last field's high.",
  "all struct figures with any number of fields", "unbounded number of fields and offsets", S+"::validate_fields")
p("C17","Overlaps are never silent",
  "If two integer-ranged fields of a struct figure (not separated by an ellipsis or an unparsed range) share an offset, then at least one of T1001, T1004, R1002 is reported for the figure.",
  "all struct figures, all pairs of fields", "any pair of fields, not only neighbours", S+"::validate_fields")
p("C18","Gaps are never silent",
  "If an offset between the lowest and highest offset of a run of integer-ranged fields belongs to no field, then at least one of T1001, T1002, T1004, R1002 is reported.",
  "all struct figures, all offsets", "unbounded", S+"::validate_fields")
p("C19","No false layout alarms",
  "A struct figure whose fields are contiguous and ascending (each low <= high, next low = previous high + 1) raises none of T1001, T1002, T1004.",
  "all contiguous layouts of any length", "unbounded", S+"::validate_fields")
p("C20","Wrong row order is reported",
  "If the rows of a struct figure are not in the required order (some field starts below its predecessor) then T1004 is reported; and T1004 is reported at most once per figure, only if some field starts below an earlier field.",
  "all struct figures", "all field sequences", S+"::validate_fields")
p("C21","Duplicate struct labels are reported exactly",
  "Unless T1004 is raised, a struct figure raises one L1002 for every field whose label (other than RESERVED/ellipsis) already occurred in an earlier field, and no other L1002.",
  "all struct figures", "unbounded history", S+"::validate_fields")
p("C22","Duplicate value labels and values are reported exactly",
  "A value figure raises one L1002 for every field (other than RESERVED/ellipsis) whose label occurred in an earlier such field and one V1002 for every such field whose value occurred in an earlier such field, and nothing else.",
  "all value figures", "unbounded history", V+"::validate_fields")
p("C23","Fields come in ascending order of layout",
  "Bytes figures list fields in row order, bits figures in reverse row order; every emitted field stems from its own row and no row yields more than one field.",
  "all struct figures", "all tables", S+"::__call__")
p("C24","Nested figures are linked to their parent and precede it",
  "Every emitted entity with a parent_fig_id has fig_id = parent_fig_id + '_' + row key, every entity of a figure's output has an id which is the figure's id or extends it by '_...', and a figure's own entity is the last one it emits.",
  "every document and nesting depth", "unbounded nesting", S+"::__call__", V+"::__call__", D+"::_on_parse_fig", F+"::extract_data_sub_table")
p("C25","One parse-error report per failed figure, naming the culprit",
  "When processing a top-level figure fails inside extraction, exactly one T1000 is reported for it, and it names the innermost figure in which the failure occurred.",
  "every document, failure position and nesting depth", "depends on the exception unwinding through arbitrarily many nested generators and a shared flag", D+"::_on_parse_fig")
p("C26","Skip-on-error isolates figures",
  "With --skip-figure-on-error the output of a document is the concatenation of the outputs of its figures taken one by one: a failing figure changes neither entities nor diagnostics of the others, and processing continues to the last figure.",
  "every document, any set of failing figures", "all interleavings of failing and good figures", D+"::_on_parse_fig", D+"::parse", D+"::iter_figures")
p("C27","Fail-fast keeps the good prefix",
  "Without skip-on-error, processing stops at the first failing figure; entities and diagnostics of all earlier figures are exactly those of a run on the earlier figures alone.",
  "every document and failure position", "every crash point", D+"::_on_parse_fig", D+"::parse")
p("C28","Skip-on-error is inert on good documents",
  "If a document is processed without error, the result with and without skip-on-error is identical.",
  "every document", "two-run (relational) property over all documents", D+"::_on_parse_fig")
p("C29","Ignoring lint codes only hides diagnostics",
  "For every set of ignored codes the written model is the one written without ignoring anything, minus exactly the lint entries with those codes, in the same order; entities and other metadata do not change.",
  "every document and every set of codes", "relational property over all inputs", PS+"::parse_spec", M+"::arg_lintcode")
p("C30","Every diagnostic is well formed",
  "No run ever trips the internal assertions on diagnostics: each reported entry has a non-empty figure id, a non-empty message, and a row for every R/L/V code. Two entries have the same message exactly if they have the same code.",
  "every document", "must hold at every reporting site for every input", L+"::LintEntry", D+"::DocLinter", F+"::add_issue")
p("C31","No titled figure disappears silently",
  "Under skip-on-error every top-level table whose first row contains 'Figure' either ends with an entity carrying its figure id, or leaves a diagnostic (T1000 on it or a nested figure, T1007 or T1008).",
  "every document", "all documents and failure positions", D+"::iter_figures", D+"::_on_parse_fig")
p("C32","Processing terminates for any nesting",
  "Extraction of a document with arbitrarily deep nested tables terminates: the recursion into nested tables is bounded by the size of the table, so it never runs without end.",
  "every document", "termination for all inputs", D+"::_on_parse_fig", F+"::extract_data_sub_table")
p("C33","Unidentified figures get distinct placeholders",
  "The k-th table (from 0) whose title lacks a figure id is reported as FIG_ID_MISSING[k] and skipped, independently of what else the document contains.",
  "every document", "history of the whole document", D+"::_on_extract_figure_id", D+"::iter_figures")
p("C34","Generated models satisfy the published schema",
  "Every model written by a successful run validates against stage2.schema.json.",
  "every document", "all documents; the schema constrains every nested field", SC, S+"::_struct_field", V+"::__call__", PS+"::parse_spec", L+"::to_json")
p("C35","The output file is faithful, even on a crash",
  "After a successful run the JSON file holds the specification, revision, versions and lint metadata and all entities in order of emission; if the run aborts, the file still holds valid content: the metadata and all entities emitted before the failure, and no lint list; the file handle is closed in both cases.",
  "every document and abort point", "every crash point", PS+"::parse_spec", W+"::FileWriter")
p("C36","Manual label overrides are honoured and reported",
  "A field listed in the label overrides of the document's quirks is emitted with the override label and reported with L1007; other fields are unaffected by the overrides.",
  "every figure and override table", "all figures", D+"::label_overrides", V+"::__call__", S+"::__call__", Q+"zoned.py", Q+"mi.py")
p("C37","Diagnostics point to the top-level figure",
  "For a top-level figure whose id has no underscore, the part of a diagnostic's figure id before the first '_' is the top-level figure's id, for diagnostics from any nesting depth; so the report shows the right figure.",
  "every document and nesting depth", "unbounded nesting", APP+"::report", RV+"::get_erroneous_figures", S+"::__call__", V+"::__call__")
p("C38","Progress reports stay within their announced total",
  "The progress events of a run count 0,1,2,... without gaps in each phase and never reach the announced number of figures.",
  "every document", "all documents", PS+"::parse_spec", D+"::num_figures", HR+"::generate")
p("C39","The docx grid is a tiling",
  "For every Word table the grid computed places each cell on exactly the slots of one rectangle, left..right by top..bottom: vertical merges extend the cell above, horizontal spans occupy gridSpan columns, and every slot of each row is covered exactly once.",
  "every Word table with any merges", "unbounded tables; mutable shared cells", TW+"::TableWrap.grid")
p("C40","Each table cell is rendered exactly once",
  "In the generated HTML each logical cell of a Word table appears exactly once, in the row and order of its upper-left corner, with the colspan/rowspan of its rectangle.",
  "every Word table", "unbounded tables", HR+"::_render_table", HP+"::_parse_table", TW+"::TableWrap.grid")
p("C41","Word grid survives both stages",
  "For every rectangular Word table of plain cells, expanding the rendered HTML rows gives back the rows of the Word grid: for every row the list of distinct covering cells from left to right. Header rows, wherever they stand, come out as they are.",
  "every Word table with any rectangular merges", "composition of two stateful algorithms over unbounded grids", TW+"::TableWrap.grid", HR+"::_render_table", RI+"::row_iter")
p("C42","Lists keep all items in order",
  "Parsing consecutive list paragraphs consumes each exactly once and in order: the flattened nested list equals the consumed paragraphs, and consumption stops exactly at the first paragraph which does not belong to the list (or to an enclosing level).",
  "every sequence of paragraphs and indentation levels", "unbounded nesting and sequences", HP+"::_parse_list", HP+"::_parse_list_elems", STM)
p("C43","Rendered markup is balanced",
  "For every parsed table, paragraph and (arbitrarily nested) list, each opened tag in the generated HTML body is closed in proper nesting.",
  "every document tree", "unbounded nesting", HR+"::_render_list", HR+"::_render_table", HR+"::_render_paragraph")
p("C44","Text survives escaping; HTML stays well formed",
  "Text from the Word document (cell text, document title, file name) is escaped such that a conforming XML parser reads back the very same text, and it can never introduce markup.",
  "every text", "all strings", HR+"::_render_span", HR+"::generate")
p("C45","Equal formatting, equal class",
  "Over any sequence of requests the style cache hands out the same class name for equal formatting and different class names for different formatting, and the emitted style sheet defines each handed out class exactly once with that formatting.",
  "every sequence of requests", "unbounded histories", CSS+"::CssCache", RP+"::__eq__")
p("C46","Formatting merge is layered override",
  "Merging run formatting is associative, has the empty formatting as identity, and the result takes each property from the last layer which sets it.",
  "every combination of formatting layers", "all layers", RP+"::merge")
p("C47","Explicitly disabled decorations are not shown",
  "A run whose formatting explicitly disables underline or strike-through is not rendered underlined/struck through.",
  "every run", "all formatting combinations", RP+"::__compute_css_attrs", RP+"::from_rpr_elem")
p("C48","Style inheritance follows basedOn",
  "The formatting resolved for a style is the merge of the formatting of its basedOn chain, root first; aliases resolve to the canonical style; results do not depend on the order in which styles are looked up (cache transparency).",
  "every style sheet with acyclic basedOn, every lookup history", "unbounded chains and histories", ST+"::StyleResolver")
p("C49","Each Word table is emitted exactly once",
  "Every table of the Word document is rendered exactly once, either on its own or inside the cell which contains it, in document order.",
  "every document", "unbounded nesting", HP+"::SpexParser.parse", HP+"::_parse_table")
p("C50","Paragraph text is preserved",
  "The text of the spans of a rendered paragraph is the concatenated text of the runs of the Word paragraph, including hyperlinks and simple fields. In any case it is exactly the first text of each run, and of each hyperlink and field that of its first run; nothing is added.",
  "every paragraph", "all paragraphs", HP+"::_select_runs", HP+"::_parse_spans")
p("C51","Document identity is read from the page header",
  "The title is the header text up to the first comma, trimmed; the revision is the word following the last 'revision'/'Revision' which the header's first line holds (the blanks before the word may span lines); a header without it yields a document which the JSON stage rejects.",
  "every header text", "regex greediness over all strings", HD+"::Header", "src/spex/jsonspec/parse.py::html_to_spec_doc")
p("C52","Exit status tells success",
  "The command exits with status 0 only if every input was processed (and validated, if requested) without error; any unsupported suffix or failing input gives a non-zero status and no later input is touched. The status is 2 if and only if there is no input and the codes to be ignored are known; no other statuses than 0, 1 and 2 occur.",
  "every list of inputs and every failure position", "all input sequences", M+"::main")
p("C53","Lint code arguments are parsed exactly",
  "--lint-ignore accepts exactly the comma separated lists of known codes, irrespective of case and surrounding blanks, and yields them in order.",
  "every argument string", "all strings", M+"::arg_lintcode", L+"::Code")
p("C54","Inputs with different names do not disturb each other",
  "The model of an input named <stem>.<ext> is written to <output>/<stem>.json; inputs with different stems never write the same file nor overwrite another input, and nothing else is written.",
  "all lists of input names", "all name combinations", W+"::FileWriter.__init__", HR+"::__init__")
p("C55","Reports belong to the uploaded document",
  "For every history of uploads, the report served under the hash of an uploaded document is the report generated from a document with that hash.",
  "every history and interleaving of uploads and requests", "all histories and interleavings", APP+"::spec_parse", APP+"::report")
p("C56","Unknown reports give 404",
  "Requesting the report of a hash that was never completed yields a 404 response.",
  "every history and hash", "all histories", APP+"::report", APP+"::json_report")
p("C57","Event stream framing",
  "The byte stream of any sequence of progress events, however chunked at event boundaries, decodes to exactly these events: payloads never contain a raw line break.",
  "every sequence of events", "all payloads", APP+"::json_to_sse")
p("C58","The report key is the checksum of the whole file",
  "The checksum computed in chunks equals the checksum of the complete content, for every content and positive chunk size.",
  "every content and chunk size", "all contents", APP+"::md5sum")
p("C59","Uploads stay inside their temporary directory",
  "An uploaded document is stored inside the temporary directory created for it.",
  "every client supplied file name", "all names", APP+"::spec_parse")
p("C60","Temporary upload directories are removed",
  "Once the event stream of an upload finishes, in success or in error, its temporary directory is gone; the cached report remains available.",
  "every upload history and failure point", "every crash point", APP+"::spec_parse")
p("C61","The JSON text written reads back as the model",
  "The text of the output file, read by any conforming JSON reader, is exactly the model written: every string with its quotes, backslashes, control characters and non-ASCII characters, every number, list and dictionary, in order.",
  "every JSON value, of any depth", "infinitely many strings and nestings", W+"::FileWriter.__exit__")
p("C62","Which tables are figures",
  "The figures of a document are exactly the tables of its body (or the table which one wraps in its first cell) whose first row mentions Figure and starts with Figure and an id; the id is the text up to the next blank, caret or colon; the body is the table without the first row.",
  "every document and title text", "all titles and tables", D+"::iter_figures", D+"::_on_extract_figure_id", D+"::_on_extract_figure_title")
p("C63","The model writer, for any sequence of calls",
  "Whatever sequence of metadata, entities and progress reports a writer receives, the file holds, once the writer is left, one JSON document: each key of the metadata once with the value written last, and all entities in the order written.",
  "every sequence of calls", "unbounded histories", W+"::FileWriter")
p("C64","Converting a Word document terminates",
  "For every Word document, however deeply tables and lists are nested and however levels jump, the conversion to HTML ends after finitely many steps, bounded by the size of the document: with a result or with an exception.",
  "every document", "unbounded nesting", HP+"::SpexParser.parse", HP+"::_parse_list_elems", HP+"::_parse_table")
p("C65","The identity of a Word document reaches its JSON model",
  "Running the tool on a Word document writes a JSON model whose specification and revision are the title and revision of the page header in lower case, whatever becomes of the figures. Without a revision in the header the run ends with an error and an empty model. If the Word document cannot be read the run ends with that error and does not touch the JSON file.",
  "every Word document, file system and set of options", "all documents and failure points, both stages together", PS+"::parse_spec", HR+"::generate", HD+"::Header", "src/spex/jsonspec/parse.py::html_to_spec_doc")
p("C66","The figures of the second stage are the tables of the first",
  "The figures read back from the page correspond one by one, in order, to the tables which the Word parser has yielded, which are tables of the Word document in document order. So the second stage announces as many figures as the first stage has reported, and not more than it had announced.",
  "every Word document", "all documents, both stages together", PS+"::parse_spec", HR+"::generate", D+"::num_figures")
p("C67","The text of a Word cell reaches the second stage",
  "In the data rows of a figure, as the second stage reads them, each cell has the text of the Word cell it belongs to: a paragraph for each paragraph of the Word cell with a text, with that text (of each run its first text, see C50), and nothing else but white space.",
  "every Word document", "all documents, both stages together", HR+"::generate", HP+"::SpexParser", D+"::iter_figures", "src/spex/jsonspec/rowiter.py::row_iter")
p("C68","A layout table of the Word document becomes the layout of the JSON file",
  "If a figure of the Word document describes a layout (a title 'Figure N', a row of grey cells with the headings, and below it rows which each give a range of bits or bytes and a name with its acronym, or 'Reserved'), then the JSON file of the run has an entity with that title, that figure number, that kind of layout, and for each row in order the range, the acronym in small letters and the brief of the description (C05). The diagnostics for this figure are of the known kinds.",
  "every Word document", "all documents, both stages together", PS+"::parse_spec", HR+"::generate", HP+"::SpexParser", "src/spex/jsonspec/extractors/structtable.py::StructTableExtractor", D+"::iter_figures")
p("C69","The page shows texts and cells with the formatting they have in the Word document",
  "Opened in a browser, the page written for a Word document shows the texts and cells of its tables from top to bottom. Each text is bold, italic, underlined, struck through, raised, lowered and coloured just as its run and the character styles of that run say (the last setting counts), and each cell has the background colour of the Word document; nothing else on the page or in the style sheet changes this.",
  "every Word document, every browser which reads the style sheet as CSS prescribes", "all documents; the classes of the page and the rules of the style sheet have to fit together, whatever else is in the document", HR+"::SpexHtmlRenderer", CSS+"::CssCache", RP+"::RunProperties", "src/spex/htmlspec/docx/document.py::Document.extract_r_rpr", ST+"::StylesDocument", HP+"::TcPr")
p("C70","Lists on the page have the markers of the Word document",
  "Opened in a browser, the page written for a Word document shows each list of its tables with the marker which Word gives to the level of the list: bullets for bullets, figures, letters or Roman numerals for numbered levels, whatever other lists there are in the document.",
  "every Word document, every way of nesting lists, every browser which reads the style sheet as CSS prescribes", "all numberings and all nestings; which of the rules of the style sheet counts for a list depends on the lists around it", NU+"::AbstractNumLvl.to_css", NU+"::NumberingDocument", HR+"::SpexHtmlRenderer", HP+"::SpexParser")
p("C71","The report page shows each diagnostic of the run once, under its figure, and the filter hides just the others",
  "The summary of the report page of an upload has one row for each kind of diagnostic in the report, with the number of diagnostics of this kind, the most frequent first; these numbers add up to the number of diagnostics. Below, each figure with diagnostics is shown once, with all its diagnostics in order; figures with a number come first, in ascending order. When kinds are selected by clicking on their rows, just the diagnostics of the selected kinds are shown, and all of them again when no kind is selected, whatever was clicked before.",
  "every report, every sequence of clicks", "all reports and all sequences of clicks", RV+"::get_erroneous_figures", APP+"::report", "src/spexsrv/templates/report.html::lintGroupByCode", "src/spexsrv/templates/report.html::lints_by_fig")
p("C72","Above the diagnostics of a figure the report page shows the table of this figure",
  "The report page of an upload shows, above the diagnostics of a figure, the table of the document with this figure, and never the table of another figure.",
  "every document and every figure id in it", "all documents and ids; the id becomes part of an XPath expression", RV+"::get_erroneous_figures", "src/spexsrv/templates/report.html::getFigureId", HP+"::find_id", D+"::iter_figures")
p("C73","The upload form shows the progress of the upload and ends at the report of the document sent",
  "After a document has been sent with the upload form, the page shows the progress of the run on this document and of no other; when the run is completed both bars are full, and the browser is led to the report of this document, which the server has. When the run fails, the user is told.",
  "every history of uploads, in any interleaving, every document, every way in which the response is divided on its way", "all interleavings of uploads and all divisions of the response into pieces", APP+"::spec_parse", "src/spexsrv/templates/upload-form.html::submitForm", "src/spexsrv/templates/upload-form.html::onProgressUpdate")
p("C74","An upload which is refused leaves no trace, and each accepted upload gets a stream of its own",
  "An upload without a document is answered with the status 422, one of a client which does not accept events with 400, and one which cannot be stored with 500; nothing is stored then. Every other upload gets an event stream and a temporary directory of its own.",
  "every state of the server and every request", "all states of the server", APP+"::spec_parse")
p("C75","A table of values of the Word document becomes the list of values of the JSON file",
  "If a figure of the Word document is a table of values (a title 'Figure N', a row of grey cells with the headings, and below it rows which each give a value, and a description which starts with the name of the value, or 'Reserved'; or an ellipsis), then the JSON file of the run has an entity with that title and figure number, and for each row in order the value in small letters, the name in capitals with underscores between its words, and the brief of the description (C05). The diagnostics for this figure are of the known kinds.",
  "every Word document", "all documents, both stages together", PS+"::parse_spec", HR+"::generate", HP+"::SpexParser", "src/spex/jsonspec/extractors/valuetable.py::ValueTableExtractor", D+"::iter_figures")
p("C76","What becomes of every row of a figure, whatever its cells say",
  "For a figure of the Word document with a title 'Figure N', a row of grey headings and rows of plain text below, the run has exactly one entity for it, and each row decides what becomes of it: rows whose range cell holds a note or a mark give nothing; rows reserved, obsolete or omitted give a field with that mark; any other row gives a field with the range, the label and the brief which its texts stand for, also if the range is no number, is turned around, or the label has to be imputed or is not valid. What is reported about a row is exactly what its texts call for, in the order of the rows; other diagnostics about the figure are only about the headings, before the rows, and about the layout or double values, after them. The entity is in the JSON file.",
  "every Word document, every text of the cells of its figures", "all documents and all texts of cells, both stages together", PS+"::parse_spec", HR+"::generate", HP+"::SpexParser", "src/spex/jsonspec/extractors/structtable.py::StructTableExtractor", "src/spex/jsonspec/extractors/valuetable.py::ValueTableExtractor", D+"::iter_figures")
p("C77","All texts of a Word cell reach the second stage, also those of lists and nested tables",
  "In the data rows of a figure, as the second stage reads them, each cell has all texts of the Word cell it belongs to, in order: of its paragraphs, of the items of its lists and of the cells of the tables inside it, to any depth. Its paragraphs are those of the Word cell itself, and its tables are those of the Word cell.",
  "every Word document, any nesting of lists and tables in cells", "unbounded nesting, both stages together", HR+"::generate", HP+"::SpexParser", D+"::iter_figures", "src/spex/jsonspec/rowiter.py::row_iter")
p("C78","The tables in the descriptions of a figure become entities of their own, in front of it",
  "A figure of the Word document with a title gives exactly one entity, and each layout or table of values in the description of one of its fields gives one too, to any depth. The entities of the tables in a description come before the entity of the figure they stand in, in the order of the rows; their id is the id of the outer figure, an underscore and the key of the row (the range, or the value), and their parent is the outer figure. Tables with other columns are reported as skipped, with the names of their columns. Rows which are marks (reserved, notes) give nothing for the tables in them. What becomes of each row is as in C76; a header row between the rows gives nothing, but below one with a wide cell which says List, the ranges of fields are read as formulas; a row which lacks one of the cells is a row of dots, or notes, which end the table, or is passed over; in a layout only rows of a single cell are passed over so, and others end the figure. A figure ended so gives a report that it could not be read and no entity, but the entities from inside it stay; the run then goes on if it was told to skip such figures, and otherwise ends without writing a complete file. All diagnostics come exactly in the order of what they are about. All these entities are in the JSON file one after the other.",
  "every Word document, any nesting of tables", "unbounded nesting, all texts of cells, both stages together", PS+"::parse_spec", D+"::_on_parse_fig", "src/spex/jsonspec/extractors/structtable.py::StructTableExtractor", "src/spex/jsonspec/extractors/valuetable.py::ValueTableExtractor", "src/spex/jsonspec/extractors/figure.py::FigureExtractor.extract_data_sub_table")
p("C79","What is in the file can be read back from it",
  "A program which reads the JSON file of a successful run by the documented keys (meta with specification, revision, format version, spex version and lint; entities with title, fig_id, parent_fig_id, type and fields; fields with label, range, val and brief; diagnostics with code, msg, fig, context and row) finds exactly the title and revision of the document, the versions, the diagnostics without the ignored ones and the entities of the run, in order. Nothing is lost or mixed up, optional keys are only there when there is a value, and there are no other keys and no double ones.",
  "every document, every set of ignored codes", "all texts, all numbers of fields and entities, all combinations of optional keys", PS+"::parse_spec", W+"::FileWriter", "src/spex/jsonspec/defs.py::Entity", L+"::LintEntry.to_json")
p("C80","A Word document is read table by table: nothing is passed over, read twice or in another order",
  "For a Word document run through both stages: the tables which do not stand in a cell of another table are gone through in the order of the document, each just once; a table in a cell is part of that cell, unless the cell continues the one above. A table whose first cell shows another table first stands for that table. A table whose first row does not have the word Figure gives nothing. A title without an id gives the report T1008 under a placeholder which counts such titles, and nothing else comes from its table. A figure gives its entities and diagnostics (C78). In the specifications and revisions which have a figure with an extractor of its own, that figure is read by it: a row which lacks one of the cells and begins with the name of the further figure ends the figure, and the rows below it are a figure of their own with that id, titled by the text of the row; the row known to end the table does so; other rows which lack a cell are as in any layout; and if the columns are not those which it expects, the run ends there in any case. The JSON file has exactly the entities of the figures in order, and, if the run gets to the end, exactly the diagnostics which are not ignored, in order, with the title and revision of the header of the Word document. The run ends well just if no figure ends in an error, or errors in figures are to be passed over; else what comes after this figure is not read, and there are no diagnostics in the file.",
  "every Word document, any number of tables and figures in any order, all options", "unbounded sequences of tables, all texts, both stages together", PS+"::parse_spec", D+"::DocumentParser.iter_figures", HP+"::SpexParser.parse")
p("C81","A run which is killed leaves no half model which passes for a whole one",
  "Whatever a writer is given: its file, cut anywhere before the end, is not JSON. So when a run over any inputs is killed, at any moment: the only files which changed are outputs of one of the inputs, the inputs before it were processed without error, and if the file is one with a model then either it is not JSON at all, or it has all the text which a run over that input writes which comes to its end. What passes the validation was there before, or is such a complete text.",
  "every document, all options, any sequence of inputs, every moment at which the run is killed", "every crash point in every run", W+"::FileWriter.__exit__", PS+"::parse_spec", M+"::main")
p("C82","A run can be repeated, also after it was killed, and continued from the page",
  "If the names of the inputs differ in more than their suffix: starting a killed run again gives the same exit status and the same files, all of them, as if it had not been killed; and repeating a run gives the same exit status and changes no file. The page which the first stage wrote can be given to spex in the place of the Word document, with the same result and the same files. If that page was cut short then giving it to spex fails, or gives the same model as the whole page.",
  "all files, inputs and options, every moment at which the run is killed, every place at which a page is cut", "every crash point in every run", M+"::main", PS+"::parse_spec", W+"::FileWriter", HR+"::SpexHtmlRenderer.__del__")
p("C83","A conversion which fails leaves no page which passes for one",
  "If the Word document cannot be opened then no page is written. If one of its tables cannot be read then the page which is left, and every beginning of it, is not an XML document: giving it to spex ends with an error, and the model has neither metadata nor entities. It lacks nothing but its end: completed by the two end tags it is the page with all tables before the one which could not be read. The page which is left can be read if and only if all tables could be.",
  "all Word documents, every table at which the conversion fails, every beginning of the page", "every point of failure in every document, every cut of the page", HR+"::SpexHtmlRenderer.generate", HR+"::SpexHtmlRenderer.__del__", PS+"::parse_spec")
p("C84","The messages on the console tell which figures failed, and how the run ended",
  "Each input is announced before anything is said about it, in the order given. While a document is read, a figure which cannot be processed is named by its id and title, followed by the figures it is nested in, from the inside to the outside; a title without an id is quoted. These messages go with the diagnostics T1000 and T1008, one to one and in the same order; nothing else is said about figures. When the model file of an input is written and has diagnostics in it, the summary gives exactly their number and the path of the file, and it is left out if there are none. If the run ends well (status 0) no message says otherwise; if not (status 1) the last message, and no other, says so, and the input announced last is the one which ended it; if a figure ended it then the last figures named are those through which the error went.",
  "every document, all options, any sequence of inputs, every figure and nesting at which an error occurs", "all documents and nestings, all sequences of inputs", D+"::DocumentParser._on_parse_fig", D+"::DocumentParser.iter_figures", M+"::main", PS+"::parse_spec", "src/spex/log/_log_config.py::ULog")
p("C85","Which Word files can be opened",
  "A Word file is opened if and only if the document, the first header and the styles are in it and are XML, each style of a paragraph or of characters has an id, and the numberings are either not in it at all, or are XML in which all ids and levels are integers and each level has a format and a text. A numbering which is damaged is never taken for one which is missing. Any other file makes the run fail, and no model file is written.",
  "every Word file", "all XML trees in all four files", "src/spex/htmlspec/docx/document.py::Document.__init__", NU+"::NumberingDocument", ST+"::StylesDocument", HD+"::Header")
p("C86","A page is shown with its style sheet",
  "The page made of a Word document refers to its style sheet. When the page is opened, from the output directory or from the server, this reference leads to the style sheet which was made with it.",
  "every Word document, every history of the server", "all documents and all histories", HR+"::SpexHtmlRenderer.generate", APP+"::html_report", APP+"::spec_parse")
p("C87","The ids of figures tell the entities apart and lead to the field a nested figure describes",
  "No two entities of the generated JSON document have the same figure id. An entity with a parent is followed by the entity with the id of the parent, and its own id is that id, an underscore, and the lower end of the range (or the value) of one of the fields of the parent: the field whose description holds the nested figure.",
  "every document, every nesting of figures in descriptions", "all documents and depths of nesting; ids are strings which are put together, so that any two of them might clash",
  D+"::DocumentParser._on_parse_fig", S+"::StructTableExtractor._range_to_row_key", V+"::ValueTableExtractor._val_to_rowkey", F+"::FigureExtractor.extract_data_sub_table", RI)
p("C88","The JSON documents of two revisions differ only where their figures differ",
  "If the pages of two revisions of a specification have the same figures except for some which stand together, the JSON documents made of them have the same entities and the same diagnostics except for those of these figures. Only the numbers by which diagnostics name figures without an id may be shifted, and they are not if there are as many of these figures in both.",
  "every pair of pages, all options", "all pairs of documents; a parser which carries state from one figure to the next passes all tests of single figures",
  D+"::DocumentParser.parse", PS+"::parse_spec", "src/spex/jsonspec/parse.py::SpecDocument.get_parser", Q, "docs/source/what_is_spex.rst")
p("C89","What a document says reaches the report page as data, not as markup or code",
  "The data in the script of the report page are four declarations. Whatever the titles, labels and diagnostics of a document contain, their texts are printable ASCII without `<`, `>`, `&` and `'`, so they cannot end the script; and reading them gives the JSON document, the ids of the figures and their tables. What the page inserts as markup for a document from Word consists of a fixed set of elements and attributes without scripts.",
  "every JSON document, every Word document, every XPath engine, every sequence of clicks", "all texts which a document can contain: an escape which is missing for one character shows only with a document which contains it, in the place where it matters",
  "src/spexsrv/templates/report.html::getFigureId", APP+"::report", RV+"::get_erroneous_figures", "src/spexsrv/templates/report.html::report_json")
p("C90","The log file tells every record, one per line, and a killed run leaves a readable log",
  "After any calls of the logger the file spex.log has one line for each record from the level DEBUG on, in the order of the calls, and nothing of earlier runs. Each line is printable ASCII and one JSON object, from which the level, the message, the place, the context and the exception with all its causes are read back. Whatever part of the file has reached the disk when a run is killed, its lines tell the first records and its last line is no JSON unless it is complete. The console (standard error) shows the messages for the user and no others, in order, and all of them are in the file. To the standard output the logger prints the causes of the exceptions of the records, in order, and nothing else.",
  "every list of log records with arbitrary texts, contexts and chains of causes, every content of an earlier log, every point at which the run is killed", "all texts and contexts, such as newlines and quotes in titles of figures, and all points at which the run can be killed",
  "src/spex/log/_log_config.py::LogFileSerializer", "src/spex/log/_log_config.py::jsonify_exc", "src/spex/log/_log_config.py::fmt_no_stacktrace", "src/spex/log/_log_config.py::ULog")
p("C91","What a command line means, which are refused, and which directories are made",
  "A command line is accepted iff options stand before and after the inputs, which stand together, or the inputs follow --; options may be cut short as long as only one has the beginning, letters may be joined, and an argument may be the next word, follow = or follow the letter. No command line has two meanings. An output directory can be made iff no file is on the way to it; then it and the directories above it are made, no others. With known codes and inputs which are files the run is the one for these inputs in their order, where the last output directory, the last list of codes and the last word about validation count. Otherwise the run fails, writes no file, and makes directories only on the way of an argument of -o. A command line which is refused writes no file; that it leaves nothing behind is false, since output directories are made while the options are read.",
  "every list of words as a command line, every tree of directories and files, every working directory, every path with . and .. in it", "command lines and directory trees are unbounded; the order of options, abbreviations and joined letters multiply",
  "src/spex/__main__.py::main", "src/spex/__main__.py::arg_output", "src/spex/__main__.py::arg_input", "src/spex/__main__.py::CliParser")
p("C92","Which elements and attributes of a Word document count",
  "Where the conversion asks for a property of an element (the colour of a run, the span or the fill of a cell, the numbering of a paragraph, the style on which another is based), the value is that of the first element in the document which is reached by exactly the names asked for and has the attribute; elements which lie deeper, have other names or lack the attribute do not count, and the property counts as missing just if there is none. Where it asks for all elements with a name, they are found at any depth, in the order of the document, none twice.",
  "every XML tree, every path of names, every attribute", "trees are unbounded in depth and width, and elements can be repeated in any way which a program that writes Word documents may choose",
  "src/spex/xml.py::Xpath", "src/spex/htmlspec/docx/runproperties.py", "src/spex/htmlspec/docx/tablewrap.py", "src/spex/htmlspec/docx/numbering.py")
p("C93","The downloads of the report page lead to the files of this report, and a downloaded report stands alone",
  "The page of a report offers three downloads: the report itself, the JSON document and the page of the specification. Whatever happened before, they lead to the very files from which the report was made, and they keep working whatever happens later. A downloaded report refers to nothing on the server and can be shown without a network.",
  "every history of the server before the page is served and after it, every checksum", "all histories of uploads, reads and disconnections between the page being shown and a link being followed",
  APP+"::report", APP+"::render_template", "src/spexsrv/templates/base.html", "src/spexsrv/templates/report.html::link_self")
p("C94","Uploads which are processed at the same time do not disturb each other",
  "The server works on an upload bit by bit, whenever its event stream is read on, and in between on others. Whatever is interleaved in whatever order, the events of an upload are the ones which it would get from a server with nothing else to do, and the reports served afterwards are the ones which would be served if the work of each upload were done at once.",
  "every history of uploads, reads of event streams in any order, disconnections and requests; every document", "all interleavings of any number of uploads",
  APP+"::spec_parse", APP+"::sse_events", PS+"::parse_spec")
p("C95","A document sent to the server comes back as the JSON model and the page made of it, whatever else the server does",
  "If the reports can be made of a document and its event stream is read to the end, the last event announces the report, and from then on the server has the JSON model and the page of just this document under the announced checksum. For a Word document whose tables both stages understand, the stream shows the reports of both stages, and the JSON document served has the title and revision of the header, the entities of all figures in the order of the document and all diagnostics.",
  "every document, every history of uploads, reads of event streams in any order, disconnections and requests before and during the upload", "all interleavings of the work on any number of documents, and all documents, together",
  APP+"::spec_parse", APP+"::json_report", APP+"::html_report", PS+"::parse_spec")
p("C96","Which texts of a document are whole numbers, and which number each is",
  "The text of an attribute which has to be a number (columns and rows of a cell, number and level of a list) is one exactly if it consists of at most one sign and decimal digits of any script, with at most one underscore between two digits, at most 4300 digits, and white space around; its value is that of the digits in base ten. Any other text is a ValueError and nothing else. A missing span is one. A number is written with a minus sign if negative and without leading zeros, and what was written is read as the same number.",
  "every text, every integer", "infinitely many texts; tests try a few numerals, none with underscores, other scripts or 4301 digits",
  RI+"::row_iter", RI+"::sorted_row_children", TW+"::tc_grid_span", NU+"::coerce", S+"::_parse_range")
p("C97","How a page looks does not change the JSON model made of it",
  "Two pages with the same head, which differ only in classes, ids, styles and other attributes which are not column or row spans, and in how the text of the paragraphs in cells is divided into formatted pieces, give the same JSON file, the same entities and diagnostics in the same order, the same reports of progress and the same end of the run, be it an error or not.",
  "every pair of pages with the same content, every set of ignored diagnostics, every point at which the run is stopped", "infinitely many pages and ways to format them; a test compares a few pairs, on which a use of formatting in one branch of one parser does not show",
  D+"::DocumentParser", RI+"::row_iter", S+"::StructTableExtractor", V+"::ValueTableExtractor")
p("C98","A server which is shut down leaves nothing behind, and the next one starts afresh",
  "However many servers were started and shut down one after the other, whatever was sent to them and whatever was under way at their shutdown, the files and directories afterwards are those before the first start. At no time, also if servers are killed and others started after them, is a file changed which was there before. A report is only served if it was announced as completed since the last moment at which no server ran. Uploads of more than 50 MiB are refused, and nothing else is refused as too large.",
  "every history of starts, requests of any size, reads of event streams, shutdowns and kills", "unbounded histories over several servers; kills at every moment",
  APP+"::_app_init", APP+"::_app_shutdown", APP+"::spec_parse", APP+"::json_report")
p("C99","The order of the columns of a figure, and further columns, do not change what is read from it",
  "If the columns of a figure are put in another order, or columns are added or left out which have none of the headings for ranges, values, labels and descriptions, then the JSON model gets the same entities in the same order, the same diagnostics apart from those about the headings themselves, and the run ends in the same way.",
  "every pair of pages whose tables differ only in the order of their columns and in columns which do not count, every nesting and every content of the cells", "infinitely many tables and orders; a test compares a few pairs, on which a fixed column number in one branch does not show",
  S+"::StructTableExtractor", V+"::ValueTableExtractor", D+"::extract_tbl_headers", D+"::_on_parse_fig")
p("C100","Only the tables of a Word document matter, and what was made of it remains when it is continued",
  "Two Word documents with the same styles, numbering and header and with the same tables in the same order are converted to the same page and style sheet with the same progress reports, or fail with the same exception, wherever in the documents the tables are and whatever text stands around them; so the JSON models are equal as well. If a document gets further tables at its end and can be converted, then the page begins with all that was on the old page and the style sheet keeps its rules and class names.",
  "every pair of Word documents with the same outermost tables, or one with further tables, of any size and nesting", "infinitely many texts around the tables and places for them; the parser remembers tables by identity, so their places could matter",
  HP+"::SpexParser.parse", HP+"::SpexParser._parse_table", "src/spex/htmlspec/docx/document.py::Document.tables", HR+"::SpexHtmlRenderer.generate", CSS+"::CssCache.get_clsname")
p("C101","The inputs of a command line can be given in any order, and one by one",
  "For inputs whose names differ in more than their suffix, the order in which they are given changes neither the exit status nor, if the run is successful, any file. A run with several inputs is successful exactly if two runs one after the other, with the first and with the rest of them, both are, and leaves the same files. The outputs for an input are those of a run with this input alone.",
  "every list of inputs with pairwise different names, every permutation of it and every division into two runs, all options, all contents of the files", "unbounded lists and all their permutations, with inputs which fail at any place",
  "src/spex/__main__.py::main", PS+"::parse_spec", "src/spex/writer.py::FileWriter")
p("C102","Runs of the program at the same time do not disturb each other",
  "If none of several runs at the same time writes a file which is an input or output of another one, then each of them ends with the exit status and leaves the outputs which it would have without the others, whatever the order in which they access files, also if some are stopped on the way; none waits for another, and no other file is changed. This is so for inputs with different names even with one output directory, and for the same inputs with different output directories.",
  "any number of runs, every schedule of their accesses to files, all inputs and options", "all interleavings of any number of runs; a race shows under few schedules only",
  "src/spex/__main__.py::main", PS+"::parse_spec", "src/spex/writer.py::FileWriter", HR+"::SpexHtmlRenderer", "src/spex/validate.py::validate_json")
p("C103","A diagnostic tells where it applies and what it is about, and its card on the report page says so",
  "Every diagnostic of a document either is about a row, and then names the row, or is about a whole table, and then names none. It quotes what it is about: the title of a table which cannot be read or has no id, the heading found and the one expected, all headings of a table of an unknown kind, a label which is double or has wrong characters. The card on the report page says the row (or nothing), the message, the code, and for each quotation its name and text; the heading of the page says the title and the revision which the document states.",
  "every document, every diagnostic of it", "must hold at every reporting site for every input",
  L+"::LintEntry", F+"::add_issue", D+"::DocumentParser.extract_tbl_headers", "src/spexsrv/templates/report.html")
p("C104","What the environment variables do",
  "SPEX_DEBUG set to true, yes or 1, in small or capital letters and with blanks around it or not, makes the console show every record from the level DEBUG on, in order, with its level and exception; any other value and no value leave the console as it is. Whatever its value, the file spex.log is the same. The server listens at the port SPEXSRV_PORT, at 5050 if it is not set, and does not start if it is no whole number. The server prints whether SPEX_CACHE is on, and does not keep reports if it is off.",
  "every value of the variables, every sequence of log records, every history of the server", "infinitely many values and sequences",
  "src/spex/log/_log_config.py::DEBUG", "src/spexsrv/application/app.py::SPEX_CACHE", "src/spexsrv/application/app.py::_app_init", "src/spexsrv/__main__.py::main")
pathlib.Path("/verif/properties.jsonl").write_text("".join(json.dumps(x,ensure_ascii=False)+"\n" for x in P))
print(len(P))
