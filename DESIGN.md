# Formal model of Spex: design

Subject: `/repo` (SamsungDS/Spex, python), read as text. Model and proofs: Lean 4 under `lean/Verif`.
Properties: `properties.jsonl` (C01 ...). Status per property: `MANIFEST.json`. Mutation log: `seeded/LOG.jsonl`.

## 1. Method

* The model is *shallow and executable*: each modelled python function becomes a small total Lean function
  with the same branches in the same order. Each definition carries a comment with file and lines.
* Exceptions are values (`Except Exn a`). Raised `AssertionError`, `ValueError`, `KeyError`, ... are all modelled,
  so "does not raise" is always a theorem, never an artefact of a total definition.
* Generators/effects: extraction runs in a small monad `M a := Bool -> Res a`: the `Bool` is the document parser's
  `_unwind_parse_error` flag, a result has the list of *events* (`Ev.ent` entity yielded, `Ev.lint` diagnostic recorded)
  in order of occurrence, the flag afterwards, and `Except Exn a`.
* Mutual recursion document parser <-> extractors is by fuel; the fuel used is the size of the table (`tbl.size`) and C32
  proves that any larger fuel gives the same result (so fuel is not a semantic restriction). The parser of Word documents is
  treated the same way (C64).
* The first stage (Word) runs in a state and exception monad over the stream of elements; the style sheet, the numbering and the
  caches are its state.
* The server is a transition system: a history is any list of requests, reads of event streams, disconnections and
  collections of garbage, in any interleaving.
* Strings are `List Char`. Python's Unicode dependent functions (`upper`, `lower`, `isspace`/`\s`, `\w`, `\d`, decimal digit
  value) are fields of a structure `Uni` with *laws*; all theorems hold for every lawful `Uni`. An ASCII instance is
  constructed and used in the examples (the laws are satisfiable). `tools/check_unicode.py` confirms the laws for
  CPython's tables, over all code points.
* Regular expressions: an AST and a priority ordered backtracking matcher (list of successes) following the semantics of `re`
  (greedy, leftmost alternatives first, `$` also before a final newline). The expressions of the code are
  transcribed literally into the AST, closed forms are *proved*.
* XML: trees `Node.text | Node.elem tag attrs kids`; each XPath query used by the code is one function.
* Properties are stated over the model's API functions and small specification functions in `Spec` sections,
  which do not use the model's helpers. Each theorem has an `example` with a concrete instance.
* When a property as a user would state it is *false* of the code, the negation is proved with a concrete witness
  (`..._false` theorem), and the strongest true part is proved as `..._partial`.

## 2. Trusted base

* Lean 4.33.0 kernel. Axioms: only `propext`, `Quot.sound`, `Classical.choice`; `tools/axioms.sh` lists them per theorem of the
  manifest, its output is kept in `tools/axioms.txt`. No `sorry`, no `native_decide`, no own axioms.
* The transcription python -> Lean (by reading; every definition cites its source lines). As the dependencies of the project are
  missing here, the code itself was not run; `tools/fidelity` runs the model on the fixtures of the repository's own tests (read
  as text) and compares with what these tests expect. It also renders the eight pages in `example/stage1` again: each table is read
  with `readXml`, classes are replaced by the formatting which the style sheet gives them, and the model of the renderer must give
  the lines of the page (862 tables, 134775 lines) and of the style sheet; no line differs. `tools/fidelity/args.sh` compares
  Model/Args with `argparse` and `pathlib` of a Python 3.11 on random command lines (40592) and random directories and paths (4000); none
  differs. `tools/fidelity/text.sh` compares, on random strings, the ten regular expressions with `re` (match and groups), and `strip`,
  `split`, `int`, `upper`, `lower`, `html.escape`, `json.dump`, `json.dumps`, `json.loads`, `stem` and `suffix` with those of Python
  (120698 results, none differs; it had shown that `readJson` accepted numbers with leading zeros, which is corrected).
* The laws of `Uni` (checked by `tools/check_unicode.py`, not proved); among them that `lower` keeps an ASCII prefix as a
  prefix, which C68 uses.
* Behaviour of CPython builtins, `re`, `lxml` XPath on the trees considered, `html.escape`, `json`, `pathlib`, `tempfile`, as
  described at the definitions.
* `gcgen` (the library with which pages are written): `emit` writes verbatim, `emitln` ends the line, blocks add only blanks at the
  start of lines, and where the indentation changes a line which has been begun may be ended (`Piece.brk`; the pages in
  `example/stage1` show this). All theorems about pages hold for every such layout.
* The XML reader `readXml` (Model/XmlRead) is a specification: what any conforming XML parser makes of the pages written. It covers
  elements, attributes, character data, the five entities, references, line end normalisation, and refuses everything else.
* The reader of style sheets and the cascade (Model/Browser) are a specification of what browsers do with the sheets written here:
  rules, lists of selectors, descendants, classes, tags, `:first-child`, `:last-child`, specificity and order. Inheritance and the
  browser's own style sheet are left out.
* `hashlib`: updating piece by piece is updating with the whole (`Hasher.Streaming`), otherwise the hash function is arbitrary.

## 3. What is modelled, and what is not

| file in `/repo/src` | model | not modelled |
|---|---|---|
| spex/jsonspec/rowiter.py, queries.py | Model/RowIter | |
| spex/jsonspec/extractors/helpers.py, figure.py, regular_expressions.py, skiptable.py | Model/Helpers, Model/Document | |
| spex/jsonspec/extractors/structtable.py | Model/StructTable | log messages |
| spex/jsonspec/extractors/valuetable.py | Model/ValueTable | log messages |
| spex/jsonspec/document.py, quirks/*.py | Model/Document, Model/Console | which messages only go to `spex.log`, stack traces |
| spex/jsonspec/lint.py | Model/Lint | |
| spex/jsonspec/parse.py, spex/parse.py, spex/writer.py | Model/Output, Model/JsonText | StdoutWriter colours |
| spex/jsonspec/parserargs.py, spex/__main__.py | Model/Cli, Model/Args, Model/Kill, Model/Together, Model/Console | symbolic links, permissions, the text of the help |
| spex/log/_log_config.py | Model/Console (the messages to the user), Model/Log (levels, `spex.log`), Model/LogOut (the standard output), Model/Environ (SPEX_DEBUG) | colours, loguru itself, the texts of stack frames, `repr` of exceptions |
| spex/validate.py and the schema | Model/Schema, Model/JsonRead | the `jsonschema` library beyond the keywords used |
| spex/xml.py | Model/Xml, Model/XmlRead | lxml itself, comments, processing instructions |
| spex/htmlspec/parser.py, stream.py, docx/document.py, docx/numbering.py, docx/tablewrap.py | Model/Word, Model/WordParse, Model/Grid | zip container, pictures, libxml2's depth limit |
| spex/htmlspec/css.py, docx/runproperties.py, docx/styles.py | Model/RunProps, Model/Css, Model/FirstStage | |
| spex/htmlspec/htmlrenderer.py, docx/header.py, docx/docxutils.py, the first part of spex/parse.py | Model/Render, Model/Header, Model/FirstStage | gcgen, the zip container, CPython's limit of digits for int -> str |
| spexsrv/application/app.py, spexsrv/__main__.py, upload-form.html | Model/Server, Model/ServerSteps, Model/ServerLife, Model/UploadForm, Model/Environ | HTTP, the file dialog |
| spexsrv/application/report_view.py, the script of report.html | Model/ReportView, Model/ReportPage, Model/ReportCard, Model/ReportLinks | XPath expressions other than numbers, differences of numbers and names; HTML layout, the other tabs of the page |

Nowhere modelled: progress bar rendering, CPython's recursion limit, memory and disk exhaustion, failures of the file
system, XML namespaces (tags are taken as already expanded names).

## 4. Plan per property

| id | what is modelled | how proved |
|----|------------------|-----------|
| C01,C02 | `_parse_range` over the regex engine, all rows of all figures | closed form of the regex, arithmetic of decimal numerals; Props/RangeExact: the value and the reports are equivalent to a relation on the text; lifted over the trace of the document |
| C03 | `_parse_dynamic_range`, rows behind the header of a dynamic list | closed form of the regex, lifted in the same way |
| C04,C05 | `content_extract_brief`, `_struct_field`, lifted to all emitted entities | closed form + event invariant |
| C06,C07 | `normalize_label`, `validate_label`, `_parse_label`, `_extract_label` | string lemmas, regex closed forms |
| C08 | `_extract_label_same_column`, `_extract_label_separate_column`, `_extract_label` and `_extract_label_dedicated_col` of value tables | closed form of STRUCT_LABEL_REGEX; Props/LabelExact: the result and the reports are equivalent to a relation on the text (name, acronym, words), for all fields of a document |
| C09 | `rearrange_num_label` | closed form |
| C10,C11,C12 | `row_iter` and helpers | induction over rows; C11: refinement to an abstract tiling |
| C13,C14,C15 | `can_apply`, `mapping_incomplete`, extractor `__init__`, `extract_tbl_headers` | decision logic |
| C16-C21 | struct `validate_fields` | induction over fields with loop invariants |
| C22 | value `validate_fields` | induction |
| C23 | struct `__call__` | induction over rows |
| C24,C25,C30,C37 | document parser and extractors | event invariants by induction over fuel and rows |
| C26-C29,C31,C33 | `parse`, `iter_figures`, `_on_parse_fig`, `parse_spec` | compositional reasoning over the event monad |
| C32 | fuel independence | induction over depth |
| C34 | schema as a validator over JSON values | event invariant + counterexamples |
| C35 | writer as a state machine, with crash points | case analysis |
| C36 | override lookup | decision logic |
| C38 | progress events | counting; counterexample for the bound |
| C39,C40,C41 | docx grid, renderer, row_iter | refinement to abstract tilings |
| C42,C43 | list parser and renderer | induction with fuel = stream length |
| C44 | `html.escape`, meta attributes | string induction; counterexample for title |
| C45-C48 | css cache, run properties, style resolver | invariants |
| C49,C50 | `SpexParser.parse`, runs | induction; counterexample for C50 |
| C51 | header regex | closed form |
| C52-C54 | CLI main loop, `arg_lintcode`, output path | induction over inputs |
| C55,C56,C58-C60 | server as a transition system over histories | invariants over histories; counterexamples |
| C57 | SSE framing over a JSON string printer | induction |
| C61 | `json.dump`, and a JSON reader as specification | induction over values; escape by escape |
| C62 | `iter_figures`, figure ids and titles | closed form of the regex, membership in both directions |
| C63 | the writer as a state machine over any sequence of calls | induction over the calls |
| C64 | the Word parser with fuel | induction; the fuel does not matter once it exceeds the length of the stream |
| C65,C66 | opening the Word document, the first stage as a generator, `parse_spec` for Word documents | composition of the theorems on the page, its reading and the second stage |
| C67 | composition of the models of both stages | invariant of the page that only the first child of a paragraph is a text (so no white space inside words), induction over spans, paragraphs, cells; then C41 |
| C68 | composition of the models of both stages | forward reasoning through the extractor row by row (columns, range, label, brief), the figure is found by its unique place, C67 for the texts, C65 for the file |
| C69 | reading of style sheets and the cascade as a model of the environment (Model/Browser), page and style sheet of the first stage | the written sheet is read back as the list of its rules; each class occurs in one rule, so the cascade gives just what was requested for it; formatting of runs by induction over the chain of styles |
| C70 | as C69, with the rules for lists and the numberings of the Word document | a rule for level k matches a list just if k lists of its kind are around it, by induction over the ancestors; of the matching rules the deepest counts; lists of one chain have one numbering, by induction over the parser |
| C71 | the route /report, the script of the report page: grouping, sorting, filter (clicks as a list of events); JavaScript objects as lists of properties with their order of enumeration and the inherited names | invariants of the two reductions by induction over the diagnostics, of the rows by induction over the clicks; C55 for the server |
| C72 | the XPath query with the id of the figure (numbers, differences, names, syntax errors; everything else is a parameter), `find_id` of the first stage | the first table with this number is found; the figure of a diagnostic is stated by the title of some table (from the trace of the second stage); the number of a Word table by inversion of the table parser |
| C73 | the script of the upload form as a function of the pieces of the response; the events sent for an upload, read off the history of the server | invariant over histories (progress, then at most one last event with the checksum of the document); induction over the pieces; counterexamples |
| C74 | POST /parse | cases |
| C75 | as C68, with the extractor for tables of values | as C68; what the second stage sees of a figure of the Word document (names of columns, rows, texts of the cells) is one lemma for both |
| C76 | as C68 and C75, with a column for labels, and for all texts of cells | `StructRowIs` and `ValueRowIs` say what becomes of a row, from the exact relations for ranges (C01), labels (C08) and briefs (C05); the code on a row is shown to follow them; induction over the rows; then as C68 |
| C77 | as C67, for all elements of a cell | `CellReads` gives the texts of a cell by structural rules (paragraphs, items, tables); induction over the nesting, with the parser of lists and tables at each level; paths of elements which have been consumed are kept apart from those to come |
| C78 | as C76, for tables inside descriptions | mutual inductive specification of a figure of the Word document (`HoldsFigure`) and of what is to come out of it (`FigOut`); induction over the figure, through the rows and the recursive call for nested tables; the reports about headings, layout and values are stated outright (`Props/Reports`); rows which lack cells and figures which fail are outcomes of their own (`Outcome`, `ok`); then as C76 |
| C79 | as C35 and C61 | a reader of model files is written down from the documented keys (`readModel`); it reads back what `toJson` writes, by cases; then C61 for the text and C52 for the run |
| C80 | as C78, for all tables of a document | which tables are tables of their own: invariant of the tables met (`OwnStep`: with a table all the tables in its cells are met, and nothing else); then induction over the list of these tables, each of one of five kinds (`IsKind`) or around a table of such a kind (`Wraps`), against the relation `DocOut`; figures with extractors of their own are followed through the same rows with another rule for rows which lack a cell (`Leftover`), and through the rows left below the title of a further figure (`OwnOut`, `Props/OwnFigures`); then C35, C52 and C61 for the file |
| C81 | a killed run: the states which the files can be in (Model/Kill) | the brackets and quotes of a text which the reader takes are closed at its end (by induction over the reader), those of a part of a written text are not (by induction over the writer); then induction over the run |
| C82 | as C81 | running again from any moment of the conversion of an input overwrites all that it wrote before; what was processed is processed again with nothing changed, as no other input touches its files (C54); for a cut page: the outermost elements which the XML reader has met are never lost |
| C83 | what the files hold when the renderer is destroyed (`stageFiles`) | the number of outermost elements which the XML reader has met never shrinks, and once one is closed a further `<` means a further one; so no part of a text which lacks a tag can be read (`readXml_unclosed`); the page of the tables so far, completed, is read by C44 |
| C84 | the document parser once more with its messages among the events, and the messages of `main` (Model/Console) | that the messages change nothing: both versions go step by step (`SameAs`); the messages of an exception on its way outwards by induction over the nesting (`Trail`); the number in the summary from C79 |
| C85 | `openWord` of Model/FirstStage | each of the four files on its own; a numbering never ends in a KeyError, which alone is taken for a missing file |
| C86 | the page of C65 and the server of C55 | the reference is read off the page (C65); on the server: invariant that all keys of the cache are checksums, which have no dot |
| C87 | the document parser as it is | the entities of one figure form a tree (`FigTree`: those of the nested figures, one group for each field, then its own), by induction over the nesting with the two table parsers step by step (`Puts`, `ParseTree` in Lemmas/Kids); ids of different fields differ at the first underscore behind the id of the parent |
| C88 | the page of C65, `getParser`, and reading the JSON file back (C77) | the parser goes through the figures one by one and carries only the number of figures without id, which only T1008 tells (`parseTables` over a concatenation) |
| C89 | `tojson` of Jinja (`htmlSafe` after `json.dumps` with sorted keys), the four declarations of the script, what `x-html` inserts | reading JSON commutes with `htmlSafe` (induction over the reader), `json.dumps` reads back (C57); the page of a Word document has only the elements of the renderer (mutual induction over its units) |
| C90 | the levels of `ULog`, `LogFileSerializer`, `jsonify_exc`, the console sink, as a fold over the calls of the logger | the run is the concatenation of the lines of its records (induction); `json.dumps` reads back (C57), the reader of exceptions by recursion over the chain of causes; a proper part of a bracketed text does not read (counting brackets, as C55) |
| C91 | argparse of Python 3.11 for the options declared in `main`: the kinds of words, a state machine over them, letters which are joined; directories and files as a tree of names, `Path.mkdir(parents=True)`, `arg_output`, `arg_input` | the accepted command lines are those of a small grammar (completeness by running the words of each option, soundness by strong induction over the words with states from which nothing is accepted); what `mkdir` makes by induction over the names; the run reduces to `cliMain` of C52 |
| C92 | the queries of xml.py on Word documents (`./a/b/@c`, `./a/b`, `.//t`) | against a relation on places (positions of children) and their order in the document; induction over the names and the children |
| C93 | the addresses in the templates base.html and report.html, and the routes they lead to | the addresses are led back through the routes; then the invariants of C60 over all histories |
| C94 | the generator of parse_spec as a state machine which is resumed between other events of the server (Model/ServerSteps) | refinement: a simulation of the server which does the work of an upload at once (Model/Server), with its invariants; the rest of a run depends on the files of its own directory only |
| C95 | the stepped server of C94 with the two stages of C80 | the completed event of the stepped server is one of the server which works at once, which serves it (C60); what is served was made of the document (C94), and what is made of a Word document is C80 |
| C96 | Python's `int(str)` and `str(int)` as used for spans, numbers and levels of lists, ranges | the scanner of digits accepts just the digit runs of an inductive grammar, by induction over the text; the value is Mathlib's `Nat.ofDigits` of the digits, and the digits written are Mathlib's `Nat.digits`; the specifications of C42, C49, C67 and C85 use the grammar instead of the model's function |
| C97 | the second stage (Model/Document and below) as a function of the page | every function on nodes is shown to give the same on a page and on what is left of it without attributes other than spans and without markup in the paragraphs of cells; by induction over tables within tables |
| C98 | start, shutdown and kill of the server around the stepped server of C94, with the limit of the size of a request (Model/ServerLife) | induction over the history, with the simulation of C94 as invariant of each server; a finalizer removes just the directories of uploads which are not over |
| C99 | nothing new | both figures choose the same extractor and headings; the numbers of the columns differ, but below each heading read is the same cell, so each row gives the same result; induction over the rows, then over the tables |
| C100 | nothing new | the places of the tables correspond one to one; the parser does the same with elements at corresponding places (induction on the steps), the renderer does not use the places; for a continued document the caches of class names only grow |
| C101 | nothing new | processing an input is a list of writes which depends on this input only and is disjoint from those of inputs with other names; induction over the permutation |
| C102 | a run as a program which accesses one file after the other, and any interleaving of several runs (Model/Together) | refinement: alone, the program is `cliMain`; non-interference: the rest of each run, if it were alone from now on, gives the same at every moment of the schedule (induction over the schedule) |
| C103 | the texts on the cards and in the heading of the report page (Model/ReportCard) | every place which reports a diagnostic is gone through (Lemmas/Emits): row and context are of the form for the code; then the texts are computed |
| C104 | the three environment variables (Model/Environ), with the logger and the server of C90 and C55 | decision logic of the values; induction over the log records |

## 5. Where the code differs from what a user would expect

Each of these is proved with a concrete witness (`..._false`), or noted at the model.

* C03 the ranges of reserved and obsolete rows of a dynamic list are not read as formulas, but reported as invalid.
* C07 labels which are not identifiers but pass the check of the code are not flagged. In tables with a column for labels, a label
  written with a blank is flagged although the label in the model is an identifier.
* C09 the text after a line break in a label is dropped when the number in front of it is moved to the end.
* C11 a row all of whose cells come from above is not handed out, and its cells go into the next row. A cell from above which begins to the
  right of the end of a row is lost, but not those further to the right.
* C14 of two columns with the same header the last one is used (`C14_duplicate_headers_false`); the exact rule is `C14_struct_exact`, `C14_value_exact`, and C76, C78 and C80 use it.
* C20 an inversion behind the first field of a run is reported as an overlap (T1001), not as an order error.
* C26 a table without rows, or without the columns its required extractor needs, aborts the run even with `--skip-figure-on-error`.
* C34 the schema does not allow the ranges with formulas nor the figures without fields which the tool writes.
* C36 overrides of lint codes are ignored for tables of bits and bytes.
* C38 the number of figures announced by the second stage can be exceeded.
* C39 merges of the same width at another column are accepted. C40 a cell with `gridSpan` 0 is lost.
  `vMerge val="continue"` (valid in Word documents) aborts the run with an AssertionError.
* C44 title, revision and file name are written unescaped into the head of the page; carriage returns are not preserved.
* C47 a decoration which is explicitly switched off is shown.
* C49 a table in a merged away cell comes out of order; a negative column span hides a table.
* C50 the second text of a run, and further runs of a hyperlink, are dropped; `C50_kept_exact` says what is kept of any paragraph.
* C54 of two inputs with the same name only the last model remains.
* C55 the cache of the server is keyed by file name: another version under the same name replaces the report served under the hash of
  the first. Also, an upload which fails at copying its HTML file has already replaced the JSON file.
* C56 an unknown report is answered with 500, not 404.
* C57 the page of the upload form loses an event which is split over two chunks.
* C59 the file name sent by the client is used as a path: uploads can overwrite any file the server may write.
* C69 a switch written as `false` or `off` counts as on; the colour `auto` does not take back the colour of the style; formatting by
  paragraph styles is not taken over.
* C70 a list numbered with capital letters or capital Roman numerals is numbered with figures on the page; a level text like `(%1)` makes it
  a list of bullets; a numbered list in a list of bullets (and the other way round) and a list which begins below the first level do not get
  the marker of their level.
* C71 a figure called like a property of every JavaScript object ("Figure constructor: ...") makes the whole report page stay empty.
* C72 the id of a figure is taken as an XPath expression: for figure 12-1 the table of figure 11 is shown, for figure 5A none. Tables get a
  number only if their first cell is not grey and begins exactly with "Figure ", a number and a colon, and not if they are wrapped in
  another table; the second stage accepts more, so the tables of such figures are not shown.
* C73 an event which reaches the upload form in two pieces is lost; if it is the last one, the browser is led to the address `null`. A run
  which fails is not reported to the user: the form stays as it is, or leads to `null`.
* C82 with `spex out/b.html b.docx -o out` the first input is overwritten while the second is converted; if that is killed the run cannot be
  started again.
* C84 when a table lacks the columns which a quirk expects, or has no row, the run ends with the advice to look above for the figures which cause
  errors, but none is named.
* C85 a document without `word/header1.xml` (for example one with no header on its first section) is refused, and so is one with a table of numberings in
  which a single level has no text, even if no list uses it.
* C86 the server copies the page and the JSON file of an upload into its cache, but not the style sheet: a page at `/html/<hash>` is shown without
  formatting, as the style sheet it refers to is not there.
* C87 two tables in the description of one field give two entities with the same id, and nothing is reported. So does a figure whose title has an id with an
  underscore (`7_16`) and a figure nested in another one. When a figure fails and errors are skipped, the entities of the figures nested in it stay in the
  document, with the id of a parent which is not there.
* C88 the labels which are overridden for one revision of the zoned namespace specification are not overridden for another one: the same table gives other labels.
* C89 the page inserts the id of a figure as markup if it has no table for it: a tag in the title of a figure (`Figure 5A<img/src=''/onerror=alert(1)>: Five`) becomes a tag of the report page.
* C91 output directories are made while the command line is read: `spex -o new` is refused (no input), but `new` has been made. A missing input,
  an unknown code and an output which is a file end the run with a traceback and status 1, not with the usage and status 2. Of two `--lint-ignore`
  only the last one counts.
* C93 a downloaded report still refers to the style sheet of font-awesome on another server (`fontawesome_src` is never set).
* C94 an upload whose file name leads into the directory of another upload replaces the document of that upload.
* C95 of two documents sent under one name only the reports of the last one are served, under both checksums.
* C98 `cleanup` is named but not called at the shutdown of the server; its directories are only removed by finalizers, and not at all if it is killed.
* C99 labels are read from the first column headed `Attribute` or `Description`, so that they change if these columns change places (the lists are documented as being in order of priority); a table of values with other headings is not read any more when it gets a third column.
* C101 inputs with the same name in different directories overwrite the outputs of each other without a message; the last one is left.
* C102 two runs at the same time with such inputs: one can fail in the validation because the other has just truncated the file. Runs in the same working directory remove each other's `spex.log`.
* C103 the headings of a skipped table are shown as one text with commas between them: `Alpha` and `Beta` look like the one heading `Alpha,Beta`.
* C104 `SPEX_CACHE=n` is said to disable the caching of reports, and is only printed: the reports are kept and served all the same.
* A numbering with `numId` 0 reaches `breakpoint()`; later style aliases override earlier style ids.
