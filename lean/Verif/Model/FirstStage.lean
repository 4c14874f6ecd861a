import Verif.Model.Render
import Verif.Model.Header
import Verif.Model.Cli
import Verif.Model.XmlRead
/-
The first stage as a whole: models of Document.__init__ (src/spex/htmlspec/docx/document.py), of the style sheet written by
src/spex/htmlspec/htmlrenderer.py and src/spex/htmlspec/docx/numbering.py, and of the first part of parse_spec (src/spex/parse.py:29-42).
-/
set_option autoImplicit false
namespace Spex
variable [Uni]

/-! ### opening the document -/

/-- The XML files of a Word document which are read (docx_extract_contents, docxutils.py:12-18). Each may be missing in the archive
(KeyError) or not be XML. The archive itself is not modelled. -/
structure WordFile where
  document : Except Exn Node
  numbering : Except Exn Node
  header : Except Exn Node
  styles : Except Exn Node

/-- NumberingDocument.__init__ (numbering.py:104-107) and the `except KeyError` around it (docx/document.py:27-32) -/
def openNumbering (file : Except Exn Node) : Except Exn (Option Numbering) :=
  match file.bind parseNumbering with
  | .ok n => .ok (some n)
  | .error e => if e = .keyError then .ok none else .error e

/-- StylesDocument.__init__ (styles.py:63-67): both resolvers collect their names at once -/
def openStyles (file : Except Exn Node) : Except Exn Node := do
  let s ← file
  let _ ← aliasDct (stylesOfType s c!"paragraph")
  let _ ← aliasDct (stylesOfType s c!"character")
  .ok s

/-- Document.__init__ (docx/document.py:23-34): the document, and the text of its header -/
def openWord (f : WordFile) : Except Exn (WordDoc × Str) := do
  let root ← f.document
  let num ← openNumbering f.numbering
  let header ← f.header
  let styles ← openStyles f.styles
  .ok (⟨root, num, styles⟩, headerText header)

/-! ### the style sheet -/

/-- the list styles (numbering.py:24-31, 51-56) -/
def NumLvl.listStyle (l : NumLvl) : Str :=
  if startsWith l.lvlText c!"%" then
    (if l.numFmt = c!"lowerLetter" then c!"lower-alpha" else if l.numFmt = c!"lowerRoman" then c!"lower-roman" else c!"decimal")
  else if l.ilvl % 2 = 0 then c!"disc" else c!"circle"

/-- the selector of a level (numbering.py:50, 57-60) -/
def NumLvl.selector (l : NumLvl) : Str :=
  l.tag ++ c!"." ++ l.clsname ++ (List.replicate l.ilvl.toNat (' ' :: l.tag)).flatten

/-- AbstractNumLvl.to_css (numbering.py:45-60) -/
def NumLvl.toCss (l : NumLvl) : Str := l.selector ++ c!" { list-style-type: " ++ l.listStyle ++ c!"; }"

/-- the values of a dictionary after a sequence of assignments: a key keeps the place of its first assignment (`dict.values()` in numbering.py:120) -/
def dictValues {α : Type} (assigns : List (Int × α)) : List (Int × α) :=
  (assigns.foldl (fun d a => if (d.any (fun e => e.1 == a.1)) then d.map (fun e => if e.1 = a.1 then a else e) else d ++ [a]) [])

/-- NumberingDocument.iter_styles (numbering.py:119-120) and the loops over it (htmlrenderer.py:105-107): the levels for which a rule
is written -/
def Numbering.levels (n : Numbering) : List NumLvl := (dictValues n.absNums).flatMap (·.2)

/-- the rules before those of the lists (htmlrenderer.py:56-99) -/
def cssPrelude : List Str :=
  cssBlock c!"body" [(c!"font-family", c!"sans-serif")] ++
  cssBlock c!"p:first-child" [(c!"margin-top", c!".3em")] ++
  cssBlock c!"p:last-child" [(c!"margin-bottom", c!".3em")] ++
  cssBlock c!"p" [(c!"margin-top", c!"0em"), (c!"margin-left", c!".2em"), (c!"margin-right", c!".2em")] ++
  cssBlock c!"table, td, th" [(c!"border-collapse", c!"collapse"), (c!"border", c!"1px solid black;")] ++
  cssBlock c!"table" [(c!"margin-left", c!".3em"), (c!"margin-right", c!".3em"), (c!"margin-bottom", c!"3em"),
    (c!"margin-top", c!"1em")] ++
  cssBlock c!"td table" [(c!"margin-bottom", c!"1em")]

/-- __write_css_prelude (htmlrenderer.py:56-107) -/
def cssStart (num : Option Numbering) : List Str :=
  cssPrelude ++ match num with
    | none => []
    | some n => c!"/* list-formatting styles */" :: n.levels.map NumLvl.toCss

/-- CssCache.emit_rules (css.py:46-48) -/
def CssCache.lines (c : CssCache) : List Str := c.rules.flatMap (fun r => cssBlock r.1 r.2)

/-- __write_css_epilog (htmlrenderer.py:110-117) -/
def cssEnd (st : RSt) : List Str :=
  c!"/* text-formatting styles */" :: st.txt.lines ++ (c!"/* table cell formatting styles */" :: st.tcell.lines)

/-! ### the run of the first stage -/

/-- SpexParser.parse (parser.py:107-113) as a generator: the tables yielded, and how it ends. `parseWord` is the case without an
exception (`wordTables_parseWord`). -/
def wordTables (doc : WordDoc) : List LNode → Seen → List HUnit × Except Exn Unit
  | [], _ => ([], .ok ())
  | t :: ts, seen =>
    match parseTable doc (docFuel doc.root) t seen with
    | .error e => ([], .error e)
    | .ok r => (r.1 ++ (wordTables doc ts r.2).1, (wordTables doc ts r.2).2)

/-- the tables which SpexHtmlRenderer.generate gets (htmlrenderer.py:149-155) -/
def yieldedTables (doc : WordDoc) : List HUnit × Except Exn Unit := wordTables doc (docTables doc.root) []

/-- reports from number `i`: one per table (htmlrenderer.py:150-151), with the number of tables (htmlrenderer.py:255-262) as total
(parse.py:34-37) -/
def htmlReports (total : Nat) : Nat → List HUnit → List Progress
  | _, [] => []
  | i, _ :: us => ⟨c!"html", i, total⟩ :: htmlReports total (i + 1) us

/-- The first part of parse_spec for a Word document (parse.py:29-42) which its consumer does not stop: the reports, and what is
written to the two files if there is no exception: the page, and the lines of the style sheet. The file name of the document without its
suffix is `fname`. Not modelled: the files are written when the renderer is destroyed (htmlrenderer.py:264-270), which CPython does
before the second stage begins. -/
def firstStage (f : WordFile) (fname : Str) (progress : Bool) : List Progress × Except Exn (List Piece × List Str) :=
  match openWord f with
  | .error e => ([], .error e)
  | .ok (doc, header) =>
    let r := yieldedTables doc
    let page := renderPage spexVersion (headerTitle header) (headerRevision header) fname r.1
    (if progress then htmlReports (docTables doc.root).length 0 r.1 else [],
      r.2.map fun _ => (page.1, cssStart doc.numbering ++ cssEnd page.2))

/-- What the HTML and the CSS file hold when the renderer has been destroyed (htmlrenderer.py:264-270): all that was emitted before
`generate` (htmlrenderer.py:119-160) ended or an exception was raised in it. `none` if the document cannot be opened: then the files are
not made (htmlrenderer.py:32, 39-47). -/
def stageFiles (f : WordFile) (fname : Str) : Option (List Piece × List Str) :=
  match openWord f with
  | .error _ => none
  | .ok (doc, header) =>
    let r := yieldedTables doc
    let units := renderUnits RSt.init r.1
    let start := pageHead spexVersion (headerTitle header) (headerRevision header) fname ++ units.1
    match r.2 with
    | .error _ => some (start, cssStart doc.numbering)
    | .ok _ => some (start ++ emitln c!"</body>" ++ emitln c!"</html>", cssStart doc.numbering ++ cssEnd units.2)

/-- The tools of parse_spec: the first stage, for archives read by `unzip` and files laid out by gcgen as in `layout`, and the XML
parser. lxml's parser is represented by `readXml` (see Model/XmlRead) (parse.py:29-42). -/
def stageTools (unzip : Str → WordFile) (layout : List Piece → Str) : Tools where
  docx name bytes := (firstStage (unzip bytes) name false).2.map fun r => (layout r.1, layout (r.2.flatMap emitln))
  xml s := match readXml s with
    | some n => .ok n
    | none => .error .xmlSyntaxError

/-- parse_spec (parse.py:24-80) for a Word document with progress reports, as long as its consumer does not stop it: the reports, the
writer of the second stage if that is reached, and the outcome -/
def parseDocx (f : WordFile) (fname : Str) (layout : List Piece → Str) (ignore : List LintErr) (skip progress : Bool) :
    List Progress × Option WriterSt × RunEnd :=
  match firstStage f fname progress with
  | (ps, .error e) => (ps, none, .raised e)
  | (ps, .ok (page, _)) =>
    let r := parseSpec ignore skip progress none ((stageTools (fun _ => f) layout).xml (layout page))
    (ps ++ r.1, some r.2.1, r.2.2)

end Spex
