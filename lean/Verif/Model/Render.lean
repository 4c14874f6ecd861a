import Verif.Model.WordParse
import Verif.Model.Css
/-
Model of src/spex/htmlspec/htmlrenderer.py.

The text of the page is collected by gcgen (a library which is not part of /repo). What is used of it: `emit` writes its
arguments one after another, `emitln` ends the line as well, and `indent`/`dedent` change the white space with which lines begin.
In the pages of example/stage1 a line which has been begun also ends where `indent` or `dedent` is called: a cell's start tag and a
paragraph's end tag stand on lines of their own. So a page is a list of pieces: texts, ends of lines, and places where a line may
end. How a line begins is left open as well, see `Laid`. Simplification: `indent` and `dedent` at the beginning of a line are left
out, they change its white space only.
-/
set_option autoImplicit false
namespace Spex

/-- what is written: a text, or the end of a line together with the indentation of the next one, or a change of the indentation
within a line (gcgen, called in htmlrenderer.py:130-243 and css.py:15-18) -/
inductive Piece where
  | str (s : Str)
  | nl
  | brk
  deriving DecidableEq, Repr

/-- Section.emit (gcgen, called in htmlrenderer.py:130-243 and css.py:15-18) -/
def emit (s : Str) : List Piece := [.str s]
/-- Section.emitln (gcgen, called in htmlrenderer.py:130-243 and css.py:15-18) -/
def emitln (s : Str) : List Piece := [.str s, .nl]
/-- Section.indent, Section.dedent within a line (gcgen, called in htmlrenderer.py:130-243 and css.py:15-18) -/
def brk : List Piece := [.brk]

/-- blanks with which a line begins (gcgen, called in htmlrenderer.py:130-243 and css.py:15-18) -/
def Blanks (w : Str) : Prop := ∀ c ∈ w, c = ' ' ∨ c = '\t'

/-- The text of the file: ends of lines are written as such, followed by some blanks; where the indentation changes within a line
this line may end, or not (gcgen, called in htmlrenderer.py:130-243 and css.py:15-18). -/
inductive Laid : List Piece → Str → Prop where
  | nil : Laid [] []
  | str {s : Str} {ps : List Piece} {t : Str} : Laid ps t → Laid (.str s :: ps) (s ++ t)
  | nl {w : Str} {ps : List Piece} {t : Str} : Blanks w → Laid ps t → Laid (.nl :: ps) ('\n' :: w ++ t)
  | brk {w : Str} {ps : List Piece} {t : Str} : Blanks w → Laid ps t → Laid (.brk :: ps) ('\n' :: w ++ t)
  | stay {ps : List Piece} {t : Str} : Laid ps t → Laid (.brk :: ps) t

/-- `html.escape(s)` for one character (python's standard library) (htmlrenderer.py:169) -/
def escapeChar (c : Char) : Str :=
  if c = '&' then c!"&amp;"
  else if c = '<' then c!"&lt;"
  else if c = '>' then c!"&gt;"
  else if c = '"' then c!"&quot;"
  else if c = '\'' then c!"&#x27;"
  else [c]

/-- `html.escape(s)` (htmlrenderer.py:169) -/
def htmlEscape (s : Str) : Str := s.flatMap escapeChar

/-- the two caches of class names (htmlrenderer.py:48-51) -/
structure RSt where
  txt : CssCache
  tcell : CssCache

/-- htmlrenderer.py:48-51 -/
def RSt.init : RSt := ⟨.init c!"txtfmt", .init c!"tcell"⟩

/-- TcPr.css_attrs (parser.py:22-26). The fill colour kept has six characters, it is neither `None` nor `auto`. -/
def tcAttrs (fill : Str) : Attrs := [(c!"background-color", '#' :: fill)]

/-- the class of a span (htmlrenderer.py:170-173) -/
def spanClass (st : RSt) (style : Option RunProps) : Option Str × RSt :=
  match style with
  | none => (none, st)
  | some p => let r := st.txt.getClsname p.cssAttrs; (r.1, { st with txt := r.2 })

/-- the class of a cell (htmlrenderer.py:215-218) -/
def cellClass (st : RSt) (fill : Option Str) : Option Str × RSt :=
  match fill with
  | none => (none, st)
  | some f => let r := st.tcell.getClsname (tcAttrs f); (r.1, { st with tcell := r.2 })

/-- `f' {name}="{value}"'` if there is a value (htmlrenderer.py:222-224) -/
def attrText (name : Str) (value : Option Str) : Str :=
  match value with
  | none => []
  | some v => ' ' :: name ++ c!"=\"" ++ v ++ c!"\""

/-- _render_span (htmlrenderer.py:168-177) -/
def renderSpan (st : RSt) (s : HSpan) : List Piece × RSt :=
  let r := spanClass st s.style
  (emit (c!"<span" ++ attrText c!"class" r.1 ++ c!">" ++ htmlEscape s.text ++ c!"</span>"), r.2)

/-- loops over spans (htmlrenderer.py:164-165 and 187-188) -/
def renderSpans (st : RSt) : List HSpan → List Piece × RSt
  | [] => ([], st)
  | s :: ss =>
    let r := renderSpan st s
    let rs := renderSpans r.2 ss
    (r.1 ++ rs.1, rs.2)

/-- _render_paragraph (htmlrenderer.py:162-166) -/
def renderParagraph (st : RSt) (spans : List HSpan) : List Piece × RSt :=
  let r := renderSpans st spans
  (emitln c!"<p>" ++ r.1 ++ brk ++ emitln c!"</p>", r.2)

/-- the first line of a list (htmlrenderer.py:180) -/
def listStart (props : NumLvl) : Str := c!"<" ++ props.tag ++ attrText c!"class" (some props.clsname) ++ c!">"

/-- end tag (htmlrenderer.py:166, 200, 229-231) -/
def endTag (tag : Str) : Str := c!"</" ++ tag ++ c!">"

mutual
/-- the body of the loop of _render_list (htmlrenderer.py:183-197); `isOpen` is `open_elem`, its new value is the last
component -/
def renderItem (st : RSt) (isOpen : Bool) : HItem → List Piece × RSt × Bool
  | .item spans =>
    let r := renderSpans st spans
    ((if isOpen then brk ++ emitln c!"</li>" else []) ++ emitln c!"<li>" ++ r.1, r.2, true)
  | .list props elems =>
    let r := renderItems st false elems
    ((if isOpen then [] else emitln c!"<li>") ++ (emitln (listStart props) ++ r.1 ++ emitln (endTag props.tag)) ++
      emitln c!"</li>", r.2, false)
/-- the loop of _render_list (htmlrenderer.py:181-199) -/
def renderItems (st : RSt) (isOpen : Bool) : List HItem → List Piece × RSt
  | [] => (if isOpen then brk ++ emitln c!"</li>" else [], st)
  | e :: es =>
    let r := renderItem st isOpen e
    let rs := renderItems r.2.1 r.2.2 es
    (r.1 ++ rs.1, rs.2)
end

/-- _render_list (htmlrenderer.py:179-200) -/
def renderList (st : RSt) (props : NumLvl) (elems : List HItem) : List Piece × RSt :=
  let r := renderItems st false elems
  (emitln (listStart props) ++ r.1 ++ emitln (endTag props.tag), r.2)

/-- the first line of a table (htmlrenderer.py:203-206): an empty id counts as none -/
def tableStart (id : Option Str) : Str :=
  match id with
  | none => c!"<table>"
  | some i => if i.isEmpty then c!"<table>" else c!"<table id='" ++ i ++ c!"'>"

/-- a span greater than one (htmlrenderer.py:222-223) -/
def spanVal (n : Int) : Option Str := if 1 < n then some (intStr n) else none

/-- start tag of a cell (htmlrenderer.py:219-226) -/
def cellStart (tag : Str) (colspan rowspan : Int) (cls : Option Str) : Str :=
  c!"<" ++ tag ++ attrText c!"colspan" (spanVal colspan) ++ attrText c!"rowspan" (spanVal rowspan) ++
    attrText c!"class" cls ++ c!">"

mutual
/-- _render_any (htmlrenderer.py:233-243), _render_table (htmlrenderer.py:202-231) -/
def renderAny (st : RSt) : HUnit → List Piece × RSt
  | .para spans => renderParagraph st spans
  | .list props elems => renderList st props elems
  | .table _ id rows =>
    let r := renderRows st 0 rows
    (emitln (tableStart id) ++ r.1 ++ emitln c!"</table>", r.2)
/-- the elements of a cell (htmlrenderer.py:227-228) -/
def renderUnits (st : RSt) : List HUnit → List Piece × RSt
  | [] => ([], st)
  | u :: us =>
    let r := renderAny st u
    let rs := renderUnits r.2 us
    (r.1 ++ rs.1, rs.2)
/-- the loop over the rows (htmlrenderer.py:207-230), from row `rndx` -/
def renderRows (st : RSt) (rndx : Nat) : List (List HCell) → List Piece × RSt
  | [] => ([], st)
  | row :: rows =>
    let r := renderCells st rndx 0 row
    let rs := renderRows r.2 (rndx + 1) rows
    (emitln c!"<tr>" ++ r.1 ++ emitln c!"</tr>" ++ rs.1, rs.2)
/-- the loop over the cells of a row (htmlrenderer.py:209-229), from column `cndx` -/
def renderCells (st : RSt) (rndx cndx : Nat) : List HCell → List Piece × RSt
  | [] => ([], st)
  | .mk tag elems colspan rowspan left top fill :: cells =>
    if left = (cndx : Int) ∧ top = (rndx : Int) then
      let c := cellClass st fill
      let r := renderUnits c.2 elems
      let rs := renderCells r.2 rndx (cndx + 1) cells
      (emit (cellStart tag colspan rowspan c.1) ++ brk ++ r.1 ++ emitln (endTag tag) ++ rs.1, rs.2)
    else renderCells st rndx (cndx + 1) cells
end

/-- the first part of the page (htmlrenderer.py:130-147). The sections added (lines 143, 147) stay empty. -/
def pageHead (version title : Str) (revision : Option Str) (fname : Str) : List Piece :=
  emitln c!"<!DOCTYPE html>" ++ emitln c!"<html lang=\"en\">" ++ emitln c!"<head>" ++
  emit (c!"<meta charset=\"utf-8\"" ++ attrText c!"data-spec" (some title)) ++
  (match revision with | none => [] | some r => emit (attrText c!"data-revision" (some r))) ++ emitln c!"/>" ++
  emitln (c!"<meta name=\"spexVersion\"" ++ attrText c!"content" (some version) ++ c!" />") ++
  emitln (c!"<title>" ++ fname ++ c!"</title>") ++
  emitln (c!"<link rel=\"stylesheet\"" ++ attrText c!"href" (some (fname ++ c!".css")) ++ c!"/>") ++
  emitln c!"</head>" ++ emitln c!"<body>"

/-- SpexHtmlRenderer.generate (htmlrenderer.py:119-160), given the tables which the parser yields: the page, and the caches from
which the style sheet is written -/
def renderPage (version title : Str) (revision : Option Str) (fname : Str) (tables : List HUnit) : List Piece × RSt :=
  let r := renderUnits RSt.init tables
  (pageHead version title revision fname ++ r.1 ++ emitln c!"</body>" ++ emitln c!"</html>", r.2)

end Spex
