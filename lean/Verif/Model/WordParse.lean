import Verif.Model.Grid
import Verif.Model.RunProps
import Verif.Model.Regex
/-
Models of src/spex/htmlspec/docx/numbering.py, src/spex/htmlspec/parser.py and of Document.extract_r_rpr
(docx/document.py:76-86). Comments and processing instructions inside a Word document are not modelled.
-/
set_option autoImplicit false
namespace Spex
variable [Uni]

/-! ### numbering.py -/

/-- AbstractNumLvl (numbering.py:13-18) -/
structure NumLvl where
  absId : Int
  ilvl : Int
  numFmt : Str
  lvlText : Str
  deriving DecidableEq, Repr

/-- AbstractNumLvl.tag (numbering.py:33-39) -/
def NumLvl.tag (l : NumLvl) : Str := if startsWith l.lvlText c!"%" then c!"ol" else c!"ul"

/-- AbstractNumLvl.css_clsname (numbering.py:41-43) -/
def NumLvl.clsname (l : NumLvl) : Str := l.tag ++ intStr l.absId

/-- NumberingDocument (numbering.py:100-107): the assignments to the dictionaries `_abstract_nums` (id, levels) and
`_num_to_abs_num`, in order -/
structure Numbering where
  absNums : List (Int × List NumLvl)
  nums : List (Int × Int)

/-- the value of a key after a sequence of assignments (numbering.py:111, 116) -/
def intDict {α : Type} (assigns : List (Int × α)) (key : Int) : Option α := assigns.reverse.lookup key

/-- one `w:lvl` (numbering.py:128-138) -/
def parseLvl (absId : Int) (lvl : Node) : Except Exn NumLvl := do
  let i ← reqAttr (lvl.attr? c!"w:ilvl")
  let ilvl ← pyInt i
  let fmt ← reqAttr (lvl.attrFirst [c!"w:numFmt"] aVal)
  let txt ← reqAttr (lvl.attrFirst [c!"w:lvlText"] aVal)
  .ok ⟨absId, ilvl, fmt, txt⟩

/-- one `w:abstractNum` (numbering.py:125-139) -/
def parseAbsNum (e : Node) : Except Exn (Int × List NumLvl) := do
  let s ← reqAttr (e.attr? c!"w:abstractNumId")
  let id ← pyInt s
  let lvls ← (e.childs c!"w:lvl").mapM (parseLvl id)
  .ok (id, lvls)

/-- coerce (numbering.py:67-88) to an integer -/
def coerceInt (v : Option Str) : Except Exn Int :=
  match v with
  | none => .error .valueError
  | some s => pyInt s

/-- one `w:num` (numbering.py:144-149) -/
def parseNum (e : Node) : Except Exn (Int × Int) := do
  let id ← coerceInt (e.attr? c!"w:numId")
  let a ← coerceInt (e.attrFirst [c!"w:abstractNumId"] aVal)
  .ok (id, a)

/-- __parse_absnum (numbering.py:122-150) -/
def parseNumbering (root : Node) : Except Exn Numbering := do
  let abs ← (root.childs c!"w:abstractNum").mapM parseAbsNum
  let nums ← (root.childs c!"w:num").mapM parseNum
  .ok ⟨abs, nums⟩

/-- has_num_id (numbering.py:109-111) -/
def Numbering.hasNumId (n : Numbering) (numId : Str) : Except Exn Bool :=
  (pyInt numId).map (fun i => (intDict n.nums i).isSome)

/-- `d[k]` (numbering.py:116) -/
def reqKey {α : Type} (o : Option α) : Except Exn α :=
  match o with
  | some a => .ok a
  | none => .error .keyError

/-- get_style (numbering.py:113-117): the id of the abstract numbering and its levels. `breakpoint()` for the number 0 is
modelled as the exception it raises without a terminal. -/
def Numbering.getStyle (n : Numbering) (numId : Int) : Except Exn (Int × List NumLvl) :=
  if numId = 0 then .error .bdbQuit
  else do
    let a ← reqKey (intDict n.nums numId)
    let lvls ← reqKey (intDict n.absNums a)
    .ok (a, lvls)

/-! ### documents -/

/-- Document (docx/document.py:19-34): the document element, the numbering if there is one, the styles element -/
structure WordDoc where
  root : Node
  numbering : Option Numbering
  styles : Node

/-- Document.extract_r_rpr (docx/document.py:76-86). The style cache starts empty here; C48_history shows that earlier
requests do not change the answer. -/
def extractRRpr (doc : WordDoc) (r : Node) : Except Exn (Option RunProps) :=
  match r.first [wRPr] with
  | none => .ok none
  | some rpr => do
    let props ← runPropsOf rpr
    match rpr.attrFirst [c!"w:rStyle"] aVal with
    | none => .ok (some props)
    | some id => do
      let style ← (getCstyle doc.styles id []).1
      match style with
      | none => .ok (some props)
      | some s => .ok (some (s.merge (some props)))

/-! ### parser.py: the parsed document -/

/-- Span (parser.py:29-32) -/
structure HSpan where
  style : Option RunProps
  text : Str
  deriving DecidableEq, Repr

/-- the elements of a list: ListElem (parser.py:40-42) and List (parser.py:45-52) -/
inductive HItem where
  | item (spans : List HSpan)
  | list (props : NumLvl) (elems : List HItem)

mutual
/-- Paragraph (parser.py:35-37), List (parser.py:45-52) and Table (parser.py:73-76). The place of the table in the Word
document is added; it has no influence on anything (tables are compared by identity in `__tbls_seen` only). -/
inductive HUnit where
  | para (spans : List HSpan)
  | list (props : NumLvl) (elems : List HItem)
  | table (src : List Nat) (id : Option Str) (rows : List (List HCell))
/-- TableCell (parser.py:64-70) -/
inductive HCell where
  | mk (tag : Str) (elems : List HUnit) (colspan rowspan left top : Int) (fill : Option Str)
end

namespace HCell
/-- parser.py:64-70 -/
def tag : HCell → Str | .mk t .. => t
/-- parser.py:64-70 -/
def elems : HCell → List HUnit | .mk _ e .. => e
/-- parser.py:64-70 -/
def colspan : HCell → Int | .mk _ _ c .. => c
/-- parser.py:64-70 -/
def rowspan : HCell → Int | .mk _ _ _ r .. => r
/-- parser.py:64-70 -/
def left : HCell → Int | .mk _ _ _ _ l .. => l
/-- parser.py:64-70 -/
def top : HCell → Int | .mk _ _ _ _ _ t _ => t
/-- parser.py:64-70 -/
def fill : HCell → Option Str | .mk _ _ _ _ _ _ f => f
end HCell

/-- TABLE_ID_REGEX (regular_expressions.py:71): `^Figure (?P<id>\d+):.*` -/
def tableIdRe : Re := .seqs [.bol, .lit c!"Figure ", .grp 1 (.plus isDigit), .chr ':', .star (fun c => c != '\n')]

/-- the part of find_id (parser.py:95-98) after the text has been found -/
def idOfText (text : Str) : Option Str :=
  if text.isEmpty then none
  else match tableIdRe.pmatch text with
    | none => none
    | some caps => group caps 1

/-- find_id (parser.py:79-99) -/
def findId (rows : List (List HCell)) : Option Str :=
  match rows with
  | (.mk tag (.para spans :: _) _ _ _ _ _ :: _) :: _ =>
    if tag = c!"td" then idOfText (spans.flatMap (·.text)) else none
  | _ => none

/-! ### parser.py: paragraphs -/

/-- _select_runs (parser.py:206-217), for one child -/
def selectRun (child : Node) : Except Exn (Option Node) :=
  if child.hasTag wR then .ok (some child)
  else if child.hasTag wHyperlink || child.hasTag wFldSimple then (req (child.first [wR])).map some
  else .ok none

/-- the body of _parse_spans (parser.py:220-225), for one run -/
def parseRun (doc : WordDoc) (r : Node) : Except Exn (List HSpan) :=
  match (r.first [wT]).bind Node.text? with
  | none => .ok []
  | some txt => do
    let style ← extractRRpr doc r
    .ok [⟨style, txt⟩]

/-- _select_runs and _parse_spans, for one child of the paragraph (parser.py:206-225) -/
def parseChild (doc : WordDoc) (child : Node) : Except Exn (List HSpan) := do
  let r ← selectRun child
  match r with
  | none => .ok []
  | some r => parseRun doc r

/-- the loop of _parse_spans (parser.py:219-225) -/
def parseChildren (doc : WordDoc) : List Node → Except Exn (List HSpan)
  | [] => .ok []
  | c :: cs => do
    let s ← parseChild doc c
    let ss ← parseChildren doc cs
    .ok (s ++ ss)

/-- _parse_spans (parser.py:219-225) -/
def parseSpans (doc : WordDoc) (p : Node) : Except Exn (List HSpan) := parseChildren doc p.elems

/-- _parse_paragraph (parser.py:198-204). The spans are parsed twice there, with the same outcome. -/
def parseParagraph (doc : WordDoc) (p : Node) : Except Exn (List HUnit) := do
  let spans ← parseSpans doc p
  if spans.isEmpty then .ok [] else .ok [.para spans]

/-! ### parser.py: lists -/

/-- `./w:pPr/w:numPr/w:numId/@w:val` (parser.py:135, 144, 179) -/
def numIdOf (p : Node) : Option Str := p.attrFirst [wPPr, c!"w:numPr", c!"w:numId"] aVal

/-- `./w:pPr/w:numPr/w:ilvl/@w:val` (parser.py:151, 185) -/
def ilvlOf (p : Node) : Option Str := p.attrFirst [wPPr, c!"w:numPr", c!"w:ilvl"] aVal

/-- __p_is_list_paragraph (parser.py:134-138) -/
def isListPara (doc : WordDoc) (p : Node) : Except Exn Bool :=
  match numIdOf p, doc.numbering with
  | none, _ => .ok false
  | some _, none => .ok false
  | some id, some n => n.hasNumId id

/-- the style of a list paragraph (parser.py:144-149 and 181-182) -/
def paraStyle (doc : WordDoc) (p : Node) : Except Exn (Int × List NumLvl) := do
  let s ← reqAttr (numIdOf p)
  let id ← pyInt s
  match doc.numbering with
  | none => .error .assertionError
  | some n => n.getStyle id

/-- the indentation level of a list paragraph (parser.py:151 and 186-188) -/
def paraLevel (p : Node) : Except Exn Int := do
  let s ← reqAttr (ilvlOf p)
  pyInt s

mutual
/-- _parse_list (parser.py:140-157). The stream is the list of the elements left; the second result is the stream
afterwards. -/
def parseList (doc : WordDoc) : Nat → List LNode → Except Exn (HItem × List LNode)
  | 0, _ => .error .recursionError
  | _ + 1, [] => .error .runtimeError
  | fuel + 1, p :: rest =>
    if p.node.hasTag wP then do
      let style ← paraStyle doc p.node
      let ilvl ← paraLevel p.node
      let props ← pyIndex style.2 ilvl
      let r ← parseListElems doc fuel style.1 ilvl (p :: rest)
      .ok (.list props r.1, r.2)
    else .error .assertionError
/-- _parse_list_elems (parser.py:159-196) -/
def parseListElems (doc : WordDoc) : Nat → Int → Int → List LNode → Except Exn (List HItem × List LNode)
  | 0, _, _, _ => .error .recursionError
  | _ + 1, _, _, [] => .ok ([], [])
  | fuel + 1, absId, ilvl, p :: rest =>
    if p.node.hasTag wP then do
      let isList ← isListPara doc p.node
      if isList then do
        let style ← paraStyle doc p.node
        if style.1 = absId then do
          let lvl ← paraLevel p.node
          if ilvl < lvl then do
            let r ← parseList doc fuel (p :: rest)
            let rs ← parseListElems doc fuel absId ilvl r.2
            .ok (r.1 :: rs.1, rs.2)
          else if lvl < ilvl then .ok ([], p :: rest)
          else do
            let spans ← parseSpans doc p.node
            let rs ← parseListElems doc fuel absId ilvl rest
            .ok (.item spans :: rs.1, rs.2)
        else .ok ([], p :: rest)
      else .ok ([], p :: rest)
    else .ok ([], p :: rest)
end

/-- enough fuel for a list (see parseList_fuel) (for the loops of parser.py:140-196) -/
def listFuel (stream : List LNode) : Nat := 3 * stream.length + 3

/-! ### parser.py: tables -/

/-- a loop which passes a state on (the loops of parser.py:241-282 and 110-113) -/
def mapSt {α β σ : Type} (f : α → σ → Except Exn (β × σ)) : List α → σ → Except Exn (List β × σ)
  | [], s => .ok ([], s)
  | a :: as, s => do
    let r ← f a s
    let rs ← mapSt f as r.2
    .ok (r.1 :: rs.1, rs.2)

/-- the places of the tables seen: `__tbls_seen` (parser.py:105) -/
abbrev Seen := List (List Nat)

/-- the fill colour kept (parser.py:250-261) -/
def cellFill (tc : Node) : Option Str :=
  match tc.attrFirst [wTcPr, c!"w:shd"] c!"w:fill" with
  | none => none
  | some f => if f.length = 6 ∧ lower f ≠ c!"ffffff" then some f else none

/-- the tag of a cell (parser.py:251,262-269) -/
def cellTag (fill : Option Str) : Str :=
  match fill with
  | none => c!"td"
  | some f => if f.take 2 = (f.drop 2).take 2 ∧ (f.drop 2).take 2 = (f.drop 4).take 2 then c!"th" else c!"td"

/-- one slot of the grid (parser.py:243-281), given the loop over the children of the cell. `cell_cache` never has an
entry for the slot, as each slot is visited once. -/
def parseSlot (any : List LNode → Seen → Except Exn (List HUnit × Seen)) (els : List GridEl) (k : Nat) (seen : Seen) :
    Except Exn (HCell × Seen) :=
  match els[k]? with
  | none => .error .indexError
  | some g => do
    let r ← any g.cell.children seen
    .ok (.mk (cellTag (cellFill g.cell.node)) r.1 g.colspan g.rowspan g.left g.top (cellFill g.cell.node), r.2)

mutual
/-- _parse_table (parser.py:227-284) -/
def parseTable (doc : WordDoc) : Nat → LNode → Seen → Except Exn (List HUnit × Seen)
  | 0, _, _ => .error .recursionError
  | fuel + 1, tbl, seen =>
    if tbl.node.hasTag wTbl then
      if tbl.path ∈ seen then .ok ([], seen)
      else do
        let g ← grid tbl
        let r ← mapSt (mapSt (parseSlot (parseAny doc fuel) g.els)) g.matrix (tbl.path :: seen)
        .ok ([.table tbl.path (findId r.1) r.1], r.2)
    else .error .assertionError
/-- _parse_any (parser.py:115-132) -/
def parseAny (doc : WordDoc) : Nat → List LNode → Seen → Except Exn (List HUnit × Seen)
  | 0, _, _ => .error .recursionError
  | _ + 1, [], seen => .ok ([], seen)
  | fuel + 1, c :: rest, seen =>
    if c.node.hasTag wTbl then do
      let t ← parseTable doc fuel c seen
      let us ← parseAny doc fuel rest t.2
      .ok (t.1 ++ us.1, us.2)
    else if c.node.hasTag wP then do
      let isList ← isListPara doc c.node
      if isList then do
        let l ← parseList doc (listFuel (c :: rest)) (c :: rest)
        let us ← parseAny doc fuel l.2 seen
        match l.1 with
        | .list props elems => .ok (.list props elems :: us.1, us.2)
        | .item _ => .error .assertionError
      else do
        let ps ← parseParagraph doc c.node
        let us ← parseAny doc fuel rest seen
        .ok (ps ++ us.1, us.2)
    else parseAny doc fuel rest seen
end

/-- enough fuel for a document (see parse_fuel) (for the recursion of parser.py:107-284) -/
def docFuel (root : Node) : Nat := 2 * root.size + 2

/-- SpexParser.parse (parser.py:107-113): the tables in the order in which they are yielded -/
def parseWord (doc : WordDoc) : Except Exn (List HUnit) := do
  let r ← mapSt (parseTable doc (docFuel doc.root)) (docTables doc.root) []
  .ok r.1.flatten

end Spex
