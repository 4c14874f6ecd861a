import Verif.Model.XmlRead
import Verif.Model.Render
/-
Specification of the page: the element tree which an XML parser is to read from it.
-/
set_option autoImplicit false
namespace Spex

/-- elements whose white space is kept -/
def isLeafTag (tag : Str) : Bool := tag == c!"span" || tag == c!"title"

/-- the text of an element, as child nodes -/
def textKids (s : Str) : List Node := if s.isEmpty then [] else [.text s]

mutual
/-- without the white space between elements -/
def Node.clean : Node → Node
  | .text s => .text s
  | .elem tag attrs ks => .elem tag attrs (if isLeafTag tag then ks else cleans ks)
def cleans : List Node → List Node
  | [] => []
  | k :: ks => if k.isBlank then cleans ks else k.clean :: cleans ks
end

/-! ### The page as a tree -/

/-- the class names of a page, for the formatting of texts and for the fill colour of cells -/
structure Classes where
  span : RunProps → Option Str
  cell : Str → Option Str

/-- the classes which the style sheet of the page defines: the ones with just this formatting -/
def classesOf (st : RSt) : Classes := ⟨fun p => st.txt.entries.lookup p.cssAttrs, fun f => st.tcell.entries.lookup (tcAttrs f)⟩

/-- an attribute which is present if there is a value -/
def optAttr (name : Str) (value : Option Str) : List (Str × Str) :=
  match value with
  | none => []
  | some v => [(name, v)]

/-- a text; ends of lines in it are those of XML -/
def spanNode (cls : Classes) (s : HSpan) : Node :=
  .elem c!"span" (optAttr c!"class" (s.style.bind cls.span)) (textKids (eolNorm s.text))

/-- list item -/
def liNode (ns : List Node) : Node := .elem c!"li" [] ns

mutual
/-- One element of a list. A list directly after an item belongs into it; `pending` is the item before, unless it is complete.
The result are the items which are complete now, and the new pending one. -/
def itemNode (cls : Classes) (pending : Option (List Node)) : HItem → List Node × Option (List Node)
  | .item spans => ((pending.map liNode).toList, some (spans.map (spanNode cls)))
  | .list props elems =>
    ([liNode (pending.getD [] ++ [.elem props.tag [(c!"class", props.clsname)] (itemNodes cls none elems)])], none)
/-- the items of a list -/
def itemNodes (cls : Classes) (pending : Option (List Node)) : List HItem → List Node
  | [] => (pending.map liNode).toList
  | e :: es => (itemNode cls pending e).1 ++ itemNodes cls (itemNode cls pending e).2 es
end

/-- an empty id counts as none -/
def idAttr (id : Option Str) : List (Str × Str) :=
  match id with
  | none => []
  | some i => if i.isEmpty then [] else [(c!"id", i)]

/-- the attributes of a cell -/
def cellAttrs (colspan rowspan : Int) (cls : Option Str) : List (Str × Str) :=
  optAttr c!"colspan" (if 1 < colspan then some (intStr colspan) else none) ++
    optAttr c!"rowspan" (if 1 < rowspan then some (intStr rowspan) else none) ++ optAttr c!"class" cls

mutual
/-- paragraphs, lists and tables -/
def unitNode (cls : Classes) : HUnit → Node
  | .para spans => .elem c!"p" [] (spans.map (spanNode cls))
  | .list props elems => .elem props.tag [(c!"class", props.clsname)] (itemNodes cls none elems)
  | .table _ id rows => .elem c!"table" (idAttr id) (rowNodes cls 0 rows)
def unitNodes (cls : Classes) : List HUnit → List Node
  | [] => []
  | u :: us => unitNode cls u :: unitNodes cls us
/-- the rows of a table, from row `r` -/
def rowNodes (cls : Classes) (r : Nat) : List (List HCell) → List Node
  | [] => []
  | row :: rows => .elem c!"tr" [] (cellNodes cls r 0 row) :: rowNodes cls (r + 1) rows
/-- the cells of row `r` from column `c`: only those which begin at their place -/
def cellNodes (cls : Classes) (r c : Nat) : List HCell → List Node
  | [] => []
  | .mk tag elems colspan rowspan left top fill :: cells =>
    if left = (c : Int) ∧ top = (r : Int) then
      .elem tag (cellAttrs colspan rowspan (fill.bind cls.cell)) (unitNodes cls elems) :: cellNodes cls r (c + 1) cells
    else cellNodes cls r (c + 1) cells
end

/-- the whole page -/
def pageNode (version title : Str) (revision : Option Str) (fname : Str) (body : List Node) : Node :=
  .elem c!"html" [(c!"lang", c!"en")] [
    .elem c!"head" [] [
      .elem c!"meta" ([(c!"charset", c!"utf-8"), (c!"data-spec", title)] ++ optAttr c!"data-revision" revision) [],
      .elem c!"meta" [(c!"name", c!"spexVersion"), (c!"content", version)] [],
      .elem c!"title" [] (textKids fname),
      .elem c!"link" [(c!"rel", c!"stylesheet"), (c!"href", fname ++ c!".css")] []],
    .elem c!"body" [] body]

end Spex
