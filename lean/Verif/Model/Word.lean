import Verif.Model.Xml
/-
WordprocessingML trees: the queries of /repo/src/spex/xml.py on them, and located elements. Element and attribute names
are written with the prefix `w:`, which is assumed to be bound to the WordprocessingML namespace (docx/tags.py:13).
-/
set_option autoImplicit false
namespace Spex

/-- tag names of the Word model (docx/tags.py:36-53) -/
abbrev wTbl : Str := c!"w:tbl"
/-- docx/tags.py:36-53 -/
abbrev wTr : Str := c!"w:tr"
/-- docx/tags.py:36-53 -/
abbrev wTc : Str := c!"w:tc"
/-- tablewrap.py:46, 50, parser.py:250 -/
abbrev wTcPr : Str := c!"w:tcPr"
/-- docx/tags.py:36-53 -/
abbrev wP : Str := c!"w:p"
/-- docx/tags.py:36-53 -/
abbrev wPPr : Str := c!"w:pPr"
/-- docx/tags.py:36-53 -/
abbrev wR : Str := c!"w:r"
/-- docx/tags.py:36-53 -/
abbrev wRPr : Str := c!"w:rPr"
/-- docx/tags.py:36-53 -/
abbrev wT : Str := c!"w:t"
/-- docx/tags.py:36-53 -/
abbrev wHyperlink : Str := c!"w:hyperlink"
/-- docx/tags.py:36-53 -/
abbrev wFldSimple : Str := c!"w:fldSimple"
/-- e.g. parser.py:135, tablewrap.py:46 -/
abbrev aVal : Str := c!"w:val"

namespace Node

/-- XPath `./a/b/...`: the elements reached by a path of child steps, in document order (Xpath.elems, xml.py:51-71) -/
def steps : List Str → Node → List Node
  | [], n => [n]
  | t :: ts, n => (n.childs t).flatMap (steps ts)

/-- Xpath.elem_first for `./a/b/...` (xml.py:73-76) -/
def first (ts : List Str) (n : Node) : Option Node := (n.steps ts).head?

/-- Xpath.attr_first for `./a/b/.../@attr` (xml.py:113-115): the first element reached which has the attribute -/
def attrFirst (ts : List Str) (a : Str) (n : Node) : Option Str := (n.steps ts).findSome? (fun m => m.attr? a)

/-- `elem.text`: the text before the first child element, `None` if there is none (lxml, as used in parser.py:222, 225 and header.py:19-21) -/
def text? (n : Node) : Option Str :=
  match (n.kids.takeWhile (fun k => !k.isElem)).flatMap Node.flat with
  | [] => none
  | s => some s

end Node

/-- Xpath.attr_first_req (xml.py:118-126) on the result of a query -/
def reqAttr {α : Type} (o : Option α) : Except Exn α :=
  match o with
  | some a => .ok a
  | none => .error .runtimeError

/-- An element together with its place in the document (the positions of the children on the way from the root). lxml
compares elements by identity; two occurrences of an element are the same iff their places are (lxml elements as in parser.py:105, 230, 237). -/
structure LNode where
  path : List Nat
  node : Node

/-- children which are elements, with their places: `elem.iterchildren()` (parser.py:211, 273) -/
def kidsFrom (path : List Nat) : Nat → List Node → List LNode
  | _, [] => []
  | i, k :: ks => if k.isElem then ⟨path ++ [i], k⟩ :: kidsFrom path (i + 1) ks else kidsFrom path (i + 1) ks

/-- `elem.iterchildren()` (parser.py:211, 273) -/
def LNode.children (l : LNode) : List LNode := kidsFrom l.path 0 l.node.kids

/-- `./t` with places (xml.py:51-76) -/
def LNode.childs (l : LNode) (t : Str) : List LNode := l.children.filter (fun k => k.node.hasTag t)

mutual
/-- `.//t` : descendants with tag `t`, in document order, with their places (document.py:50) -/
def descendants (t : Str) (path : List Nat) : Node → List LNode
  | .text _ => []
  | .elem _ _ ks => descendantsKids t path 0 ks
/-- document.py:50 -/
def descendantsKids (t : Str) (path : List Nat) (i : Nat) : List Node → List LNode
  | [] => []
  | k :: ks => (if k.hasTag t then [⟨path ++ [i], k⟩] else []) ++ descendants t (path ++ [i]) k ++
      descendantsKids t path (i + 1) ks
end

/-- Document.tables (docx/document.py:48-50): `.//w:tbl` of the root element -/
def docTables (root : Node) : List LNode := descendants wTbl [] root

end Spex
