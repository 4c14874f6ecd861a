import Verif.Model.PyBasic
/-
XML element trees (lxml) and the XPath queries used by /repo/src/spex. Comments, processing instructions and
namespaces are not modelled: tags are plain (already expanded) names.
-/
set_option autoImplicit false
namespace Spex

/-- An lxml tree; `text` nodes stand for both `.text` and `.tail` (lxml, xml.py:15-17). -/
inductive Node where
  | text (s : Str)
  | elem (tag : Str) (attrs : List (Str × Str)) (kids : List Node)

namespace Node

/-- `elem.tag` (text nodes have none) (lxml, as used in parser.py:120, document.py:193) -/
def tag? : Node → Option Str
  | .text _ => none
  | .elem t _ _ => some t

/-- children (lxml, xml.py:51-71) -/
def kids : Node → List Node
  | .text _ => []
  | .elem _ _ ks => ks

/-- `elem.get(name)` (lxml, as used in rowiter.py:60, 67, 111) -/
def attr? (n : Node) (name : Str) : Option Str :=
  match n with
  | .text _ => none
  | .elem _ as _ => as.lookup name

/-- is it an element (lxml, xml.py:51-71) -/
def isElem : Node → Bool
  | .text _ => false
  | .elem .. => true

/-- is it an element with this tag (lxml, xml.py:51-71) -/
def hasTag (t : Str) : Node → Bool
  | .text _ => false
  | .elem t' _ _ => t' == t

mutual
/-- `"".join(elem.itertext())` (xml.py:47) -/
def flat : Node → Str
  | .text s => s
  | .elem _ _ ks => flats ks
/-- texts of a list of nodes, concatenated (xml.py:47) -/
def flats : List Node → Str
  | [] => []
  | k :: ks => flat k ++ flats ks
end

mutual
/-- number of nodes; the measure for termination (for the recursion of document.py:267-343) -/
def size : Node → Nat
  | .text _ => 1
  | .elem _ _ ks => 1 + sizes ks
/-- for the recursion of document.py:267-343 -/
def sizes : List Node → Nat
  | [] => 0
  | k :: ks => size k + sizes ks
end

/-- XPath `./t` : children with tag `t` (lxml, xml.py:51-71) -/
def childs (n : Node) (t : Str) : List Node := n.kids.filter (hasTag t)

/-- XPath `./*` : element children (lxml, xml.py:51-71) -/
def elems (n : Node) : List Node := n.kids.filter isElem

/-- XPath `./t[i]`, `i` counted from 1 as in XPath (lxml, xml.py:51-71) -/
def nthChild (n : Node) (t : Str) (i : Nat) : Option Node := (n.childs t)[i - 1]?

/-- XmlUtils.to_text (xml.py:37-47) -/
def toText (n : Node) : Str := strip n.flat

end Node

/-- Xpath.elem_first_req (xml.py:78-87) on the result of a query -/
def req {α : Type} (o : Option α) : Except Exn α :=
  match o with
  | some a => .ok a
  | none => .error .xpathNotFound

/-- tag names of the HTML model (document.py:177, 192-196, rowiter.py:57, 85) -/
abbrev tTable : Str := c!"table"
/-- document.py:177, 192-196, rowiter.py:57, 85 -/
abbrev tTr : Str := c!"tr"
/-- document.py:177, 192-196, rowiter.py:57, 85 -/
abbrev tTd : Str := c!"td"
/-- document.py:177, 192-196, rowiter.py:57, 85 -/
abbrev tTh : Str := c!"th"
/-- helpers.py:22, valuetable.py:232-236 -/
abbrev tP : Str := c!"p"
/-- rowiter.py:60 -/
abbrev aColspan : Str := c!"colspan"
/-- rowiter.py:111 -/
abbrev aRowspan : Str := c!"rowspan"

end Spex
