import Verif.Model.Xml
/-
A reader for XML, the specification of what the generated page means. It models no file of /repo: it stands for
`etree.parse` of lxml (used in src/spex/jsonspec/parse.py:53) and follows XML 1.0 for the part of the language without
comments, processing instructions, CDATA sections, XML declarations, internal subsets and namespaces, all of which it refuses;
names are restricted to ASCII. It reads character by character, so that there is no bound on anything.
-/
set_option autoImplicit false
namespace Spex

/-- a Char of XML 1.0 (production 2) (lxml, for jsonspec/parse.py:53) -/
def isXmlChar (c : Char) : Bool :=
  c == '\t' || c == '\n' || c == '\r' || (0x20 ≤ c.toNat && c.toNat != 0xfffe && c.toNat != 0xffff)

/-- white space of XML 1.0 (production 3) (lxml, for jsonspec/parse.py:53) -/
def isXmlSpace (c : Char) : Bool := c == ' ' || c == '\t' || c == '\n' || c == '\r'

/-- first characters of names (production 4, ASCII) (lxml, for jsonspec/parse.py:53) -/
def isNameStart (c : Char) : Bool := c.isAlpha || c == '_' || c == ':'

/-- further characters of names (production 4a, ASCII) (lxml, for jsonspec/parse.py:53) -/
def isNameChar (c : Char) : Bool := isNameStart c || c.isDigit || c == '-' || c == '.'

/-- end-of-line handling (section 2.11) (lxml, for jsonspec/parse.py:53) -/
def eolNorm : Str → Str
  | [] => []
  | '\r' :: '\n' :: s => '\n' :: eolNorm s
  | '\r' :: s => '\n' :: eolNorm s
  | c :: s => c :: eolNorm s

/-- value of a hexadecimal digit (lxml, for jsonspec/parse.py:53) -/
def xmlHexVal (c : Char) : Option Nat :=
  if '0' ≤ c ∧ c ≤ '9' then some (c.toNat - 48)
  else if 'a' ≤ c ∧ c ≤ 'f' then some (c.toNat - 87)
  else if 'A' ≤ c ∧ c ≤ 'F' then some (c.toNat - 55)
  else none

/-- value of a numeral to the base `b` (lxml, for jsonspec/parse.py:53) -/
def refNat (b : Nat) : Nat → Str → Option Nat
  | acc, [] => some acc
  | acc, c :: s =>
    match xmlHexVal c with
    | some d => if d < b then refNat b (acc * b + d) s else none
    | none => none

/-- the character with a code point, if it may occur in XML (lxml, for jsonspec/parse.py:53) -/
def refChar (n : Option Nat) : Option Char :=
  match n with
  | none => none
  | some n => if n.isValidChar ∧ isXmlChar (Char.ofNat n) then some (Char.ofNat n) else none

/-- the character a reference `&name;` stands for (sections 4.1, 4.6) (lxml, for jsonspec/parse.py:53) -/
def deref (name : Str) : Option Char :=
  if name = c!"amp" then some '&'
  else if name = c!"lt" then some '<'
  else if name = c!"gt" then some '>'
  else if name = c!"quot" then some '"'
  else if name = c!"apos" then some '\''
  else match name with
    | '#' :: 'x' :: c :: s => refChar (refNat 16 0 (c :: s))
    | '#' :: c :: s => refChar (refNat 10 0 (c :: s))
    | _ => none

/-- an element which has been opened: name, attributes, and the nodes before it (the last one first) (lxml, for jsonspec/parse.py:53) -/
structure Open where
  tag : Str
  attrs : List (Str × Str)
  before : List Node

/-- the part of the tree read so far: elements which are open (innermost first) and the nodes in the innermost one (the
last one first) (lxml, for jsonspec/parse.py:53) -/
structure Tree where
  stack : List Open
  kids : List Node

/-- a character of text is added to the text before it (lxml, for jsonspec/parse.py:53) -/
def addChar (c : Char) : List Node → List Node
  | .text s :: ks => .text (s ++ [c]) :: ks
  | ks => .text [c] :: ks

/-- `]]>` must not occur in text (section 2.4) (lxml, for jsonspec/parse.py:53) -/
def endsBrackets : List Node → Bool
  | .text s :: _ => c!"]]".isSuffixOf s
  | _ => false

/-- lxml, for jsonspec/parse.py:53 -/
def Tree.add (t : Tree) (c : Char) : Tree := { t with kids := addChar c t.kids }

/-- an empty element `<tag attrs/>` (lxml, for jsonspec/parse.py:53) -/
def Tree.void (t : Tree) (tag : Str) (attrs : List (Str × Str)) : Tree := { t with kids := .elem tag attrs [] :: t.kids }

/-- a start tag (lxml, for jsonspec/parse.py:53) -/
def Tree.start (t : Tree) (tag : Str) (attrs : List (Str × Str)) : Tree := ⟨⟨tag, attrs, t.kids⟩ :: t.stack, []⟩

/-- an end tag, which must match the innermost start tag (lxml, for jsonspec/parse.py:53) -/
def Tree.close (t : Tree) (tag : Str) : Option Tree :=
  match t.stack with
  | [] => none
  | o :: os => if o.tag = tag then some ⟨os, .elem o.tag o.attrs t.kids.reverse :: o.before⟩ else none

/-- what is being read (lxml, for jsonspec/parse.py:53) -/
inductive Mode where
  /-- text -/
  | text
  /-- a reference in text, after `&` -/
  | ref (name : Str)
  /-- after `<` -/
  | lt
  /-- the document type declaration, after `<!` -/
  | decl (read : Str)
  /-- the name in a start tag -/
  | name (tag : Str)
  /-- in a start tag, after white space -/
  | tag (tag : Str) (attrs : List (Str × Str))
  /-- in a start tag, after the value of an attribute -/
  | value (tag : Str) (attrs : List (Str × Str))
  /-- the name of an attribute -/
  | attr (tag : Str) (attrs : List (Str × Str)) (name : Str)
  /-- after the name of an attribute and white space -/
  | beforeEq (tag : Str) (attrs : List (Str × Str)) (name : Str)
  /-- after the `=` of an attribute -/
  | afterEq (tag : Str) (attrs : List (Str × Str)) (name : Str)
  /-- the value of an attribute, in quotes -/
  | quoted (tag : Str) (attrs : List (Str × Str)) (name : Str) (quote : Char) (read : Str)
  /-- a reference in the value of an attribute -/
  | quotedRef (tag : Str) (attrs : List (Str × Str)) (name : Str) (quote : Char) (read : Str) (ref : Str)
  /-- the `/` of `/>` -/
  | slash (tag : Str) (attrs : List (Str × Str))
  /-- after `</` -/
  | ending
  /-- the name in an end tag -/
  | endName (tag : Str)
  /-- after the name in an end tag and white space -/
  | endSpace (tag : Str)

/-- one character (lxml, for jsonspec/parse.py:53) -/
def xmlStep (st : Tree × Mode) (c : Char) : Option (Tree × Mode) :=
  let t := st.1
  match st.2 with
  | .text =>
    if c = '<' then some (t, .lt)
    else if c = '&' then some (t, .ref [])
    else if c = '>' ∧ endsBrackets t.kids then none
    else some (t.add c, .text)
  | .ref name =>
    if c = ';' then (deref name).map (fun d => (t.add d, .text)) else some (t, .ref (name ++ [c]))
  | .lt =>
    if c = '/' then some (t, .ending)
    else if c = '!' ∧ t.stack.isEmpty ∧ t.kids.all (fun k => !k.isElem) then some (t, .decl [])
    else if isNameStart c then some (t, .name [c])
    else none
  | .decl s =>
    if c = '>' then (if s.take 8 = c!"DOCTYPE " then some (t, .text) else none)
    else if c = '[' ∨ c = '<' then none
    else some (t, .decl (s ++ [c]))
  | .name tag =>
    if isNameChar c then some (t, .name (tag ++ [c]))
    else if isXmlSpace c then some (t, .tag tag [])
    else if c = '/' then some (t, .slash tag [])
    else if c = '>' then some (t.start tag [], .text)
    else none
  | .tag tag as =>
    if isNameStart c then some (t, .attr tag as [c])
    else if isXmlSpace c then some (t, .tag tag as)
    else if c = '/' then some (t, .slash tag as)
    else if c = '>' then some (t.start tag as, .text)
    else none
  | .value tag as =>
    if isXmlSpace c then some (t, .tag tag as)
    else if c = '/' then some (t, .slash tag as)
    else if c = '>' then some (t.start tag as, .text)
    else none
  | .attr tag as n =>
    if isNameChar c then some (t, .attr tag as (n ++ [c]))
    else if isXmlSpace c then some (t, .beforeEq tag as n)
    else if c = '=' then some (t, .afterEq tag as n)
    else none
  | .beforeEq tag as n =>
    if isXmlSpace c then some (t, .beforeEq tag as n)
    else if c = '=' then some (t, .afterEq tag as n)
    else none
  | .afterEq tag as n =>
    if isXmlSpace c then some (t, .afterEq tag as n)
    else if c = '"' ∨ c = '\'' then some (t, .quoted tag as n c [])
    else none
  | .quoted tag as n q s =>
    if c = q then (if (as.lookup n).isSome then none else some (t, .value tag (as ++ [(n, s)])))
    else if c = '<' then none
    else if c = '&' then some (t, .quotedRef tag as n q s [])
    else some (t, .quoted tag as n q (s ++ [if isXmlSpace c then ' ' else c]))
  | .quotedRef tag as n q s r =>
    if c = ';' then (deref r).map (fun d => (t, .quoted tag as n q (s ++ [d])))
    else some (t, .quotedRef tag as n q s (r ++ [c]))
  | .slash tag as => if c = '>' then some (t.void tag as, .text) else none
  | .ending => if isNameStart c then some (t, .endName [c]) else none
  | .endName tag =>
    if isNameChar c then some (t, .endName (tag ++ [c]))
    else if isXmlSpace c then some (t, .endSpace tag)
    else if c = '>' then (t.close tag).map (·, .text)
    else none
  | .endSpace tag =>
    if isXmlSpace c then some (t, .endSpace tag)
    else if c = '>' then (t.close tag).map (·, .text)
    else none

/-- characters one after another (lxml, for jsonspec/parse.py:53) -/
def xmlRun (st : Tree × Mode) : Str → Option (Tree × Mode)
  | [] => some st
  | c :: s => (xmlStep st c).bind (fun st' => xmlRun st' s)

/-- is it white space (lxml, for jsonspec/parse.py:53) -/
def Node.isBlank : Node → Bool
  | .text s => s.all isXmlSpace
  | .elem .. => false

/-- the root of a tree which has been read to the end: one element, apart from white space (lxml, for jsonspec/parse.py:53) -/
def Tree.root (t : Tree) : Option Node :=
  if t.stack.isEmpty then
    match t.kids.filter (fun k => !k.isBlank) with
    | [.elem tag as ks] => some (.elem tag as ks)
    | _ => none
  else none

/-- the element tree of an XML document (lxml, for jsonspec/parse.py:53) -/
def readXml (s : Str) : Option Node :=
  if s.all isXmlChar then
    match xmlRun (⟨[], []⟩, .text) (eolNorm s) with
    | some (t, .text) => t.root
    | _ => none
  else none

end Spex
