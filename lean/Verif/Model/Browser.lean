import Verif.Model.Xml
/-
What a browser does with a page and its style sheet: reading the rules, and the cascade. This is not code of /repo, it is the part
of the environment which gives the written style sheet (htmlrenderer.py:56-117, css.py:10-48, numbering.py:45-60) its meaning.

The reader covers style sheets as they are written here: rules with a list of selectors and a list of declarations. Not covered
are at-rules, nested blocks, strings, escapes, other combinators than the descendant one, attribute selectors, `!important`,
inheritance and the style sheet of the browser itself; and a declaration with an unknown property or value is kept.
-/
set_option autoImplicit false
namespace Spex

/-- white space of CSS (a browser, for the style sheet of htmlrenderer.py:56-117) -/
def cssSpace (c : Char) : Bool := c == ' ' || c == '\t' || c == '\n' || c == '\r' || c.toNat == 12

/-- without comments; the flag tells whether a comment is open (a browser, for the style sheet of htmlrenderer.py:56-117) -/
def dropComments : Bool → Str → Str
  | _, [] => []
  | false, '/' :: '*' :: s => dropComments true s
  | false, c :: s => c :: dropComments false s
  | true, '*' :: '/' :: s => dropComments false s
  | true, _ :: s => dropComments true s

/-- the words of a text; `cur` is the word being read (a browser, for the style sheet of htmlrenderer.py:56-117) -/
def cssWordsAux : Str → Str → List Str
  | cur, [] => if cur.isEmpty then [] else [cur]
  | cur, c :: s =>
    if cssSpace c then (if cur.isEmpty then cssWordsAux [] s else cur :: cssWordsAux [] s) else cssWordsAux (cur ++ [c]) s

/-- a browser, for the style sheet of htmlrenderer.py:56-117 -/
def cssWords (s : Str) : List Str := cssWordsAux [] s

/-- `tag.class.class:pseudo`; no tag stands for any (a browser, for the style sheet of htmlrenderer.py:56-117) -/
structure Compound where
  tag : Option Str
  classes : List Str
  pseudo : List Str
  deriving DecidableEq, Repr

/-- a browser, for the style sheet of htmlrenderer.py:56-117 -/
def readCompound (s : Str) : Compound :=
  match splitOn ':' s with
  | [] => ⟨none, [], []⟩
  | head :: pseudo => match splitOn '.' head with
    | [] => ⟨none, [], pseudo⟩
    | tag :: classes => ⟨if tag.isEmpty then none else some tag, classes, pseudo⟩

/-- a selector: the compounds from left to right, each for a descendant of the one before (a browser, for the style sheet of
htmlrenderer.py:56-117) -/
abbrev Selector := List Compound

/-- a browser, for the style sheet of htmlrenderer.py:56-117 -/
def readSelector (s : Str) : Selector := (cssWords s).map readCompound

/-- `property: value`, without the blanks around both (a browser, for the style sheet of htmlrenderer.py:56-117) -/
def readDecl (s : Str) : Option (Str × Str) :=
  if ':' ∈ s then some (stripBy cssSpace (s.takeWhile (· != ':')), stripBy cssSpace ((s.dropWhile (· != ':')).drop 1)) else none

/-- a browser, for the style sheet of htmlrenderer.py:56-117 -/
structure CssRule where
  selectors : List Selector
  decls : List (Str × Str)
  deriving DecidableEq, Repr

/-- the declarations of a block (a browser, for the style sheet of htmlrenderer.py:56-117) -/
def readDecls (s : Str) : List (Str × Str) := (splitOn ';' s).filterMap readDecl

/-- what stands before a closing brace (a browser, for the style sheet of htmlrenderer.py:56-117) -/
def readRule (s : Str) : Option CssRule :=
  if '{' ∈ s then
    some ⟨(splitOn ',' (s.takeWhile (· != '{'))).map readSelector, readDecls ((s.dropWhile (· != '{')).drop 1)⟩
  else none

/-- the rules of a style sheet (a browser, for the style sheet of htmlrenderer.py:56-117) -/
def readCss (s : Str) : List CssRule := (splitOn '}' (dropComments false s)).filterMap readRule

/-! ### the cascade -/

/-- what selectors can tell about an element: tag, classes, and whether it is the first or the last element in its parent (a browser, for
pages of htmlrenderer.py:119-243 with the style sheet of lines 56-117) -/
structure El where
  tag : Str
  classes : List Str
  first : Bool
  last : Bool
  deriving DecidableEq, Repr

/-- a browser, for pages of htmlrenderer.py:119-243 with the style sheet of lines 56-117 -/
def pseudoMatches (e : El) (p : Str) : Bool :=
  if p = c!"first-child" then e.first else if p = c!"last-child" then e.last else false

/-- a browser, for pages of htmlrenderer.py:119-243 with the style sheet of lines 56-117 -/
def Compound.matches (c : Compound) (e : El) : Bool :=
  (match c.tag with | none => true | some t => t == e.tag) && c.classes.all (e.classes.contains ·) && c.pseudo.all (pseudoMatches e)

/-- the remaining compounds, from right to left, match ancestors; these from the inside out (a browser, for pages of htmlrenderer.py:119-243
with the style sheet of lines 56-117) -/
def matchAncestors : List Compound → List El → Bool
  | [], _ => true
  | _ :: _, [] => false
  | c :: cs, e :: es => (c.matches e && matchAncestors cs es) || matchAncestors (c :: cs) es

/-- the selector matches an element, given together with its ancestors (a browser, for pages of htmlrenderer.py:119-243 with the style sheet
of lines 56-117) -/
def selMatches (sel : Selector) (els : List El) : Bool :=
  match sel.reverse, els with
  | c :: cs, e :: es => c.matches e && matchAncestors cs es
  | _, _ => false

/-- specificity: the number of classes and pseudo-classes, and the number of tags (a browser, for pages of htmlrenderer.py:119-243 with the
style sheet of lines 56-117) -/
def specificity (sel : Selector) : Nat × Nat :=
  ((sel.map (fun c => c.classes.length + c.pseudo.length)).sum, (sel.map (fun c => if c.tag.isSome then 1 else 0)).sum)

/-- order of specificities (a browser, for pages of htmlrenderer.py:119-243 with the style sheet of lines 56-117) -/
def specLe (a b : Nat × Nat) : Bool := a.1 < b.1 || (a.1 == b.1 && a.2 ≤ b.2)

/-- a declaration for the element with the specificity of its selector; `best` is the one which counts so far. Of equal ones the later
counts (a browser, for pages of htmlrenderer.py:119-243 with the style sheet of lines 56-117). -/
def better (best : Option ((Nat × Nat) × Str)) (new : (Nat × Nat) × Str) : Option ((Nat × Nat) × Str) :=
  match best with
  | none => some new
  | some b => if specLe b.1 new.1 then some new else best

/-- all declarations of the property which apply to the element, in the order of the style sheet (a browser, for pages of
htmlrenderer.py:119-243 with the style sheet of lines 56-117) -/
def applying (rules : List CssRule) (els : List El) (prop : Str) : List ((Nat × Nat) × Str) :=
  rules.flatMap fun r => (r.selectors.filter (selMatches · els)).flatMap fun sel =>
    (r.decls.filter (fun d => d.1 == prop)).map fun d => (specificity sel, d.2)

/-- the value which the style sheet gives to the property of an element (a browser, for pages of htmlrenderer.py:119-243 with the style
sheet of lines 56-117) -/
def cascade (rules : List CssRule) (els : List El) (prop : Str) : Option Str :=
  ((applying rules els prop).foldl better none).map (·.2)

/-! ### the elements of a page -/

/-- what selectors see of an element (a browser, for pages of htmlrenderer.py:119-243 with the style sheet of lines 56-117) -/
def elOf (tag : Str) (attrs : List (Str × Str)) (first last : Bool) : El :=
  ⟨tag, cssWords ((attrs.lookup c!"class").getD []), first, last⟩

mutual
/-- the element and those in it, in document order, each with itself and its ancestors as selectors see them (a browser, for pages of
htmlrenderer.py:119-243 with the style sheet of lines 56-117) -/
def chains (anc : List El) (first last : Bool) : Node → List (Node × List El)
  | .text _ => []
  | .elem tag attrs ks =>
    (.elem tag attrs ks, elOf tag attrs first last :: anc) :: chainsKids (elOf tag attrs first last :: anc) true ks
/-- a browser, for pages of htmlrenderer.py:119-243 with the style sheet of lines 56-117 -/
def chainsKids (anc : List El) (first : Bool) : List Node → List (Node × List El)
  | [] => []
  | k :: ks => chains anc first (!ks.any Node.isElem) k ++ chainsKids anc (first && !k.isElem) ks
end

/-- all elements of a page (a browser, for pages of htmlrenderer.py:119-243 with the style sheet of lines 56-117) -/
def pageElements (root : Node) : List (Node × List El) := chains [] true true root

end Spex
