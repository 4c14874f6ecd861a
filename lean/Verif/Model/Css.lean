import Verif.Model.RunProps
/-
Model of src/spex/htmlspec/css.py.
-/
set_option autoImplicit false
namespace Spex

/-- CssCache (css.py:26-30): the dictionary in insertion order, keyed by the CSS attributes. The keys used are
RunProperties, which are equal iff their CSS attributes are (runproperties.py:117-121), and TcPr (parser.py:18-26), whose
CSS attributes determine the one field. -/
structure CssCache where
  pre : Str
  entries : List (Attrs × Str)
  counter : Nat

/-- CssCache.__init__ (css.py:27-30) -/
def CssCache.init (pre : Str) : CssCache := ⟨pre, [], 0⟩

/-- CssCache.get_clsname (css.py:32-44) -/
def CssCache.getClsname (c : CssCache) (attrs : Attrs) : Option Str × CssCache :=
  if attrs.isEmpty then (none, c)
  else match c.entries.lookup attrs with
    | some name => (some name, c)
    | none => (some (c.pre ++ natStr c.counter),
        { c with entries := c.entries ++ [(attrs, c.pre ++ natStr c.counter)], counter := c.counter + 1 })

/-- CssCache.emit_rules (css.py:46-48): selector and attributes of the blocks written -/
def CssCache.rules (c : CssCache) : List (Str × Attrs) := c.entries.map (fun e => ('.' :: e.2, e.1))

/-- css_block (css.py:10-18) for one selector; the lines written -/
def cssBlock (selector : Str) (attrs : Attrs) : List Str :=
  (selector ++ c!" {") :: attrs.map (fun a => a.1 ++ c!": " ++ a.2 ++ c!";") ++ [c!"}"]

/-- a sequence of requests: the answers and the cache afterwards (calls of css.py:32-44 in htmlrenderer.py:171, 216) -/
def CssCache.requests : CssCache → List Attrs → List (Option Str) × CssCache
  | c, [] => ([], c)
  | c, a :: as =>
    let (r, c') := c.getClsname a
    let (rs, c'') := c'.requests as
    (r :: rs, c'')

end Spex
