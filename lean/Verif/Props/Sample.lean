import Verif.Model.Document
import Verif.Model.Ascii
/-
Small documents for the examples beside the theorems.
-/
set_option autoImplicit false
namespace Spex.Sample

/-- a cell with one paragraph -/
def td (s : Str) : Node := .elem tTd [] [.elem tP [] [.text s]]
/-- a header cell -/
def th (s : Str) : Node := .elem tTh [] [.text s]
def tr (cells : List Node) : Node := .elem tTr [] cells
/-- a cell with a paragraph and a nested table -/
def tdNest (s : Str) (hdrs : List Str) (rows : List (List Node)) : Node :=
  .elem tTd [] [.elem tP [] [.text s], .elem tTable [] (tr (hdrs.map th) :: rows.map tr)]
/-- a table with its title row -/
def figure (title : Str) (hdrs : List Str) (rows : List (List Node)) : Node :=
  .elem tTable [] (tr [td title] :: tr (hdrs.map th) :: rows.map tr)
/-- a cell without a paragraph, which makes a row of a struct table fail -/
def tdBare (s : Str) : Node := .elem tTd [] [.text s]
def doc (tbls : List Node) : Node := .elem c!"html" [] [.elem c!"body" [] tbls]

end Spex.Sample
