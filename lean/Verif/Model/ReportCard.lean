import Verif.Model.ReportPage
/-
Model of the texts on the report page: the heading (src/spexsrv/templates/report.html:48-62) and the cards of the diagnostics
(report.html:160-187).
-/
set_option autoImplicit false
namespace Spex

mutual
/-- the text which `x-text` shows of a value (Alpine: `el.textContent = value`, for report.html:53, 57, 167-180): nothing for `null`, and
otherwise what `String(value)` is in JavaScript. The numbers are whole ones; those which JavaScript would round or write with an exponent do
not occur here. -/
def jsText : Json → Str
  | .null => []
  | .bool b => if b then c!"true" else c!"false"
  | .num n => intStr n
  | .str s => s
  | .arr xs => jsJoin xs
  | .obj _ => c!"[object Object]"
/-- `Array.prototype.toString` (JavaScript, for report.html:180): the texts of the elements, with commas between them -/
def jsJoin : List Json → Str
  | [] => []
  | [x] => jsText x
  | x :: y :: xs => jsText x ++ (',' :: jsJoin (y :: xs))
end

/-- the texts on a card (report.html:160-187) -/
structure CardText where
  row : Str
  msg : Str
  code : Str
  /-- the tags below, each with its name and its text -/
  tags : List (Str × Str)
  deriving DecidableEq

/-- The card of a diagnostic (report.html:160-187). The entries of the context have been ordered by `tojson` (report.html:201). A row which is
missing is `undefined`, or `null`, and shown as nothing. -/
def cardText (l : ShownLint) : CardText :=
  ⟨l.row.getD [], l.msg, l.code,
   (jsEntries (stableSort (fun a b => keyLe a.1 b.1) (sortKeysPairs l.context))).map fun e => (e.1, jsText e.2)⟩

/-- The texts for "Specification" and "Revision" (report.html:48-58). `none`: there is no `meta`, and the expression throws. What is missing in
`meta` is `undefined`, and shown as nothing. -/
def pageHeading (report : Json) : Option (Str × Str) :=
  (jsonItem c!"meta" (sortKeys report)).map fun m =>
    (((jsonItem c!"specification" m).map jsText).getD [], ((jsonItem c!"revision" m).map jsText).getD [])

end Spex
