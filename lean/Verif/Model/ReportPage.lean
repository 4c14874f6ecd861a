import Verif.Model.ReportView
/-
Model of the data in the script of the report page (src/spexsrv/templates/report.html:200-204) and of the markup which the page inserts
(report.html:158).
-/
set_option autoImplicit false
namespace Spex

/-! ### `| tojson` (report.html:201-204): jinja2.utils.htmlsafe_json_dumps with quart.json.provider.DefaultJSONProvider -/

/-- the replacements in jinja2.utils.htmlsafe_json_dumps. There they are made one after the other; no replacement contains a character
which is replaced later (report.html:201-204). -/
def htmlSafeChar (c : Char) : Str :=
  if c = '<' then c!"\\u003c" else if c = '>' then c!"\\u003e" else if c = '&' then c!"\\u0026" else if c = '\'' then c!"\\u0027" else [c]

/-- jinja2.utils.htmlsafe_json_dumps, on the text of `json.dumps` (report.html:201-204) -/
def htmlSafe (s : Str) : Str := s.flatMap htmlSafeChar

/-- the order of strings in Python (report.html:201-204) -/
def keyLe : Str → Str → Bool
  | [], _ => true
  | _ :: _, [] => false
  | a :: s, b :: t => if a = b then keyLe s t else a.toNat < b.toNat

mutual
/-- `sort_keys=True`: the entries of each dictionary are ordered by their keys (report.html:201-204) -/
def sortKeys : Json → Json
  | .arr xs => .arr (sortKeysItems xs)
  | .obj kvs => .obj (stableSort (fun a b => keyLe a.1 b.1) (sortKeysPairs kvs))
  | j => j
/-- report.html:201-204 -/
def sortKeysItems : List Json → List Json
  | [] => []
  | x :: xs => sortKeys x :: sortKeysItems xs
/-- report.html:201-204 -/
def sortKeysPairs : List (Str × Json) → List (Str × Json)
  | [] => []
  | (k, v) :: kvs => (k, sortKeys v) :: sortKeysPairs kvs
end

/-- `{{ x | tojson }}` (report.html:201-204) -/
def tojson (j : Json) : Str := htmlSafe (jsonDumps (sortKeys j))

/-- `const name = {{ x | tojson }};` (report.html:201-204) -/
def constLine (name : Str) (j : Json) : Str := c!"    const " ++ (name ++ (c!" = " ++ (tojson j ++ c!";\n")))

/-- The lines of the script which depend on the document (report.html:201-204). `report` is the JSON model, `ids` are the ids of the
figures with diagnostics in the order of a set, `html` are the tables with what `XmlUtils.fmt` makes of them (app.py:128-143,
report_view.py:22), `codes` are the codes of the linter (app.py:133). -/
def scriptData (fmt : Node → Str) (report : Json) (ids : List Str) (html : List (Str × Node)) (codes : Json) : Str :=
  constLine c!"report" report ++ (constLine c!"erroneous_figure_ids" (.arr (ids.map .str)) ++
    (constLine c!"report_html" (.obj (html.map fun e => (e.1, .str (fmt e.2)))) ++ constLine c!"lintCodes" codes))

/-- What `x-html` inserts above the diagnostics of a figure (report.html:158, 261-270). An inherited function is shown by its text,
which is given here without the name. -/
def insertedMarkup (fmt : Node → Str) (a : Article) : Str :=
  match a.shown with
  | .table t => fmt t
  | .text s => s
  | .junk => c!"function () { [native code] }"

end Spex
