import Verif.Model.Server
/-
Model of src/spexsrv/application/report_view.py, of the route /report in app.py, and of the script of the report page
(src/spexsrv/templates/report.html).
-/
set_option autoImplicit false
namespace Spex

/-! ### XPath (report_view.py:20, xml.py:51-76) -/

/-- what `e.xpath(query)` does (xml.py:55, called in report_view.py:20) -/
inductive XOut where
  | nodes (ns : List Node)
  /-- `XPathEvalError` -/
  | evalError
  /-- another exception; also the result is no list (xml.py:56) -/
  | crash

/-- What is not modelled of XPath: the meaning of `./body/table[@id=…]` for other expressions than those below, and whether an
attribute which is not a short numeral equals a number (xml.py:55, called in report_view.py:20). -/
structure XPathEngine where
  found : Str → Node → XOut
  same : Str → Int → Bool

/-- a numeral which stands for the same number in XPath, where numbers are double precision floats (xml.py:55, called in report_view.py:20) -/
def shortNumeral (s : Str) : Bool := s ≠ [] && s.all jsonDigit && s.length ≤ 15

/-- the number of a numeral (xml.py:55, called in report_view.py:20) -/
def numeralValue (s : Str) : Nat := s.foldl (fun n c => 10 * n + (c.toNat - 48)) 0

/-- an ASCII letter (xml.py:55, called in report_view.py:20) -/
def asciiLetter (c : Char) : Bool := (65 ≤ c.toNat && c.toNat ≤ 90) || (97 ≤ c.toNat && c.toNat ≤ 122)

/-- the expressions modelled (xml.py:55, called in report_view.py:20) -/
inductive XExpr where
  /-- a number -/
  | num (n : Nat)
  /-- a difference -/
  | diff (a b : Nat)
  /-- the child elements with this name -/
  | child (name : Str)
  /-- no expression: a number which is followed by a capital letter other than `E` (libxml2 reads `5E3` as a number) -/
  | bad
  | other

/-- the expression of a text (xml.py:55, called in report_view.py:20) -/
def xpathExpr (e : Str) : XExpr :=
  if shortNumeral e then .num (numeralValue e)
  else if e ≠ [] && e.all asciiLetter then .child e
  else
    let a := e.takeWhile jsonDigit
    match e.dropWhile jsonDigit with
    | [] => .other
    | c :: b =>
      if shortNumeral a && c == '-' && shortNumeral b then .diff (numeralValue a) (numeralValue b)
      else if shortNumeral a && asciiLetter c && c.toNat ≤ 90 && c != 'E' then .bad
      else .other

/-- `@id = n` for a number (xml.py:55, called in report_view.py:20) -/
def idIs (xp : XPathEngine) (n : Int) (t : Node) : Bool :=
  match t.attr? c!"id" with
  | none => false
  | some v => if shortNumeral v then (numeralValue v : Int) == n else xp.same v n

/-- `./body/table[@id=e]` from the root element (xml.py:55, called in report_view.py:20) -/
def xpathTables (xp : XPathEngine) (e : Str) (root : Node) : XOut :=
  match xpathExpr e with
  | .num n => .nodes ((figures root).filter (idIs xp n))
  | .diff a b => .nodes ((figures root).filter (idIs xp ((a : Int) - b)))
  | .child name => .nodes ((figures root).filter fun t =>
      match t.attr? c!"id" with
      | none => false
      | some v => (t.childs name).any fun c => c.flat == v)
  | .bad => .evalError
  | .other => xp.found e root

/-! ### report_view.py, app.py -/

/-- `figure.split("_")[0]` (report_view.py:18, app.py:123, report.html:262) -/
def splitRoot (figure : Str) : Str := (splitOn '_' figure).headD []

/-- get_erroneous_figures (report_view.py:14-26). The figures are given by a list without duplicates, made from a set: its order does
not matter for a dictionary. What `XmlUtils.fmt` makes of a table is its XML text; here the table itself. -/
def erroneousFigures (xp : XPathEngine) (root : Node) : List Str → Except Exn (List (Str × Node))
  | [] => .ok []
  | figure :: figs =>
    match xpathTables xp (splitRoot figure) root with
    | .crash => .error .assertionError
    | .evalError => erroneousFigures xp root figs
    | .nodes [] => erroneousFigures xp root figs
    | .nodes (p :: _) => (erroneousFigures xp root figs).map ((figure, p) :: ·)

/-- an item of a JSON object (app.py:120-124) -/
def jsonItem (k : Str) : Json → Option Json
  | .obj kvs => kvs.lookup k
  | _ => none

/-- a string (app.py:120-124) -/
def jsonStr : Json → Option Str
  | .str s => some s
  | _ => none

/-- an entry of `meta.lint` as the page uses it (report.html:160-182, 240-254) -/
structure ShownLint where
  code : Str
  msg : Str
  fig : Str
  row : Option Str
  context : List (Str × Json)

/-- an entry of `meta.lint`. Only entries with these items are modelled (report.html:160-182, 240-254). -/
def readLint (j : Json) : Option ShownLint :=
  match jsonItem c!"code" j, jsonItem c!"msg" j, jsonItem c!"fig" j, jsonItem c!"context" j with
  | some (.str code), some (.str msg), some (.str fig), some (.obj ctx) =>
    some ⟨code, msg, fig, (jsonItem c!"row" j).bind jsonStr, ctx⟩
  | _, _, _, _ => none

/-- `report_json["meta"]["lint"]` (app.py:123) -/
def reportLints (j : Json) : Option (List ShownLint) :=
  match (jsonItem c!"meta" j).bind (jsonItem c!"lint") with
  | some (.arr ls) => ls.mapM readLint
  | _ => none

/-- the ids of a set without duplicates (app.py:122-124) -/
def dedupStr : List Str → List Str
  | [] => []
  | x :: xs => if x ∈ xs then dedupStr xs else x :: dedupStr xs

/-- what the route /report hands to the page: `report_json` (of which only the diagnostics are used here) and `report_html` (app.py:128-143) -/
structure ReportData where
  lints : List ShownLint
  html : List (Str × Node)

/-- report (app.py:119-125), for the content of the two files; `none` is an exception -/
def reportData (xml : Str → Except Exn Node) (xp : XPathEngine) (json html : Str) : Option ReportData :=
  match (readJson json).bind reportLints, xml html with
  | some ls, .ok root =>
    match erroneousFigures xp root (dedupStr (ls.map fun l => splitRoot l.fig)) with
    | .ok figs => some ⟨ls, figs⟩
    | .error _ => none
  | _, _ => none

/-- report (app.py:110-145) as a whole: the status of an error or what is handed to the page -/
def serveReport (env : SrvEnv) (xp : XPathEngine) (s : Srv) (hash : Str) : Except Nat ReportData :=
  match lookupGet s.lookup hash with
  | none => .error 500
  | some p => match s.files p with
    | none => .error 404
    | some json => match s.files ⟨p.dir, withSuffix p.name c!".html"⟩ with
      | none => .error 500
      | some html => match reportData env.tools.xml xp json html with
        | none => .error 500
        | some d => .ok d

/-! ### report.html -/

/-- the properties which every JavaScript object inherits from `Object.prototype` (JavaScript, for report.html:243, 263, 319) -/
def inheritedNames : List Str :=
  [c!"constructor", c!"hasOwnProperty", c!"isPrototypeOf", c!"propertyIsEnumerable", c!"toLocaleString", c!"toString", c!"valueOf",
   c!"__defineGetter__", c!"__defineSetter__", c!"__lookupGetter__", c!"__lookupSetter__", c!"__proto__"]

/-- the array index which a property name is (JavaScript, for report.html:152, 250) -/
def arrayIndex (k : Str) : Option Nat := if natStr (numeralValue k) = k ∧ numeralValue k < 4294967295 then some (numeralValue k) else none

/-- a new element is put before those which are not smaller (`sort` of JavaScript, report.html:252) -/
def insertBy {α : Type} (le : α → α → Bool) (a : α) : List α → List α
  | [] => [a]
  | b :: l => if le a b then a :: b :: l else b :: insertBy le a l

/-- a stable sort (`sort` of JavaScript, report.html:252) -/
def stableSort {α : Type} (le : α → α → Bool) (l : List α) : List α := l.foldr (insertBy le) []

/-- `Object.entries` of an object, given by its properties in the order of their creation: first those which are array indices, in
ascending order (JavaScript, for report.html:152, 250) -/
def jsEntries {α : Type} (o : List (Str × α)) : List (Str × α) :=
  stableSort (fun a b => (arrayIndex a.1).getD 0 ≤ (arrayIndex b.1).getD 0) (o.filter fun e => (arrayIndex e.1).isSome) ++
    o.filter fun e => (arrayIndex e.1).isNone

/-- a property which exists is changed (report.html:243-246, 318-325) -/
def jsUpdate {α : Type} (k : Str) (f : α → α) : List (Str × α) → List (Str × α)
  | [] => []
  | (k', v) :: o => if k' = k then (k', f v) :: o else (k', v) :: jsUpdate k f o

/-- lints_by_fig (report.html:318-325). `acc[l.fig]` is also found if it is inherited, and has no method `push`; `none` is this
TypeError. -/
def groupByFig (acc : List (Str × List ShownLint)) : List ShownLint → Option (List (Str × List ShownLint))
  | [] => some acc
  | l :: ls =>
    if (acc.lookup l.fig).isSome then groupByFig (jsUpdate l.fig (· ++ [l]) acc) ls
    else if l.fig ∈ inheritedNames then none
    else groupByFig (acc ++ [(l.fig, [l])]) ls

/-- a row of the summary (report.html:246, 289-291) -/
structure SummaryRow where
  code : Str
  msg : Str
  amount : Nat
  selected : Bool

/-- the reduction in lintGroupByCode (report.html:242-249). For an inherited name the amount of the inherited function is changed. -/
def groupByCode (acc : List (Str × SummaryRow)) : List ShownLint → List (Str × SummaryRow)
  | [] => acc
  | l :: ls =>
    if (acc.lookup l.code).isSome then groupByCode (jsUpdate l.code (fun r => { r with amount := r.amount + 1 }) acc) ls
    else if l.code ∈ inheritedNames then groupByCode acc ls
    else groupByCode (acc ++ [(l.code, ⟨l.code, l.msg, 1, false⟩)]) ls

/-- lintGroupByCode (report.html:240-254): `sort` is stable -/
def lintGroupByCode (ls : List ShownLint) : List SummaryRow :=
  stableSort (fun a b => b.amount ≤ a.amount) ((jsEntries (groupByCode [] ls)).map (·.2))

/-- errorSum (report.html:256-259) -/
def errorSum (ls : List ShownLint) : Nat := ((lintGroupByCode ls).map (·.amount)).sum

/-- what the user does on the page (report.html:116, 133) -/
inductive Click where
  /-- a row of the summary is clicked -/
  | toggle (code : Str)
  /-- "Clear all filters" -/
  | clear
  deriving DecidableEq

/-- toggle and clear (report.html:275-286) -/
def clickRows (rows : List SummaryRow) : Click → List SummaryRow
  | .toggle code => go code rows
  | .clear => rows.map fun r => { r with selected := false }
where go (code : Str) : List SummaryRow → List SummaryRow
  | [] => []
  | r :: rs => if r.code = code then { r with selected := !r.selected } :: rs else r :: go code rs

/-- the rows of the summary after some clicks (report.html:287-293) -/
def summaryRows (ls : List ShownLint) (clicks : List Click) : List SummaryRow :=
  clicks.foldl clickRows ((lintGroupByCode ls).map fun r => { r with selected := false })

/-- what stands above the diagnostics of a figure. Also the text is inserted as HTML (report.html:158), see Model/ReportPage. -/
inductive ShownFigure where
  | table (t : Node)
  | text (s : Str)
  /-- an inherited function -/
  | junk

/-- getFigureId (report.html:261-270) -/
def shownFigure (html : List (Str × Node)) (figure : Str) : ShownFigure :=
  match html.lookup (splitRoot figure) with
  | some t => .table t
  | none => if splitRoot figure ∈ inheritedNames then .junk else .text figure

/-- an article of the tab "Figures" (report.html:152-192): its heading is "Figure " and this id -/
structure Article where
  heading : Str
  shown : ShownFigure
  cards : List ShownLint

/-- the diagnostics left by the filter (report.html:306-315) -/
def filteredLints (ls : List ShownLint) (rows : List SummaryRow) : List ShownLint :=
  let codes := (rows.filter (·.selected)).map (·.code)
  if codes.length ≠ 0 then
    ls.filter fun l => match codes.find? (· = l.code) with
      | some c => c ≠ []
      | none => false
  else ls

/-- the tab "Figures" after some clicks (report.html:149-194, 300-345). `none`: an exception is thrown before `loading` becomes
false, and nothing is shown. The further computation on the entities has no effect on what is shown. -/
def articles (d : ReportData) (clicks : List Click) : Option (List Article) :=
  (groupByFig [] (filteredLints d.lints (summaryRows d.lints clicks))).map fun o =>
    ((jsEntries o).filter fun e => e.2.length > 0).map fun e => ⟨e.1, shownFigure d.html e.1, e.2⟩

end Spex
