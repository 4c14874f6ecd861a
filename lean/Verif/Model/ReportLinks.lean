import Verif.Model.ReportView
/-
Model of the addresses in the report page (src/spexsrv/templates/base.html, report.html; src/spexsrv/application/app.py:31-44, 127-145) and of
the routes which they lead to.
-/
set_option autoImplicit false
namespace Spex

/-! ### the routes -/

/-- the part of an address before the first `?`, and the part behind it (quart, for app.py:110, 127, 148, 154) -/
def splitQuery (addr : Str) : Str × Str := (addr.takeWhile (· ≠ '?'), (addr.dropWhile (· ≠ '?')).drop 1)

/-- whether `request.args.get("bundle", default=None, type=str)` is not None (app.py:127): the query has such a key, with any value. References
like `%62` are not decoded here. -/
def hasBundle (query : Str) : Bool := (splitOn '&' query).any fun kv => kv ≠ [] && kv.takeWhile (· ≠ '=') = c!"bundle"

/-- the rule `<hash>` of the routes: a part of a path which is not empty (app.py:110, 148, 154) -/
def routeHash (pre path : Str) : Option Str :=
  if path.take pre.length = pre ∧ path.drop pre.length ≠ [] ∧ '/' ∉ path.drop pre.length then some (path.drop pre.length) else none

/-- GET of an address on this server, for the routes of reports (app.py:110, 148, 154): what is asked for, and `bundle` of the route /report -/
def pageRequest (addr : Str) : Option (SrvEv × Bool) :=
  let (path, query) := splitQuery addr
  match routeHash c!"/report/" path, routeHash c!"/json/" path, routeHash c!"/html/" path with
  | some h, _, _ => some (.getReport h, hasBundle query)
  | _, some h, _ => some (.getJson h, false)
  | _, _, some h => some (.getHtml h, false)
  | _, _, _ => none

/-! ### the page -/

/-- an address in the page (base.html:12-34, report.html:69-82, 141) -/
inductive PageRef where
  /-- `<link rel="stylesheet" href=...>` -/
  | sheet (addr : Str)
  /-- `<script src=...>` -/
  | script (addr : Str)
  /-- `<a href=...>`, with the name of the file if it is a download -/
  | link (addr : Str) (file : Option Str)
  deriving DecidableEq

/-- `url_for` with `hash=hash, bundle=1` (app.py:132-139): `bundle` is not part of the rule and becomes the query. The hash is taken as it is,
which is what `url_for` does with letters and digits. -/
def linkFor (pre hash : Str) : Str := pre ++ hash ++ c!"?bundle=1"

/-- The addresses in the page of a report in their order (base.html:12-35, report.html:66-84, 139-143; app.py:31-44, 127-145): the style sheet of
the server, or its text; the one of font-awesome, as `fontawesome_src` is never set; the links, which are None in a bundle; the script of the
server, or its text. -/
def reportRefs (hash : Str) (bundle : Bool) : List PageRef :=
  let link_self := if bundle then none else some (linkFor c!"/report/" hash)
  let link_json := if bundle then none else some (linkFor c!"/json/" hash)
  let link_html := if bundle then none else some (linkFor c!"/html/" hash)
  (if bundle then [] else [.sheet c!"/static/bulma-0.9.4.min.css"]) ++
  [.sheet c!"https://cdnjs.cloudflare.com/ajax/libs/font-awesome/6.5.1/css/all.min.css"] ++
  (link_self.map fun a => PageRef.link a (some c!"report.html")).toList ++
  (link_json.map fun a => PageRef.link a (some c!"report.json")).toList ++
  (link_html.map fun a => PageRef.link a (some c!"spec.html")).toList ++
  (link_self.map fun _ => PageRef.link c!"/" none).toList ++
  (if bundle then [] else [.script c!"/static/alpinejs.3.13.5.js"])

end Spex
