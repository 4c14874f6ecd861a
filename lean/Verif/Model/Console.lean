import Verif.Model.Cli
/-
The messages of the program for the user (log/_log_config.py): those of the levels of `ULog`, which the console logger writes to stderr. Not
modelled: colours, the stack traces which `traceback.print_exc` writes (document.py:321, 324), and the file `spex.log` (see Model/Log).

The document parser is given a second time, with the messages among its events: the definitions below repeat those of Model/Document with
the calls of `logger.log` added. The theorem `C84_same_run` says that without the messages they do the same.
-/
set_option autoImplicit false
namespace Spex

/-- The messages of the document parser. `{entity!r}` shows the title, the id and the id of the enclosing figure (document.py:161-164, 325, 337). -/
inductive Said where
  /-- `failed parsing figure {entity!r}` (document.py:325) -/
  | failed (m : EntityMeta)
  /-- `  in {entity!r}` (document.py:337) -/
  | within (m : EntityMeta)
  /-- `failed extracting title from figure header {figure_title!r}` (document.py:161-164) -/
  | noId (title : Str)
  deriving DecidableEq

/-- Messages travel among the events as diagnostics with the code `general`, which the code never uses (document.py:161-164, 325, 337). -/
def Said.ev : Said → Ev
  | .failed m => .lint ⟨.general, m.figId, c!"failed", m.parent, (m.title.map (fun t => (c!"title", .str t))).toList⟩
  | .within m => .lint ⟨.general, m.figId, c!"within", m.parent, (m.title.map (fun t => (c!"title", .str t))).toList⟩
  | .noId t => .lint ⟨.general, [], c!"noId", none, [(c!"title", .str t)]⟩

/-- the title which travels with a message (document.py:161-164, 325, 337) -/
def saidTitle : List (Str × Json) → Option Str
  | [(_, .str t)] => some t
  | _ => none

/-- the message an event stands for (document.py:161-164, 325, 337) -/
def Ev.said : Ev → Option Said
  | .ent _ => none
  | .lint l =>
    if l.err ≠ .general then none
    else if l.msg = c!"failed" then some (.failed ⟨saidTitle l.ctx, l.fig, l.row⟩)
    else if l.msg = c!"within" then some (.within ⟨saidTitle l.ctx, l.fig, l.row⟩)
    else (saidTitle l.ctx).map .noId

/-- the messages of a run (the calls of logger.log in document.py:161, 325, 337) -/
def saidOf (evs : List Ev) : List Said := evs.filterMap Ev.said

/-- the other events of a run (the calls of logger.log in document.py:161, 325, 337) -/
def quiet (evs : List Ev) : List Ev := evs.filter (fun e => e.said.isNone)

variable [Uni]

/-- `logger.log(ULog.ERROR, ...)` (the calls of logger.log in document.py:161, 325, 337) -/
def M.say (s : Said) : M Unit := M.emit s.ev

/-- `onFigError` (document.py:320-343) with its messages -/
def onFigErrorC (env : Env) (m : EntityMeta) (e : Exn) : M Unit := do
  let unwinding ← M.getFlag
  if !unwinding then do
    M.say (.failed m)
    M.setFlag true
    addIssue .tblParseErr m.figId none (match m.title with | some t => [(c!"title", .str t)] | none => [])
  else M.say (.within m)
  if m.parent.isSome || !env.skip then M.raise e

/-- `runExtractor` (document.py:300-343) with its messages -/
def runExtractorC (env : Env) (parse : ParseFn) (m : EntityMeta) (tbl : Node) (hdrs : List Str) (c : Cls)
    (mapping : Mapping) : M Unit := do
  let cols ← M.ofExcept (mkCols hdrs mapping)
  M.tryCatch (callExtractor env parse c m cols tbl) (onFigErrorC env m)

/-- `onParseFig` (document.py:267-343) with its messages -/
def onParseFigC (env : Env) (parse : ParseFn) (m : EntityMeta) (tbl : Node) : M Unit := do
  M.setFlag false
  let hdrs ← extractTblHeaders m.figId tbl
  match env.overrides.lookup m.figId with
  | none =>
    match firstApplicable extractors hdrs with
    | none => addIssue .tblSkipped m.figId none [(c!"columns", .arr (hdrs.map Json.str))]
    | some (c, mapping) => runExtractorC env parse m tbl hdrs c mapping
  | some c =>
    match c.canApply hdrs with
    | none => M.raise .runtimeError
    | some mapping => runExtractorC env parse m tbl hdrs c mapping

/-- `parseFig` (document.py:267-343) with its messages -/
def parseFigC (env : Env) : Nat → ParseFn
  | 0 => fun _ _ => M.raise .recursionError
  | n + 1 => onParseFigC env (parseFigC env n)

/-- `parseFigure` with its messages (document.py:267-343) -/
def parseFigureC (env : Env) (m : EntityMeta) (tbl : Node) : M Unit := parseFigC env tbl.size m tbl

/-- `parseTables` (document.py:156-174, 188-214, 345-350) with its messages -/
def parseTablesC (env : Env) : Nat → List Node → M Unit
  | _, [] => Pure.pure ()
  | k, t :: ts =>
    let tbl := unwrapTable t
    match tbl.nthChild tTr 1 with
    | none => M.raise .xpathNotFound
    | some tr =>
      match figureTitle tr with
      | none => parseTablesC env k ts
      | some title => match figureId title with
        | none => do
          M.say (.noId title)
          addIssue .tblFigIdExtractErr (figIdMissing k) none [(c!"title", .str title)]
          parseTablesC env (k + 1) ts
        | some fid => do
          parseFigureC env ⟨some title, fid, none⟩ (removeFirstTr tbl)
          parseTablesC env k ts

/-- `parseDoc` (document.py:345-350) with its messages -/
def parseDocC (env : Env) (root : Node) : Res Unit := parseTablesC env 0 (figures root) false

/-! ### the whole program -/

/-- What the program writes to stderr for the user (__main__.py:132-148, 159-184, parse.py:66-78). -/
inductive Line where
  /-- `parsing '{spec}'...` (__main__.py:132) -/
  | parsing (spec : FPath)
  /-- a message of the document parser -/
  | doc (s : Said)
  /-- `Encountered {n} linting errors during processing, see {path}` (parse.py:66-79) -/
  | summary (n : Nat) (path : FPath)
  /-- `cannot operate on NVMe model (JSON), ...` (__main__.py:136-140) -/
  | refusedJson
  /-- `invalid input file ({spec}), ...` (__main__.py:144-149) -/
  | refusedInput (spec : FPath)
  /-- `Program exited in error! ...` (__main__.py:162-185) -/
  | aborted
  deriving DecidableEq

/-- the messages of the second stage (parse.py:44-80) for an HTML model; `dst` is the path of the JSON file -/
def specLines (ignore : List LintErr) (skip : Bool) (dst : FPath) (doc : Except Exn Node) : List Line :=
  match htmlToSpecDoc doc with
  | .error _ => []
  | .ok sdoc =>
    let r := parseDocC (getParser sdoc.key sdoc.rev skip) sdoc.root
    (saidOf r.evs).map .doc ++ match r.out with
      | .error _ => []
      | .ok () =>
        let n := (reportedLint ignore (quiet r.evs)).length
        if n = 0 then [] else [.summary n dst]

/-- the messages of the second stage of parse_spec (parse.py:44-80), in the same state as `runJson` -/
def jsonLines (t : Tools) (o : Opts) (w : Files) (spec : FPath) : List Line :=
  let dst : FPath := ⟨o.out, baseName spec.name ++ c!".json"⟩
  specLines o.ignore o.skip dst (readHtml t (w.set dst []) spec)

/-- the messages of parse_spec (parse.py:24-80), in the same state as `runSpec`; the first stage has none -/
def runLines (t : Tools) (o : Opts) (w : Files) (spec : FPath) : List Line :=
  if suffix spec.name = c!".docx" then
    match convertWord t w spec with
    | .error _ => []
    | .ok (h, c) => jsonLines t o ((w.set ⟨o.out, baseName spec.name ++ c!".html"⟩ h).set ⟨o.out, baseName spec.name ++ c!".css"⟩ c)
        ⟨o.out, baseName spec.name ++ c!".html"⟩
  else jsonLines t o w spec

/-- the messages of the loop of main (__main__.py:130-188), along `mainLoop` -/
def mainLines (t : Tools) (o : Opts) : Files → List FPath → List Line
  | _, [] => []
  | w, s :: ss =>
    .parsing s ::
      if suffix s.name = c!".json" then [.refusedJson]
      else if ¬ [c!".html", c!".docx"].contains (suffix s.name) then [.refusedInput s]
      else runLines t o w s ++ match runSpec t o w s with
        | (_, .error _) => [.aborted]
        | (w', .ok dst) =>
          if o.validate && !validateJson w' dst then [.aborted]
          else mainLines t o w' ss

end Spex
