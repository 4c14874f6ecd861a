import Verif.Model.ValueTable
/-
Models of src/spex/jsonspec/document.py and src/spex/jsonspec/quirks/*.py.
-/
set_option autoImplicit false
namespace Spex
variable [Uni]

/-- An extractor class (document.py:119-123, quirks/kv.py:14, mi.py:16, nvm.py:16). -/
inductive Cls where
  | struct (c : StructCls)
  | value
  deriving DecidableEq, Repr

/-- FigureExtractor.can_apply (figure.py:124-153) -/
def Cls.canApply (c : Cls) (hdrs : List Str) : Option Mapping :=
  let m := match c with
    | .struct c => c.canApply0 hdrs
    | .value => valueCanApply0 hdrs
  if mappingIncomplete m then none else some m

/-- Class level configuration of a document parser (document.py:80,107-128, quirks/*.py) and the parser arguments used. -/
structure Env where
  /-- `args.skip_fig_on_error` -/
  skip : Bool
  /-- `fig_extractor_overrides` -/
  overrides : List (Str × Cls)
  /-- `label_overrides` -/
  labelOverrides : List ((Str × Str) × Str)

/-- DocumentParser.extractors (document.py:107-123) -/
def extractors : List Cls := [.struct bytesCls, .value, .struct bitsCls]

/-- DocumentParser.rgx_fig_id `Figure\s+(?P<figid>[^\s^:]+).*` (document.py:79) -/
def reFigId : Re := .seqs
  [.lit c!"Figure", .plus isSpace, .grp 1 (.plus (fun c => !isSpace c && c != '^' && c != ':')), .star clsDot]

/-- DocumentParser.tbl_normalize_mappings (document.py:99-105) -/
def tblNormalizeMappings : List (Str × Str) :=
  [(c!"code", c!"value"), (c!"bit", c!"bits"), (c!"byte", c!"bytes")]

/-- `sub(" +", " ", s)` (document.py:247) -/
def collapseBlanks : Str → Str
  | [] => []
  | [c] => [c]
  | c :: d :: s => if c = ' ' ∧ d = ' ' then collapseBlanks (d :: s) else c :: collapseBlanks (d :: s)

/-- the text of a header cell, normalised but not yet replaced (document.py:247, 263) -/
def hdrText (cell : Node) : Str :=
  strip (collapseBlanks (replace1 '\r' [] (replace1 '\n' [' '] (strip (lower cell.toText)))))

/-- normalize_hdr (document.py:245-260) on a normalised text -/
def normalizeHdr (fig : Str) (hdr : Str) : M Str :=
  match tblNormalizeMappings.lookup hdr with
  | some r => do
    addIssue .tblHdrErr fig none [(c!"got", .str hdr), (c!"expected", .str r)]
    return r
  | none => Pure.pure hdr

/-- header cells: XPath `./tr[1]/*` (document.py:264) -/
def headerCells (tbl : Node) : List Node :=
  match tbl.nthChild tTr 1 with
  | none => []
  | some tr => tr.elems

/-- extract_tbl_headers (document.py:216-265) -/
def extractHdrs (fig : Str) : List Node → M (List Str)
  | [] => Pure.pure []
  | c :: cs => do
    let h ← normalizeHdr fig (hdrText c)
    let hs ← extractHdrs fig cs
    return h :: hs

/-- document.py:216-265 -/
def extractTblHeaders (fig : Str) (tbl : Node) : M (List Str) := extractHdrs fig (headerCells tbl)

/-- the first extractor which applies (document.py:281-286) -/
def firstApplicable : List Cls → List Str → Option (Cls × Mapping)
  | [], _ => none
  | c :: cs, hdrs => match c.canApply hdrs with
    | some m => some (c, m)
    | none => firstApplicable cs hdrs

/-- calling an extractor instance (document.py:315-318) -/
def callExtractor (env : Env) (parse : ParseFn) (c : Cls) (m : EntityMeta) (cols : Cols) (tbl : Node) : M Unit :=
  match c with
  | .struct c => structCall parse c m cols tbl
  | .value => valueCall parse env.labelOverrides m cols tbl

/-- the `except` block of _on_parse_fig (document.py:320-343) -/
def onFigError (env : Env) (m : EntityMeta) (e : Exn) : M Unit := do
  let unwinding ← M.getFlag
  if !unwinding then do
    M.setFlag true
    addIssue .tblParseErr m.figId none (match m.title with | some t => [(c!"title", .str t)] | none => [])
  if m.parent.isSome || !env.skip then M.raise e
  -- otherwise the loop resumes the finished generator, which ends at once

/-- creating and running the extractor (document.py:300-343) -/
def runExtractor (env : Env) (parse : ParseFn) (m : EntityMeta) (tbl : Node) (hdrs : List Str) (c : Cls)
    (mapping : Mapping) : M Unit := do
  let cols ← M.ofExcept (mkCols hdrs mapping)
  M.tryCatch (callExtractor env parse c m cols tbl) (onFigError env m)

/-- _on_parse_fig (document.py:267-343) with the recursive occurrence as parameter -/
def onParseFig (env : Env) (parse : ParseFn) (m : EntityMeta) (tbl : Node) : M Unit := do
  M.setFlag false
  let hdrs ← extractTblHeaders m.figId tbl
  match env.overrides.lookup m.figId with
  | none =>
    match firstApplicable extractors hdrs with
    | none => addIssue .tblSkipped m.figId none [(c!"columns", .arr (hdrs.map Json.str))]
    | some (c, mapping) => runExtractor env parse m tbl hdrs c mapping
  | some c =>
    match c.canApply hdrs with
    | none => M.raise .runtimeError
    | some mapping => runExtractor env parse m tbl hdrs c mapping

/-- _on_parse_fig (document.py:267-343), recursion by fuel -/
def parseFig (env : Env) : Nat → ParseFn
  | 0 => fun _ _ => M.raise .recursionError
  | n + 1 => onParseFig env (parseFig env n)

/-- parsing a figure with enough fuel (document.py:267-343) -/
def parseFigure (env : Env) (m : EntityMeta) (tbl : Node) : M Unit := parseFig env tbl.size m tbl

/-- the table itself or the table which it wraps: XPath `./tr[1]/td[1]/*[1]` (document.py:192-194) -/
def unwrapTable (tbl : Node) : Node :=
  match ((tbl.nthChild tTr 1).bind (·.nthChild tTd 1)).bind (·.elems.head?) with
  | some inner => if inner.hasTag tTable then inner else tbl
  | none => tbl

/-- `parent.remove(fig_tr)` (document.py:196-201): the first row is taken out of the table -/
def removeFirstTr : Node → Node
  | .text s => .text s
  | .elem t as ks => .elem t as (ks.eraseP (Node.hasTag tTr))

/-- _on_extract_figure_id without the error branch (document.py:156-174) -/
def figureId (title : Str) : Option Str := (reFigId.pmatch title).bind (group · 1)

/-- `FIG_ID_MISSING[k]` (document.py:170) -/
def figIdMissing (k : Nat) : Str := c!"FIG_ID_MISSING[" ++ natStr k ++ c!"]"

/-- iter_figures and parse (document.py:188-214, 345-350). `k` is `__fig_id_missing_counter`. -/
def parseTables (env : Env) : Nat → List Node → M Unit
  | _, [] => Pure.pure ()
  | k, t :: ts =>
    let tbl := unwrapTable t
    match tbl.nthChild tTr 1 with
    | none => M.raise .xpathNotFound
    | some tr =>
      match figureTitle tr with
      | none => parseTables env k ts
      | some title => match figureId title with
        | none => do
          addIssue .tblFigIdExtractErr (figIdMissing k) none [(c!"title", .str title)]
          parseTables env (k + 1) ts
        | some fid => do
          parseFigure env ⟨some title, fid, none⟩ (removeFirstTr tbl)
          parseTables env k ts

/-- _figures (document.py:176-177): XPath `./body/table` from the root element -/
def figures (root : Node) : List Node := (root.childs c!"body").flatMap (·.childs tTable)

/-- DocumentParser.parse (document.py:345-350) on a fresh parser -/
def parseDoc (env : Env) (root : Node) : Res Unit := parseTables env 0 (figures root) false

/-- num_figures (document.py:179-186) -/
def numFigures (root : Node) : Nat := (figures root).length

/-! ### quirks -/

/-- label_overrides of NvmCmdSet1c (nvm.py:86-99) -/
def nvmLabelOverrides : List ((Str × Str) × Str) :=
  [((c!"42_4", c!"00b"), c!"none"), ((c!"42_4", c!"01b"), c!"idle"), ((c!"42_4", c!"10b"), c!"normal"),
   ((c!"42_4", c!"11b"), c!"low"),
   ((c!"49_0_4", c!"00b"), c!"none"), ((c!"42_0_4", c!"01b"), c!"idle"), ((c!"49_0_4", c!"10b"), c!"normal"),
   ((c!"49_0_4", c!"11b"), c!"low"),
   ((c!"64_0_4", c!"00b"), c!"none"), ((c!"64_0_4", c!"01b"), c!"idle"), ((c!"64_0_4", c!"10b"), c!"normal"),
   ((c!"64_0_4", c!"11b"), c!"low")]

/-- DocumentParser itself: no overrides (document.py:80, 125-128) -/
def envPlain (skip : Bool) : Env := ⟨skip, [], []⟩
/-- NvmCmdSet1c (nvm.py:85-105) -/
def envNvm (skip : Bool) : Env := ⟨skip, [(c!"23", .struct nvmFig23)], nvmLabelOverrides⟩
/-- NvmCsZoned11c (zoned.py:8-15) -/
def envZoned (skip : Bool) : Env :=
  ⟨skip, [], [((c!"37", c!"0"), c!"zt"), ((c!"37", c!"1"), c!"zs"), ((c!"37", c!"2"), c!"za")]⟩
/-- NvmMi1_2c (mi.py:56-63) -/
def envMi (skip : Bool) : Env := ⟨skip, [(c!"64", .struct miFig64)], [((c!"19", c!"2"), c!"misc")]⟩
/-- NvmKv1_0c (kv.py:30-35) -/
def envKv (skip : Bool) : Env := ⟨skip, [(c!"41", .struct kvFig41)], []⟩

/-- QUIRKS_MAP (quirks/__init__.py:18-24) and SpecDocument.get_parser (jsonspec/parse.py:22-32) -/
def quirksMap : List ((Str × Str) × (Bool → Env)) :=
  [((c!"nvm express® nvm command set specification", c!"1.0c"), envNvm),
   ((c!"nvm express® zoned namespace command set specification", c!"1.1c"), envZoned),
   ((c!"nvm express® management interface specification", c!"1.2c"), envMi),
   ((c!"nvm express® key value command set specification", c!"1.0c"), envKv),
   ((c!"nvm express® key value command set specification", c!"1.0"), envKv)]

/-- jsonspec/parse.py:22-32 -/
def getParser (key rev : Str) (skip : Bool) : Env :=
  match quirksMap.lookup (key, rev) with
  | some f => f skip
  | none => envPlain skip

end Spex
