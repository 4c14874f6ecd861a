import Verif.Model.Document
import Verif.Model.JsonText
/-
Models of src/spex/parse.py, src/spex/writer.py and src/spex/jsonspec/parse.py.
The messages for the user are in Model/Console.
-/
set_option autoImplicit false
namespace Spex

/-! ### values written (defs.py:61-106) -/

/-- an optional `brief` entry (defs.py:61-64, 82-85) -/
def briefJson : Option Str → List (Str × Json)
  | none => []
  | some b => [(c!"brief", .str b)]

/-- MaybeRange (defs.py:74-79; structtable.py:158, 424, 438) -/
def RangeV.toJson : RangeV → Json
  | .int lo hi => .obj [(c!"low", .num lo), (c!"high", .num hi)]
  | .dyn lo hi => .obj [(c!"low", .str lo), (c!"high", .str hi)]
  | .raw s => .str s

/-- _struct_field (structtable.py:325-338) -/
def StructField.toJson (f : StructField) : Json :=
  .obj ([(c!"label", .str f.label), (c!"range", f.range.toJson)] ++ briefJson f.brief)

/-- valuetable.py:109-116 -/
def ValueField.toJson (f : ValueField) : Json :=
  .obj ([(c!"val", .str f.val), (c!"label", .str f.label)] ++ briefJson f.brief)

/-- `EntityMeta` (defs.py:95-98): `title` and `parent_fig_id` are optional. The order of the two ids is that of
structtable.py:194-197; a figure with a title has no parent. Simplification: for the further figures of the split handlers (mi.py:38-41,
nvm.py:47-50) the code puts `fig_id` in front of `title`; readers of JSON do not see the order of keys. -/
def EntityMeta.toJson (m : EntityMeta) : List (Str × Json) :=
  (match m.title with | none => [] | some t => [(c!"title", .str t)]) ++ [(c!"fig_id", .str m.figId)] ++
  (match m.parent with | none => [] | some p => [(c!"parent_fig_id", .str p)])

/-- structtable.py:474-475, 484-485 -/
def StructTy.name : StructTy → Str
  | .bits => c!"bits"
  | .bytes => c!"bytes"

/-- the dictionaries yielded by the extractors (structtable.py:213-217, valuetable.py:128) -/
def Entity.toJson (e : Entity) : Json :=
  match e.body with
  | .struct ty fs => .obj (e.info.toJson ++ [(c!"type", .str ty.name), (c!"fields", .arr (fs.map StructField.toJson))])
  | .values fs => .obj (e.info.toJson ++ [(c!"fields", .arr (fs.map ValueField.toJson)), (c!"type", .str c!"values")])

/-! ### writer.py -/

/-- `d[key] = val` for a dictionary: insertion order is kept, an existing key keeps its place (writer.py:83) -/
def dictSet (k : Str) (v : Json) : List (Str × Json) → List (Str × Json)
  | [] => [(k, v)]
  | (k', v') :: d => if k' = k then (k, v) :: d else (k', v') :: dictSet k v d

/-- S2Model (writer.py:14-16) -/
structure S2Model where
  info : List (Str × Json)
  entities : List Json

/-- FileWriter.__init__ (writer.py:77-80) -/
def S2Model.empty : S2Model := ⟨[], []⟩
/-- write_meta (writer.py:82-83) -/
def S2Model.writeMeta (d : S2Model) (k : Str) (v : Json) : S2Model := { d with info := dictSet k v d.info }
/-- write_entity (writer.py:85-86) -/
def S2Model.writeEntity (d : S2Model) (e : Json) : S2Model := { d with entities := d.entities ++ [e] }
/-- the value handed to `json.dump` (writer.py:103) -/
def S2Model.toJson (d : S2Model) : Json := .obj [(c!"meta", .obj d.info), (c!"entities", .arr d.entities)]

/-- The file behind a FileWriter: opened as soon as it is created, which truncates it (writer.py:76). -/
structure OutFile where
  /-- what has been written to it -/
  content : Str
  /-- whether its handle is still open -/
  isOpen : Bool

/-- a FileWriter (writer.py:71-108): the model collected so far and the file -/
structure WriterSt where
  doc : S2Model
  file : OutFile

/-- FileWriter.__init__ (writer.py:72-80) -/
def WriterSt.init : WriterSt := ⟨.empty, ⟨[], true⟩⟩

/-- FileWriter.__exit__ (writer.py:95-108): dumps the model and closes the file, whether or not there is an exception. That
`json.dump` itself fails is not modelled: all values are strings, integers, lists and dictionaries. -/
def WriterSt.exit (w : WriterSt) : WriterSt :=
  if w.file.isOpen then { w with file := ⟨jsonDump 0 w.doc.toJson, false⟩ } else w

/-! ### jsonspec/parse.py -/

/-- SpecDocument (jsonspec/parse.py:16-20) -/
structure SpecDoc where
  root : Node
  key : Str
  rev : Str

/-- `Xpath.attr_first_req(doc, "./head/meta/@a")` (xml.py:117-126, used in jsonspec/parse.py:55-56) -/
def metaAttr (root : Node) (a : Str) : Except Exn Str :=
  match ((root.childs c!"head").flatMap (·.childs c!"meta")).findSome? (·.attr? a) with
  | none => .error .runtimeError
  | some v => .ok v

variable [Uni]

/-- open_doc, html_to_spec_doc (jsonspec/parse.py:36-57). `doc` is the outcome of reading the file and parsing its text as
XML; neither is modelled. -/
def htmlToSpecDoc (doc : Except Exn Node) : Except Exn SpecDoc :=
  match doc with
  | .error e => .error e
  | .ok root =>
    match metaAttr root c!"data-spec" with
    | .error e => .error e
    | .ok key =>
      match metaAttr root c!"data-revision" with
      | .error e => .error e
      | .ok rev => .ok ⟨root, lower key, lower rev⟩

/-! ### parse.py -/

/-- a progress report (progressbar.py:7-9): phase, number, total -/
structure Progress where
  phase : Str
  index : Nat
  total : Nat
  deriving DecidableEq, Repr

/-- What parse_spec does, step by step: calls of the writer, and progress reports yielded to the consumer (parse.py:44-80). -/
inductive Step where
  | info (k : Str) (v : Json)
  | progress (p : Progress)
  | entity (e : Json)

/-- __version__ (__init__.py:5) -/
def spexVersion : Str := c!"v0.7"

/-- the loop over the entities (parse.py:51-58). `i` is `fig_ndx`, `total` is `num_figures`; with `yield_progress` a report
precedes each entity. -/
def entitySteps (progress : Bool) (total : Nat) : Nat → List Entity → List Step
  | _, [] => []
  | i, e :: es =>
    (if progress then [.progress ⟨c!"json", i, total⟩] else []) ++ .entity e.toJson :: entitySteps progress total (i + 1) es

/-- the entities of a run of the document parser (document.py:345-350) -/
def entitiesOf (evs : List Ev) : List Entity := evs.filterMap fun
  | .ent e => some e
  | .lint _ => none

/-- linter.lint_entries() (document.py:69-75) -/
def lintOf (evs : List Ev) : List LintEntry := evs.filterMap fun
  | .ent _ => none
  | .lint l => some l

/-- `reported_lint_errs` (parse.py:27, 60-64) -/
def reportedLint (ignore : List LintErr) (evs : List Ev) : List LintEntry :=
  (lintOf evs).filter (fun l => !(ignore.map LintErr.code).contains l.err.code)

/-- the body of the `with` statement (parse.py:45-80), up to its end or its exception. Entities are written as they are
produced, so those produced before an exception are written as well. -/
def specSteps (ignore : List LintErr) (skip progress : Bool) (doc : Except Exn Node) : List Step × Except Exn Unit :=
  match htmlToSpecDoc doc with
  | .error e => ([], .error e)
  | .ok sdoc =>
    let info := [.info c!"specification" (.str sdoc.key), .info c!"revision" (.str sdoc.rev),
      .info c!"format version" (.num 1), .info c!"spex version" (.str spexVersion)]
    let r := parseDoc (getParser sdoc.key sdoc.rev skip) sdoc.root
    let ents := entitySteps progress (numFigures sdoc.root) 0 (entitiesOf r.evs)
    match r.out with
    | .error e => (info ++ ents, .error e)
    | .ok () => (info ++ ents ++ [.info c!"lint" (.arr ((reportedLint ignore r.evs).map LintEntry.toJson))], .ok ())

/-- one step's effect on the writer (writer.py:82-86) -/
def WriterSt.step (w : WriterSt) : Step → WriterSt
  | .info k v => { w with doc := w.doc.writeMeta k v }
  | .entity e => { w with doc := w.doc.writeEntity e }
  | .progress _ => w

/-- the effect of a sequence of steps (writer.py:82-86) -/
def WriterSt.steps (w : WriterSt) (ss : List Step) : WriterSt := ss.foldl WriterSt.step w

/-- the progress reports among the steps (parse.py:54) -/
def progressOf (ss : List Step) : List Progress := ss.filterMap fun
  | .progress p => some p
  | _ => none

/-- the steps up to and including the `n`-th progress report (counted from 1); all if there are fewer, or if `n` is 0 (parse.py:44-80) -/
def untilReport : Nat → List Step → List Step
  | _, [] => []
  | 1, .progress p :: _ => [.progress p]
  | n, .progress p :: ss => .progress p :: untilReport (n - 1) ss
  | n, s :: ss => s :: untilReport n ss

/-- How a run of parse_spec (a generator) ends, seen by its consumer (parse.py:44-80). -/
inductive RunEnd where
  /-- runs to its end; returns the path of the output -/
  | returned
  | raised (e : Exn)
  /-- the consumer closes the generator (or drops it) while it is suspended at a progress report; parse_spec sees GeneratorExit -/
  | closed
  deriving DecidableEq

/-- A run of parse_spec on an HTML model with an output directory (parse.py:44-80). With `close = some n` the consumer closes
the generator at its `n`-th report, if there is one. Gives the reports seen, the writer after the `with` statement, and the
outcome. -/
def parseSpec (ignore : List LintErr) (skip progress : Bool) (close : Option Nat) (doc : Except Exn Node) :
    List Progress × WriterSt × RunEnd :=
  let (ss, r) := specSteps ignore skip progress doc
  let full := (progressOf ss, (WriterSt.init.steps ss).exit, match r with | .error e => RunEnd.raised e | .ok () => .returned)
  match close with
  | none => full
  | some n =>
    if 1 ≤ n ∧ n ≤ (progressOf ss).length then
      (progressOf (untilReport n ss), (WriterSt.init.steps (untilReport n ss)).exit, .closed)
    else full

end Spex
