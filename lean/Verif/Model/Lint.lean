import Verif.Model.PyBasic
/-
Model of src/spex/jsonspec/lint.py, src/spex/jsonspec/defs.py and the effect monad in which extraction runs.
-/
set_option autoImplicit false
namespace Spex

/-- JSON values (defs.py:24). Floats are never produced by the code. -/
inductive Json where
  | null
  | bool (b : Bool)
  | num (n : Int)
  | str (s : Str)
  | arr (xs : List Json)
  | obj (kvs : List (Str × Json))

/-- lint.py:43-68 `LintErr`, lint.py:12-40 `Code` (the two enumerations are in bijection). -/
inductive LintErr where
  | general
  | tblParseErr | tblFieldOverlap | tblFieldGap | tblRowOrderReversed | tblHdrErr | tblSkipped | tblFigIdExtractErr
  | lblExtractErr | lblEmpty | lblDuplicate | lblImputed | lblInvalidChrs | lblOverridden
  | valExtractErr | valEmpty | valDuplicate | valInvalid
  | rangeExtractErr | rangeInvalid | rangeReversed
  deriving DecidableEq, Repr

/-- `err.value.name`: the name of the code (lint.py:12-40, 43-68) -/
def LintErr.code : LintErr → Str
  | .general => c!"O1000"
  | .tblParseErr => c!"T1000"
  | .tblFieldOverlap => c!"T1001"
  | .tblFieldGap => c!"T1002"
  | .tblRowOrderReversed => c!"T1004"
  | .tblHdrErr => c!"T1006"
  | .tblSkipped => c!"T1007"
  | .tblFigIdExtractErr => c!"T1008"
  | .lblExtractErr => c!"L1000"
  | .lblEmpty => c!"L1001"
  | .lblDuplicate => c!"L1002"
  | .lblImputed => c!"L1003"
  | .lblInvalidChrs => c!"L1004"
  | .lblOverridden => c!"L1007"
  | .valExtractErr => c!"V1000"
  | .valEmpty => c!"V1001"
  | .valDuplicate => c!"V1002"
  | .valInvalid => c!"V1003"
  | .rangeExtractErr => c!"R1000"
  | .rangeInvalid => c!"R1001"
  | .rangeReversed => c!"R1002"

/-- All members of `LintErr`, in order of declaration (lint.py:12-40). -/
def LintErr.all : List LintErr :=
  [.general, .tblParseErr, .tblFieldOverlap, .tblFieldGap, .tblRowOrderReversed, .tblHdrErr, .tblSkipped,
   .tblFigIdExtractErr, .lblExtractErr, .lblEmpty, .lblDuplicate, .lblImputed, .lblInvalidChrs, .lblOverridden,
   .valExtractErr, .valEmpty, .valDuplicate, .valInvalid, .rangeExtractErr, .rangeInvalid, .rangeReversed]

/-- `err.value.value`: the message of the code (lint.py:12-40) -/
def LintErr.text : LintErr → Str
  | .general => c!"general error"
  | .tblParseErr => c!"error parsing table - the table's columns implied it should be parsed but some quirk of the table caused the parser to fail"
  | .tblFieldOverlap => c!"field overlaps with range of prior field"
  | .tblFieldGap => c!"gap between this and the prior field"
  | .tblRowOrderReversed => c!"row order wrong, bits should be in desc order, bytes in asc order"
  | .tblHdrErr => c!"non-standard table header"
  | .tblSkipped => c!"table skipped"
  | .tblFigIdExtractErr => c!"failed to extract figure ID from table header"
  | .lblExtractErr => c!"error extracting label"
  | .lblEmpty => c!"empty label"
  | .lblDuplicate => c!"duplicate label"
  | .lblImputed => c!"label missing, using imputed value"
  | .lblInvalidChrs => c!"label contained invalid characters"
  | .lblOverridden => c!"label manually overridden"
  | .valExtractErr => c!"error extracting value"
  | .valEmpty => c!"empty value"
  | .valDuplicate => c!"duplicate value"
  | .valInvalid => c!"invalid value"
  | .rangeExtractErr => c!"error extracting range"
  | .rangeInvalid => c!"invalid range, neither single offset value, nor a [high:low] range"
  | .rangeReversed => c!"range reversed"

/-- lint.py:91 `self.err.value.name[0] in ("R", "L", "V")` -/
def LintErr.needsRow (e : LintErr) : Bool :=
  match e.code with
  | 'R' :: _ => true
  | 'L' :: _ => true
  | 'V' :: _ => true
  | _ => false

/-- lint.py:71-77 `LintEntry` -/
structure LintEntry where
  err : LintErr
  fig : Str
  msg : Str
  row : Option Str
  ctx : List (Str × Json)

/-- lint.py:79-95 `LintEntry.__post_init__`: default message, then the assertions. The `isinstance` assertions hold by
typing. -/
def mkLintEntry (err : LintErr) (fig msg : Str) (row : Option Str) (ctx : List (Str × Json)) : Except Exn LintEntry :=
  let msg := if msg = [] then err.text else msg
  if fig = [] then .error .assertionError
  else if err.needsRow && row.isNone then .error .assertionError
  else .ok ⟨err, fig, msg, row, ctx⟩

/-- lint.py:97-106 `LintEntry.to_json` -/
def LintEntry.toJson (e : LintEntry) : Json :=
  .obj ([(c!"code", .str e.err.code), (c!"msg", .str e.msg), (c!"fig", .str e.fig), (c!"context", .obj e.ctx)]
    ++ (match e.row with | none => [] | some r => [(c!"row", .str r)]))

/-! ### defs.py: fields and entities -/

/-- defs.py:74-79 `MaybeRange`. The code only builds ranges with two integers or two strings. -/
inductive RangeV where
  | int (low high : Int)
  | dyn (low high : Str)
  | raw (s : Str)
  deriving DecidableEq, Repr

/-- defs.py:82-85 `StructField` -/
structure StructField where
  label : Str
  range : RangeV
  brief : Option Str
  deriving DecidableEq, Repr

/-- defs.py:61-64 `ValueField` (the code only stores strings in `val`) -/
structure ValueField where
  val : Str
  label : Str
  brief : Option Str
  deriving DecidableEq, Repr

/-- defs.py:95-98 `EntityMeta` -/
structure EntityMeta where
  title : Option Str
  figId : Str
  parent : Option Str
  deriving DecidableEq, Repr

/-- `type` of a struct entity (structtable.py:468-485) -/
inductive StructTy where
  | bits | bytes
  deriving DecidableEq, Repr

/-- the `type` and `fields` entries of an entity (defs.py:101-106) -/
inductive Body where
  | values (fields : List ValueField)
  | struct (ty : StructTy) (fields : List StructField)
  deriving DecidableEq, Repr

/-- defs.py:101-106 `Entity` -/
structure Entity where
  info : EntityMeta
  body : Body
  deriving DecidableEq, Repr

/-- defs.py:53-58 -/
def RESERVED : Str := c!"RESERVED"
/-- defs.py:54 -/
def ELLIPSIS : Str := c!"…"
/-- defs.py:55 -/
def OBSOLETE : Str := c!"OBSOLETE"
/-- defs.py:56 -/
def NOTE : Str := c!"NOTE"
/-- defs.py:58 `SPECIAL_CASE_SET` -/
def SPECIAL_CASE_SET : List Str := [RESERVED, ELLIPSIS, OBSOLETE]

/-! ### Effects

A run of (a part of) the parser yields entities and records diagnostics, in some order, reads and writes the flag
`_unwind_parse_error` of the document parser (document.py:89), and finally returns or raises. -/

/-- Observable events, in the order in which they happen (`yield` and add_issue, document.py:39-67, 267-350). -/
inductive Ev where
  | ent (e : Entity)
  | lint (l : LintEntry)

/-- Outcome of a run: events, the flag afterwards, result or exception (the generators of document.py:267-350 and of the extractors). -/
structure Res (α : Type) where
  evs : List Ev
  flag : Bool
  out : Except Exn α

/-- Computations of the document parser (argument: the flag before) (the generators of document.py:267-350 and of the extractors). -/
def M (α : Type) : Type := Bool → Res α

namespace M
/-- return (python, in the generators of document.py:267-350 and of the extractors) -/
def pure {α : Type} (a : α) : M α := fun f => ⟨[], f, .ok a⟩

/-- sequencing: an exception skips the rest (python, in the generators of document.py:267-350 and of the extractors) -/
def bind {α β : Type} (m : M α) (k : α → M β) : M β := fun f =>
  let r := m f
  match r.out with
  | .error e => ⟨r.evs, r.flag, .error e⟩
  | .ok a =>
    let r' := k a r.flag
    ⟨r.evs ++ r'.evs, r'.flag, r'.out⟩

/-- python, in the generators of document.py:267-350 and of the extractors -/
instance : Monad M where
  pure := M.pure
  bind := M.bind

/-- raise (python, in the generators of document.py:267-350 and of the extractors) -/
def raise {α : Type} (e : Exn) : M α := fun f => ⟨[], f, .error e⟩

/-- an `Except` computation (python, in the generators of document.py:267-350 and of the extractors) -/
def ofExcept {α : Type} (x : Except Exn α) : M α := fun f => ⟨[], f, x⟩

/-- emit an event (document.py:67, 318) -/
def emit (e : Ev) : M Unit := fun f => ⟨[e], f, .ok ()⟩

/-- `yield entity` (structtable.py:125-217, valuetable.py:68-128) -/
def yield (e : Entity) : M Unit := emit (.ent e)

/-- assign the unwind flag (document.py:275, 327) -/
def setFlag (b : Bool) : M Unit := fun _ => ⟨[], b, .ok ()⟩

/-- read the unwind flag (document.py:322) -/
def getFlag : M Bool := fun f => ⟨[], f, .ok f⟩

/-- `try: m except Exception as e: h e` (document.py:317-320, structtable.py:141-167) -/
def tryCatch {α : Type} (m : M α) (h : Exn → M α) : M α := fun f =>
  let r := m f
  match r.out with
  | .ok _ => r
  | .error e =>
    let r' := h e r.flag
    ⟨r.evs ++ r'.evs, r'.flag, r'.out⟩
end M

/-- DocLinter.add_issue (document.py:39-67); FigureExtractor.add_issue (figure.py:87-102) with its default figure id
already filled in by the caller. No caller passes a message. -/
def addIssue (err : LintErr) (fig : Str) (row : Option Str) (ctx : List (Str × Json) := []) : M Unit :=
  match mkLintEntry err fig [] row ctx with
  | .error e => M.raise e
  | .ok l => M.emit (.lint l)

end Spex
