import Verif.Model.Helpers
import Verif.Model.RowIter
/-
Models of src/spex/jsonspec/extractors/structtable.py, figure.py and the extractor classes of
src/spex/jsonspec/quirks/*.py.
-/
set_option autoImplicit false
namespace Spex
variable [Uni]

/-- Which `row_err_handler` a struct extractor class has (structtable.py:107-123, quirks/kv.py:15-27, mi.py:24-48, nvm.py:24-57). -/
inductive ErrHandler where
  /-- structtable.py:107-123 -/
  | default
  /-- kv.py:14-27 `KvFig41` -/
  | kvFig41
  /-- nvm.py:16-62 `NvmFig23`, mi.py:16-53 `MiFig64`: the rest of the table is a further figure with id `newId`, if the
  text of the row starts with `pre` -/
  | split (pre newId : Str)
  deriving DecidableEq, Repr

/-- A concrete subclass of StructTableExtractor (structtable.py:468-485, quirks/kv.py:14, mi.py:16, nvm.py:16). -/
structure StructCls where
  ty : StructTy
  rangeHdrs : List Str
  labelHdrs : List Str
  contentHdrs : List Str
  handler : ErrHandler
  deriving DecidableEq, Repr

/-- BitsTableExtractor (structtable.py:468-475, figure.py:175-204) -/
def bitsCls : StructCls := ⟨.bits, [c!"bits"], [c!"attribute", c!"description"], [c!"description"], .default⟩
/-- BytesTableExtractor (structtable.py:478-485, figure.py:175-204) -/
def bytesCls : StructCls := ⟨.bytes, [c!"bytes"], [c!"attribute", c!"description"], [c!"description"], .default⟩
/-- NvmFig23 (nvm.py:16-62) -/
def nvmFig23 : StructCls := { bitsCls with handler := .split c!"figure 24" c!"24" }
/-- MiFig64 (mi.py:16-53) -/
def miFig64 : StructCls := { bitsCls with handler := .split c!"figure 65" c!"65" }
/-- KvFig41 (kv.py:14-27) -/
def kvFig41 : StructCls := { bytesCls with handler := .kvFig41 }

/-- `next((hdr for hdr in hdrs if hdr in cands), None)` (structtable.py:88-98, valuetable.py:37-47) -/
def firstHdr (cands hdrs : List Str) : Option Str := hdrs.find? (fun h => cands.contains h)

/-- StructTableExtractor._can_apply (structtable.py:86-98) -/
def StructCls.canApply0 (c : StructCls) (hdrs : List Str) : Mapping :=
  ⟨firstHdr c.rangeHdrs hdrs, firstHdr c.labelHdrs hdrs, firstHdr c.contentHdrs hdrs⟩

/-- `{hdr: ndx for ndx, hdr in enumerate(hdrs)}[h]` (structtable.py:80-84, valuetable.py:62-66): the *last* column with
this header; KeyError if there is none -/
def colNdxGo : Nat → List Str → Str → Option Nat
  | _, [], _ => none
  | i, x :: xs, h => match colNdxGo (i + 1) xs h with
    | some j => some j
    | none => if x = h then some i else none

/-- structtable.py:80-84 -/
def colNdx (hdrs : List Str) (h : Option Str) : Except Exn Nat :=
  match h with
  | none => .error .keyError
  | some h => match colNdxGo 0 hdrs h with
    | none => .error .keyError
    | some i => .ok i

/-- Column numbers of an extractor instance (structtable.py:80-84). -/
structure Cols where
  key : Nat
  label : Nat
  content : Nat
  deriving DecidableEq, Repr

/-- StructTableExtractor.__init__ (structtable.py:78-84), ValueTableExtractor.__init__ (valuetable.py:60-66) -/
def mkCols (hdrs : List Str) (m : Mapping) : Except Exn Cols := do
  let k ← colNdx hdrs m.key
  let l ← colNdx hdrs m.label
  let c ← colNdx hdrs m.content
  return ⟨k, l, c⟩

/-- _range_to_row_key (structtable.py:104-105) -/
def rangeToRowKey : RangeV → Str
  | .int low _ => intStr low
  | .dyn low _ => low
  | .raw s => s

/-- _struct_field (structtable.py:325-338): an empty brief is dropped -/
def structField (r : RangeV) (label : Str) (brief : Option Str) : StructField :=
  ⟨label, r, match brief with | some [] => none | b => b⟩

/-- is_special_case (structtable.py:440-442) -/
def isSpecialCase (s : Str) : Bool := SPECIAL_CASE_SET.contains (upper s) || startsWith (lower s) c!"note"

/-- handle_special_case (structtable.py:444-465) -/
def handleSpecialCase (content : Str) (r : RangeV) : Option StructField :=
  if content = ELLIPSIS then some (structField r ELLIPSIS none)
  else if upper content = RESERVED then some (structField r RESERVED none)
  else if upper content = OBSOLETE then some (structField r OBSOLETE none)
  else none

/-- `int(_low) if _low is not None else high` (structtable.py:421-422) -/
def rangeLow (low : Option Str) (high : Int) : M Int :=
  match low with
  | some l => M.ofExcept (pyInt l)
  | none => Pure.pure high

/-- _parse_range (structtable.py:404-425). The fallback `getD` is never used: group 1 is always set. -/
def parseRange (fig value rowKey : Str) : M RangeV :=
  match reRange.pmatch value with
  | none => do
    addIssue .rangeInvalid fig (some rowKey)
    return .raw value
  | some m => do
    let high ← M.ofExcept (pyInt ((group m 1).getD []))
    let low ← rangeLow (group m 2) high
    if low > high then addIssue .rangeReversed fig (some rowKey)
    return .int low high

/-- _parse_dynamic_range (structtable.py:430-438) -/
def parseDynamicRange (fig range : Str) : M RangeV :=
  match reDynamicRange.pmatch (replace1 ' ' [] (replace1 '\n' [] range)) with
  | none => do
    addIssue .rangeInvalid fig (some range)
    return .raw range
  | some m =>
    -- `high, low = m.group("low"), m.group("high")`
    Pure.pure (.dyn ((group m 2).getD []) ((group m 1).getD []))

/-- _extract_label_separate_column (structtable.py:358-369) -/
def extractLabelSeparate (fig label rowKey : Str) : M Str :=
  let head := splitHead ':' label
  if !hasChar ':' label then do
    addIssue .lblImputed fig (some rowKey)
    return initials head
  else do
    if hasChar ' ' head then addIssue .lblInvalidChrs fig (some rowKey)
    return head

/-- _extract_label_same_column (structtable.py:371-389) -/
def extractLabelSame (fig label rowKey : Str) : M Str :=
  match reStructLabel.pmatch label with
  | none => do
    addIssue .lblImputed fig (some rowKey)
    return generateAcronym (splitHead ':' label)
  | some m =>
    let acr := (group m 2).getD []
    let lbl := (group m 1).getD []
    if acr ≠ [] then Pure.pure acr
    else if lbl ≠ [] then
      if SPECIAL_CASE_SET.contains (upper lbl) then Pure.pure lbl
      else Pure.pure (generateAcronym lbl)
    else do
      addIssue .lblExtractErr fig (some rowKey)
      return label

/-- the choice of the label extraction in _parse_label (structtable.py:393-396) -/
def extractLabel (fig : Str) (cols : Cols) (label rowKey : Str) : M Str :=
  if cols.content ≠ cols.label then extractLabelSeparate fig label rowKey else extractLabelSame fig label rowKey

/-- _parse_label (structtable.py:391-402) -/
def parseLabel (fig : Str) (cols : Cols) (label rowKey : Str) : M Str := do
  let l ← extractLabel fig cols label rowKey
  let l := normalizeLabel l
  validateLabel l fig rowKey
  return lower l

/-- _extract_fields (structtable.py:340-356): range, content, label texts -/
def extractFields (cols : Cols) (row : Node) : Except Exn (Str × Str × Str) := do
  let r ← req (row.nthChild tTd (cols.key + 1))
  let c ← req (row.nthChild tTd (cols.content + 1))
  let l ← req ((row.nthChild tTd (cols.label + 1)).bind (·.nthChild tP 1))
  return (r.toText, c.toText, l.toText)

/-- RowErrPolicy (figure.py:28-31); `stop` also carries the further figure saved by the split handlers -/
inductive RowErrPolicy where
  | stop (extra : Option (EntityMeta × Node))
  | cont
  | raise

/-- DocumentParser._on_extract_figure_title (document.py:151-154) -/
def figureTitle (tr : Node) : Option Str :=
  if isInfix c!"Figure" tr.toText then some tr.toText else none

/-- row_err_handler of the various classes (structtable.py:107-123, kv.py:15-27, nvm.py:24-57, mi.py:24-48) -/
def rowErrHandler (h : ErrHandler) (row : Row) : RowErrPolicy :=
  match h with
  | .default => if (row.node.childs tTd).length = 1 then .cont else .raise
  | .kvFig41 => if !endsWith row.node.toText c!"(refer to Figure 39)." then .raise else .cont
  | .split pre newId =>
    if !startsWith (lower (lstripBy isSpace row.node.toText)) pre then .raise
    else .stop (some (⟨figureTitle row.node, newId, none⟩, .elem tTable [] row.following))

/-- the type of `parse_fn`: DocumentParser._on_parse_fig (defs.py:109-110, document.py:306) -/
abbrev ParseFn := EntityMeta → Node → M Unit

/-- extract_data_sub_table (figure.py:110-117) -/
def subTables (parse : ParseFn) (m : EntityMeta) : List Node → M Unit
  | [] => Pure.pure ()
  | t :: ts => do
    parse m t
    subTables parse m ts

/-- figure.py:110-117 -/
def extractDataSubTable (parse : ParseFn) (m : EntityMeta) (data : Node) : M Unit :=
  subTables parse m (data.childs tTable)

/-- Result of one iteration of the row loop (structtable.py:129-217). -/
inductive RowOut (α : Type) where
  | field (f : α)
  | skip
  | stop (extra : Option (EntityMeta × Node))

/-- the range of a row (structtable.py:184-188) -/
def rowRange (fig : Str) (dynMode : Bool) (rangeF : Str) : M RangeV :=
  if dynMode then parseDynamicRange fig rangeF else parseRange fig rangeF rangeF

/-- one data row of StructTableExtractor.__call__ (structtable.py:140-204) -/
def structRow (parse : ParseFn) (fig : Str) (h : ErrHandler) (cols : Cols) (dynMode : Bool) (row : Row) :
    M (RowOut StructField) :=
  match extractFields cols row.node with
  | .error e =>
    -- `except XPathElementNotFoundException` is the only possible exception here
    let txt := lower row.node.toText
    if startsWith txt ELLIPSIS then Pure.pure (.field (structField (.int (-1) (-1)) ELLIPSIS none))
    else if startsWith txt c!"note" then Pure.pure (.stop none)
    else match rowErrHandler h row with
      | .stop extra => Pure.pure (.stop extra)
      | .raise => M.raise e
      | .cont => Pure.pure .skip
  | .ok (rangeF, contentF, labelF) =>
    if isSpecialCase rangeF || isSpecialCase labelF || isSpecialCase contentF then
      if isSpecialCase rangeF then Pure.pure .skip
      else do
        let r ← parseRange fig rangeF rangeF
        match handleSpecialCase contentF r with
        | some f => return .field f
        | none => return .skip
    else do
      let r ← rowRange fig dynMode rangeF
      let rowKey := rangeToRowKey r
      let label ← parseLabel fig cols labelF rowKey
      let brief := contentExtractBrief contentF
      let content ← M.ofExcept (req (row.node.nthChild tTd (cols.content + 1)))
      extractDataSubTable parse ⟨none, fig ++ '_' :: rowKey, some fig⟩ content
      return .field (structField r label brief)

/-- the row loop of StructTableExtractor.__call__ (structtable.py:126-204): the fields in row order and the further figure
of the split handlers. `err` is the exception which ends the row iterator, if any. -/
def structRows (parse : ParseFn) (fig : Str) (h : ErrHandler) (cols : Cols) (err : Option Exn) :
    Bool → List Row → M (List StructField × Option (EntityMeta × Node))
  | _, [] => match err with
    | none => Pure.pure ([], none)
    | some e => M.raise e
  | dynMode, row :: rows =>
    if containsTh row.node then
      structRows parse fig h cols err (dynMode || isInfix c!"List" (extractPossibleColspan row.node)) rows
    else do
      match ← structRow parse fig h cols dynMode row with
      | .stop extra => return ([], extra)
      | .skip => structRows parse fig h cols err dynMode rows
      | .field f => do
        let (fs, extra) ← structRows parse fig h cols err dynMode rows
        return (f :: fs, extra)

/-! ### validate_fields (structtable.py:219-285) -/

/-- field_get_range (structtable.py:223-226); ranges of strings are kept, but never compared (structtable.py:239,271) -/
def fieldGetRange (f : StructField) : Option RangeV :=
  if f.label = ELLIPSIS then none
  else match f.range with
    | .raw _ => none
    | r => some r

/-- the row order check (structtable.py:229-246): `true` iff T1004 is raised. `prev` is `prev_range`. -/
def orderWrong : Option RangeV → List StructField → Bool
  | _, [] => false
  | prev, f :: fs =>
    match fieldGetRange f with
    | none => orderWrong none fs
    | some r => match prev with
      | some p =>
        match p, r with
        | .int pl _, .int cl _ => if pl > cl then true else orderWrong prev fs
        | _, _ => orderWrong prev fs
      | none => orderWrong (some r) fs

/-- the check for duplicate labels (structtable.py:252-259) -/
def dupIssue (fig : Str) (labels : List Str) (f : StructField) : M Unit :=
  if (f.label ≠ RESERVED ∧ f.label ≠ ELLIPSIS) ∧ f.label ∈ labels then
    addIssue .lblDuplicate fig (some (rangeToRowKey f.range)) [(c!"label", .str f.label)]
  else Pure.pure ()

/-- the check of a range against the previous one (structtable.py:267-281) -/
def rangeIssue (fig : Str) (prev : Option RangeV) (r : RangeV) : M Unit :=
  match prev, r with
  | some (.int _ ph), .int cl _ =>
    if ph ≥ cl then addIssue .tblFieldOverlap fig (some (rangeToRowKey r))
    else if ph + 1 ≠ cl then addIssue .tblFieldGap fig (some (rangeToRowKey r))
    else Pure.pure ()
  | _, _ => Pure.pure ()

/-- the second loop of validate_fields (structtable.py:248-285) -/
def validateLoop (fig : Str) : List Str → Option RangeV → List StructField → M Unit
  | _, _, [] => Pure.pure ()
  | labels, prev, f :: fs => do
    dupIssue fig labels f
    let labels' := if f.label ≠ RESERVED ∧ f.label ≠ ELLIPSIS then f.label :: labels else labels
    if f.label = ELLIPSIS then validateLoop fig labels' none fs
    else match fieldGetRange f with
      | none => validateLoop fig labels' none fs
      | some r => do
        rangeIssue fig prev r
        validateLoop fig labels' (some r) fs

/-- validate_fields (structtable.py:219-285) -/
def validateStruct (fig : Str) (fields : List StructField) : M Unit :=
  match fields with
  | [] => Pure.pure ()
  | [_] => Pure.pure ()
  | f :: fs =>
    if orderWrong (fieldGetRange f) (f :: fs) then addIssue .tblRowOrderReversed fig none
    else validateLoop fig [f.label] (fieldGetRange f) fs

/-- `list(reversed(fields)) if self.type == "bits" else fields` (structtable.py:209) -/
def layoutOrder (ty : StructTy) (fs : List StructField) : List StructField :=
  match ty with
  | .bits => fs.reverse
  | .bytes => fs

/-- the further figure of the split handlers (nvm.py:59-62, mi.py:50-53) -/
def parseExtra (parse : ParseFn) : Option (EntityMeta × Node) → M Unit
  | none => Pure.pure ()
  | some (m, t) => parse m t

/-- StructTableExtractor.__call__ (structtable.py:125-217), followed by the further figure of the split handlers
(nvm.py:59-62, mi.py:50-53) -/
def structCall (parse : ParseFn) (c : StructCls) (m : EntityMeta) (cols : Cols) (tbl : Node) : M Unit := do
  let (rows, err) := rowIter tbl
  let (fs, extra) ← structRows parse m.figId c.handler cols err false rows
  let fields := layoutOrder c.ty fs
  validateStruct m.figId fields
  M.yield ⟨m, .struct c.ty fields⟩
  parseExtra parse extra

end Spex
