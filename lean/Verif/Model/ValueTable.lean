import Verif.Model.StructTable
/-
Model of src/spex/jsonspec/extractors/valuetable.py.
-/
set_option autoImplicit false
namespace Spex
variable [Uni]

/-- value_column_hdrs, label_column_hdrs, content_column_hdrs (valuetable.py:130-175) -/
def valueHdrs : List Str := [c!"value", c!"values"]
/-- valuetable.py:165-175 -/
def valueLabelHdrs : List Str := [c!"attribute", c!"definition", c!"description", c!"power scope"]
/-- valuetable.py:147-162 -/
def valueContentHdrs : List Str := [c!"definition", c!"description", c!"power scope"]

/-- ValueTableExtractor._can_apply (valuetable.py:35-58). `if other_col` is false for the empty header. -/
def valueCanApply0 (hdrs : List Str) : Mapping :=
  let m : Mapping := ⟨firstHdr valueHdrs hdrs, firstHdr valueLabelHdrs hdrs, firstHdr valueContentHdrs hdrs⟩
  if !mappingIncomplete m then m
  else if hdrs.length = 2 ∧ m.key = some c!"value" then
    match hdrs.find? (fun h => h != c!"value") with
    | some (x :: xs) => { m with label := some (x :: xs), content := some (x :: xs) }
    | _ => m
  else m

/-- _extract_label_dedicated_col (valuetable.py:232-248) -/
def extractLabelDedicated (fig : Str) (cols : Cols) (row : Node) (rowKey : Str) : M Str := do
  let p ← M.ofExcept (req ((row.nthChild tTd (cols.label + 1)).bind (·.nthChild tP 1)))
  let txt := lower p.toText
  if txt = c!"reserved" then return RESERVED
  else do
    if !hasChar ':' txt then addIssue .lblImputed fig (some rowKey)
    return upper (replace1 ' ' ['_'] (splitHead ':' txt))

/-- the dedicated column branch of _extract_label (valuetable.py:251-254); `none` stands for the early `return RESERVED` -/
def labelTextDedicated (fig : Str) (cols : Cols) (row : Node) (rowKey : Str) : M (Option Str) := do
  let label ← extractLabelDedicated fig cols row rowKey
  return if upper label = RESERVED then none else some label

/-- the same column branch of _extract_label (valuetable.py:255-270); `none` stands for the early `return RESERVED` -/
def labelTextSame (fig rowKey : Str) (data : Node) : M (Option Str) :=
  match extractContent data with
  | none => do
    addIssue .lblExtractErr fig (some rowKey)
    M.raise .labelExtraction
  | some text =>
    if upper text = RESERVED then Pure.pure none
    else match reValueLabel.pmatch text with
      | none => do
        addIssue .lblExtractErr fig (some rowKey)
        return some text
      | some m =>
        let lbl := (group m 1).getD []
        if lbl ≠ [] then Pure.pure (some lbl)
        else do
          addIssue .lblExtractErr fig (some rowKey)
          return some text

/-- the label text (valuetable.py:251-270) -/
def labelText (fig : Str) (cols : Cols) (row : Node) (rowKey : Str) (data : Node) : M (Option Str) :=
  if cols.content ≠ cols.label then labelTextDedicated fig cols row rowKey else labelTextSame fig rowKey data

/-- _extract_label (valuetable.py:250-274) -/
def extractLabelValue (fig : Str) (cols : Cols) (row : Node) (rowKey : Str) (data : Node) : M Str := do
  match ← labelText fig cols row rowKey data with
  | none => return RESERVED
  | some label => do
    let label := normalizeLabel (rearrangeNumLabel label)
    validateLabel label fig rowKey
    return label

/-- the label of a value row (valuetable.py:102-107) -/
def valueLabel (ov : List ((Str × Str) × Str)) (fig : Str) (cols : Cols) (row : Node) (val : Str) (data : Node) : M Str :=
  match ov.lookup (fig, val) with
  | none => extractLabelValue fig cols row val data
  | some l => do
    addIssue .lblOverridden fig (some val)
    return l

/-- one data row of ValueTableExtractor.__call__ (valuetable.py:78-124) -/
def valueRow (parse : ParseFn) (ov : List ((Str × Str) × Str)) (fig : Str) (cols : Cols) (row : Row) :
    M (RowOut ValueField) :=
  match row.node.nthChild tTd (cols.key + 1), row.node.nthChild tTd (cols.content + 1) with
  | some rowVal, some rowData =>
    let val := lower rowVal.toText
    if val = ELLIPSIS then Pure.pure (.field ⟨ELLIPSIS, ELLIPSIS, none⟩)
    else do
      let label ← valueLabel ov fig cols row.node val rowData
      -- _content_extract_brief (valuetable.py:276-280)
      let brief := contentExtractBrief rowData.toText
      extractDataSubTable parse ⟨none, fig ++ '_' :: val, some fig⟩ rowData
      return .field ⟨val, label, brief⟩
  | _, _ =>
    -- `except Exception`: one of the cells does not exist
    let txt := lower row.node.toText
    if startsWith txt ELLIPSIS then Pure.pure (.field ⟨ELLIPSIS, ELLIPSIS, none⟩)
    else if startsWith txt c!"notes:" then Pure.pure (.stop none)
    else Pure.pure .skip   -- the result of row_err_handler is not used (valuetable.py:91-93)

/-- the row loop of ValueTableExtractor.__call__ (valuetable.py:69-124) -/
def valueRows (parse : ParseFn) (ov : List ((Str × Str) × Str)) (fig : Str) (cols : Cols) (err : Option Exn) :
    List Row → M (List ValueField)
  | [] => match err with
    | none => Pure.pure []
    | some e => M.raise e
  | row :: rows =>
    if containsTh row.node then valueRows parse ov fig cols err rows
    else do
      match ← valueRow parse ov fig cols row with
      | .stop _ => return []
      | .skip => valueRows parse ov fig cols err rows
      | .field f => do
        let fs ← valueRows parse ov fig cols err rows
        return f :: fs

/-- the check for duplicate labels (valuetable.py:204-210) -/
def dupLabelIssue (fig : Str) (labels : List Str) (f : ValueField) : M Unit :=
  if f.label ∈ labels then addIssue .lblDuplicate fig (some f.val) [(c!"label", .str f.label)] else Pure.pure ()

/-- the check for duplicate values (valuetable.py:212-218) -/
def dupValueIssue (fig : Str) (values : List Str) (f : ValueField) : M Unit :=
  if f.val ∈ values then addIssue .valDuplicate fig (some f.val) else Pure.pure ()

/-- the loop of validate_fields (valuetable.py:199-221) -/
def validateValuesLoop (fig : Str) : List Str → List Str → List ValueField → M Unit
  | _, _, [] => Pure.pure ()
  | labels, values, f :: fs =>
    if f.label = RESERVED ∨ f.label = ELLIPSIS then validateValuesLoop fig labels values fs
    else do
      dupLabelIssue fig labels f
      dupValueIssue fig values f
      validateValuesLoop fig (f.label :: labels) (f.val :: values) fs

/-- validate_fields (valuetable.py:195-221) -/
def validateValues (fig : Str) (fields : List ValueField) : M Unit :=
  if fields.length < 2 then Pure.pure () else validateValuesLoop fig [] [] fields

/-- ValueTableExtractor.__call__ (valuetable.py:68-128) -/
def valueCall (parse : ParseFn) (ov : List ((Str × Str) × Str)) (m : EntityMeta) (cols : Cols) (tbl : Node) : M Unit := do
  let (rows, err) := rowIter tbl
  let fields ← valueRows parse ov m.figId cols err rows
  validateValues m.figId fields
  M.yield ⟨m, .values fields⟩

end Spex
