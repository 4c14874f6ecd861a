import Verif.Props.Figures
import Verif.Props.Schema
import Verif.Props.LabelExact
import Verif.Props.RangeExact
import Verif.Props.Overrides
import Verif.Props.Sample
/-
C01 - C09 for all fields of all figures of a document: every field is the reading of one row of the table of its figure.
-/
set_option autoImplicit false
namespace Spex
variable [Uni]

/-! ### Vocabulary -/

/-- the briefs of the fields of an entity -/
def Body.briefs : Body → List Str
  | .struct _ fs => fs.filterMap (·.brief)
  | .values fs => fs.filterMap (·.brief)

/-- `b` is a contiguous piece of `t`, behind the longest initial piece of label characters; `t` has a colon -/
def Quoted (b t : Str) : Prop :=
  ':' ∈ t ∧ ∃ lbl mid post, t = lbl ++ mid ++ b ++ post ∧ (∀ c ∈ lbl, LabelChar c) ∧
    ∀ c ∈ (mid ++ b ++ post).head?, ¬ LabelChar c

/-- what the text of a range cell stands for; what is to be reported of it is among these events -/
def StaticRange (fig t : Str) (evs : List Ev) (r : RangeV) : Prop := ∃ reports, RangeIs fig t t reports (.ok r) ∧ reports ⊆ evs

/-- the same in a dynamic list -/
def DynamicRange (fig t : Str) (evs : List Ev) (r : RangeV) : Prop := ∃ reports, DynamicIs fig t reports r ∧ reports ⊆ evs

/-- the rows behind these belong to a dynamic list: one of these is a header row with a wide cell, in which is the word `List` -/
def ListBegun (rows : List Row) : Prop :=
  ∃ r ∈ rows, containsTh r.node = true ∧ isInfix c!"List" (extractPossibleColspan r.node) = true

/-- a label written in upper case, without separators; one which is not accepted is reported and quoted in the report -/
def CheckedLabel (fig key : Str) (evs : List Ev) (l : Str) : Prop :=
  upper l = l ∧ (∀ c ∈ [' ', '/', '-'], c ∉ l) ∧
  (AcceptedLabel l ∨ .lint (issue .lblInvalidChrs fig (some key) [(c!"label", .str l)]) ∈ evs)

/-- the rows which only mark their range -/
def Marks (content label : Str) : Prop :=
  content = ELLIPSIS ∧ label = ELLIPSIS ∨
    content ≠ ELLIPSIS ∧ (upper content = RESERVED ∧ label = RESERVED ∨ upper content = OBSOLETE ∧ label = OBSOLETE)

/-- the texts of a row which is not a field of its own: reserved, obsolete, an ellipsis, a note -/
def MarkText (t : Str) : Prop := upper t ∈ [RESERVED, ELLIPSIS, OBSOLETE] ∨ startsWith (lower t) c!"note" = true

/-- how the field `f` of the bits or bytes figure `fig` reads the texts of its row: range, content, label; `own` says that there is a column for
the labels -/
inductive ReadsStruct (fig : Str) (inList own : Prop) (range content label : Str) (evs : List Ev) (f : StructField) : Prop where
  /-- a row reserved, obsolete or omitted -/
  | mark : ¬ MarkText range → (MarkText label ∨ MarkText content) → Marks content f.label → f.brief = none → StaticRange fig range evs f.range →
      ReadsStruct fig inList own range content label evs f
  /-- any other row; an empty brief is left out -/
  | field (n : Str) (reports : List Ev) (b : Option Str) : (∀ t ∈ [range, content, label], ¬ MarkText t) →
      f.label = lower n → StructLabelIs own fig (rangeKey f.range) label n reports → reports ⊆ evs →
      (inList → DynamicRange fig range evs f.range) → (¬ inList → StaticRange fig range evs f.range) →
      BriefIs content b → f.brief = (if b = some [] then none else b) → ReadsStruct fig inList own range content label evs f

/-- how the field `f` of the value figure `fig` reads the texts of its row; the text of the label counts unless there is an override -/
structure ReadsValue (ov : List ((Str × Str) × Str)) (fig : Str) (own : Prop) (val content : Str) (isLabel : Str → Prop) (evs : List Ev)
    (f : ValueField) : Prop where
  val_eq : f.val = lower val
  label_ok : (ov.lookup (fig, f.val) = some f.label ∧ .lint (issue .lblOverridden fig (some f.val)) ∈ evs) ∨
    (ov.lookup (fig, f.val) = none ∧ ∃ label reports, isLabel label ∧ ValueLabelIs own fig f.val label f.label reports ∧ reports ⊆ evs)
  brief_ok : BriefIs content f.brief

/-! ### Single rows -/

theorem parseRange_static {fig t : Str} (hf : fig ≠ []) {fl : Bool} {r : RangeV} {evs : List Ev}
    (h : (parseRange fig t t fl).out = .ok r) (he : (parseRange fig t t fl).evs ⊆ evs) : StaticRange fig t evs r := by
  obtain ⟨evs', o, h'⟩ := RangeIs.exists fig t t
  rw [h'.run hf fl] at h he
  simp only at h he
  subst h
  exact ⟨evs', h', he⟩

omit [Uni] in
theorem parseDynamic_dynamic {fig t : Str} (hf : fig ≠ []) {fl : Bool} {r : RangeV} {evs : List Ev}
    (h : (parseDynamicRange fig t fl).out = .ok r) (he : (parseDynamicRange fig t fl).evs ⊆ evs) : DynamicRange fig t evs r := by
  obtain ⟨evs', o, h'⟩ := DynamicIs.exists fig t
  rw [h'.run hf fl] at h he
  cases h
  exact ⟨evs', h', he⟩

theorem validated_checked {fig key x : Str} (hf : fig ≠ []) {fl : Bool} {evs : List Ev}
    (he : (validateLabel (normalizeLabel x) fig key fl).evs ⊆ evs) : CheckedLabel fig key evs (normalizeLabel x) := by
  obtain ⟨h1, h2, -⟩ := C06_normalize_alphabet x
  refine ⟨h2, fun c hc => (h1 c hc).1, ?_⟩
  by_cases ha : AcceptedLabel (normalizeLabel x)
  · exact .inl ha
  · right
    rw [(validateLabel_eq _ fig key hf).2 ha] at he
    exact he (by simp [M.emit_run])

omit [Uni] in
theorem LabelReports.checked [Uni] {fig key n : Str} {e : Option LintErr} {reports evs : List Ev} (h : LabelReports fig key e n reports)
    (hn : ∃ x, NormalOf x n) (he : reports ⊆ evs) : CheckedLabel fig key evs n := by
  obtain ⟨x, hx⟩ := hn
  rw [← (C06_normal_iff x n).2 hx] at h ⊢
  obtain ⟨h1, h2, -⟩ := C06_normalize_alphabet x
  refine ⟨h2, fun c hc => (h1 c hc).1, ?_⟩
  obtain ⟨post, rfl, ⟨ha, -⟩ | ⟨-, rfl⟩⟩ := h
  · exact .inl ha
  · exact .inr (he (by simp))

theorem StructLabelIs.checked {own : Prop} {fig key txt n : Str} {reports evs : List Ev} (h : StructLabelIs own fig key txt n reports)
    (he : reports ⊆ evs) : CheckedLabel fig key evs n := by
  obtain ⟨x, e, -, h1, h2⟩ := h
  exact h2.checked ⟨x, h1⟩ he

theorem ValueLabelIs.checked {own : Prop} {fig key txt n : Str} {reports evs : List Ev} (h : ValueLabelIs own fig key txt n reports)
    (he : reports ⊆ evs) : n = RESERVED ∨ CheckedLabel fig key evs n := by
  cases h with
  | reserved => exact .inl rfl
  | reservedOwn => exact .inl rfl
  | reservedName => exact .inl rfl
  | label x y _ e _ h1 h2 h3 h4 => exact .inr (h4.checked ⟨y, h3⟩ he)

/-- C04, C05: what is known of a brief -/
theorem BriefIs.quoted {content b : Str} (h : BriefIs content (some b)) : BriefOk b ∧ Quoted b content :=
  ⟨C04_brief_ok _ _ h.eq, C05_brief_quotation _ _ h.eq⟩

omit [Uni] in
theorem handleSpecialCase_marks [Uni] {content : Str} {r : RangeV} {f : StructField} (h : handleSpecialCase content r = some f) :
    Marks content f.label ∧ f.brief = none := by
  unfold handleSpecialCase at h
  split at h
  · rename_i hc
    rw [← Option.some.inj h]
    exact ⟨.inl ⟨hc, rfl⟩, rfl⟩
  rename_i hne
  split at h
  · rename_i hc
    rw [← Option.some.inj h]
    exact ⟨.inr ⟨hne, .inl ⟨hc, rfl⟩⟩, rfl⟩
  split at h
  · rename_i hc
    rw [← Option.some.inj h]
    exact ⟨.inr ⟨hne, .inr ⟨hc, rfl⟩⟩, rfl⟩
  · simp at h

omit [Uni] in
theorem structField_brief (r : RangeV) (l : Str) (o : Option Str) : (structField r l o).brief = if o = some [] then none else o := by
  unfold structField
  cases o with
  | none => rfl
  | some x => cases x <;> rfl

theorem isSpecialCase_iff (t : Str) : isSpecialCase t = true ↔ MarkText t := by
  unfold isSpecialCase MarkText
  rw [Bool.or_eq_true, List.contains_iff_mem]
  rfl

theorem isSpecialCase_not {t : Str} (h : isSpecialCase t = false) : ¬ MarkText t := by
  rw [← isSpecialCase_iff, h]
  exact Bool.false_ne_true

omit [Uni] in
theorem any_startsList (pre : List Row) : pre.any startsList = true ↔ ListBegun pre := by
  unfold ListBegun startsList
  simp only [List.any_eq_true, Bool.and_eq_true]

theorem StructFrom.reads {fig : Str} (hf : fig ≠ []) {cols : Cols} {pre : List Row} {row : Node} {evs evs' : List Ev} {f : StructField}
    (hs : evs ⊆ evs') (h : StructFrom fig cols (pre.any startsList) row evs f) :
    f = ⟨ELLIPSIS, .int (-1) (-1), none⟩ ∧ startsWith (lower row.toText) ELLIPSIS = true ∨
    ∃ kc cc lc lp, row.nthChild tTd (cols.key + 1) = some kc ∧ row.nthChild tTd (cols.content + 1) = some cc ∧
      row.nthChild tTd (cols.label + 1) = some lc ∧ lc.nthChild tP 1 = some lp ∧
      ReadsStruct fig (ListBegun pre) (cols.content ≠ cols.label) kc.toText cc.toText lp.toText evs' f := by
  have cells : ∀ {a b c : Str}, extractFields cols row = .ok (a, b, c) →
      ∃ kc cc lc lp, row.nthChild tTd (cols.key + 1) = some kc ∧ row.nthChild tTd (cols.content + 1) = some cc ∧
      row.nthChild tTd (cols.label + 1) = some lc ∧ lc.nthChild tP 1 = some lp ∧ kc.toText = a ∧ cc.toText = b ∧ lp.toText = c := by
    intro a b c h
    unfold extractFields at h
    cases h1 : row.nthChild tTd (cols.key + 1) with
    | none => rw [h1] at h; cases h
    | some kc =>
      cases h2 : row.nthChild tTd (cols.content + 1) with
      | none => rw [h1, h2] at h; cases h
      | some cc =>
        cases h3 : row.nthChild tTd (cols.label + 1) with
        | none => rw [h1, h2, h3] at h; cases h
        | some lc =>
          cases h4 : lc.nthChild tP 1 with
          | none => rw [h1, h2, h3, Option.bind_some, h4] at h; cases h
          | some lp =>
            rw [h1, h2, h3, Option.bind_some, h4] at h
            have := Except.ok.inj h
            simp only [Prod.mk.injEq] at this
            exact ⟨kc, cc, lc, lp, rfl, rfl, rfl, h4, this.1, this.2.1, this.2.2⟩
  cases h with
  | ellipsis h => exact .inl ⟨rfl, h⟩
  | special a b c fl r f h0 h1 h2 h3 h4 h5 =>
    right
    obtain ⟨kc, cc, lc, lp, e1, e2, e3, e4, rfl, rfl, rfl⟩ := cells h0
    obtain ⟨m1, m2⟩ := handleSpecialCase_marks h5
    refine ⟨kc, cc, lc, lp, e1, e2, e3, e4, .mark (isSpecialCase_not h3) ?_ m1 m2 ?_⟩
    · rwa [Bool.or_eq_true, isSpecialCase_iff, isSpecialCase_iff] at h4
    · rw [handleSpecialCase_range h5]
      exact parseRange_static hf h1 (h2.trans hs)
  | normal a b c fl fl' r label h0 h1 h2 h3 h4 h5 h6 h7 =>
    right
    obtain ⟨kc, cc, lc, lp, e1, e2, e3, e4, rfl, rfl, rfl⟩ := cells h0
    obtain ⟨-, k0, -⟩ := C08_total fig cols lp.toText (rangeToRowKey r) hf fl'
    generalize hp : parseLabel fig cols lp.toText (rangeToRowKey r) fl' = res at h6 h7 k0
    obtain ⟨pe, pf, po⟩ := res
    simp only at h6 h7 k0
    subst h6 k0
    obtain ⟨n, k1, rfl⟩ := (C08_label_exact fig cols lp.toText (rangeToRowKey r) hf pf pe label).1 hp
    refine ⟨kc, cc, lc, lp, e1, e2, e3, e4, .field n pe _ (by simpa using ⟨isSpecialCase_not h1, isSpecialCase_not h3, isSpecialCase_not h2⟩) rfl k1 (h7.trans hs) ?_ ?_
      ((C05_brief_exact _ _).1 rfl) (structField_brief _ _ _)⟩
    · intro hl
      rw [(any_startsList pre).2 hl, rowRange, if_pos rfl] at h4 h5
      exact parseDynamic_dynamic hf h4 (h5.trans hs)
    · intro hl
      rw [show pre.any startsList = false from Bool.eq_false_iff.2 (fun h => hl ((any_startsList pre).1 h)), rowRange,
        if_neg Bool.false_ne_true] at h4 h5
      exact parseRange_static hf h4 (h5.trans hs)

theorem ValueFrom.reads {ov : List ((Str × Str) × Str)} {fig : Str} (hf : fig ≠ []) {cols : Cols} {row : Node}
    {evs evs' : List Ev} {f : ValueField} (hs : evs ⊆ evs') (h : ValueFrom ov fig cols row evs f) :
    f = ⟨ELLIPSIS, ELLIPSIS, none⟩ ∧ (startsWith (lower row.toText) ELLIPSIS = true ∨
      ∃ vc, row.nthChild tTd (cols.key + 1) = some vc ∧ lower vc.toText = ELLIPSIS) ∨
    ∃ vc cc, row.nthChild tTd (cols.key + 1) = some vc ∧ row.nthChild tTd (cols.content + 1) = some cc ∧
      ReadsValue ov fig (cols.content ≠ cols.label) vc.toText cc.toText (fun t => ∃ p, LabelParagraph cols row cc p ∧ t = p.toText) evs' f := by
  cases h with
  | ellipsis h => exact .inl ⟨rfl, h⟩
  | normal vc cc fl label h1 h2 h3 h4 =>
    have hb := (C05_brief_exact cc.toText _).1 rfl
    generalize contentExtractBrief cc.toText = o at hb
    refine .inr ⟨vc, cc, h1, h2, ⟨rfl, ?_, hb⟩⟩
    · simp only
      unfold valueLabel at h3 h4
      cases hl : ov.lookup (fig, lower vc.toText) with
      | some l =>
        rw [hl] at h3 h4
        simp only at h3 h4
        rw [addIssue_row hf, M.bind_run, M.emit_run] at h3 h4
        simp only [M.pure_run, Except.ok.injEq] at h3 h4
        exact .inl ⟨congrArg some h3, hs (h4 (by simp))⟩
      | none =>
        rw [hl] at h3 h4
        obtain ⟨p, hp⟩ := valueLabel_paragraph h3
        obtain ⟨n, evl, hn⟩ := ValueLabelIs.exists (cols.content ≠ cols.label) fig (lower vc.toText) hf p.toText
        simp only [valueLabel_run fig _ hf cols row cc p hp fl n evl hn, Except.ok.injEq] at h3 h4
        subst h3
        exact .inr ⟨rfl, p.toText, evl, ⟨p, hp, rfl⟩, hn, h4.trans hs⟩

/-! ### All fields of a document -/

/-- C01 - C08, bits and bytes figures: every field of every entity of a document, but those which stand for a row of dots, reads
the cells of one data row of the table of its figure, in the columns the extractor selected: the range, the label and the brief
are those of this row, as the claims say. -/
theorem C01_document (env : Env) (hE : EnvOk env) (root : Node) (m : EntityMeta) (ty : StructTy) (fs : List StructField)
    (h : ⟨m, .struct ty fs⟩ ∈ entities (parseDoc env root).evs) (f : StructField) (hf : f ∈ fs) :
    ∃ tbl c cols pre row post, FigureIn env root m tbl ∧ Selected env m tbl (.struct c) cols ∧
      (rowIter tbl).1 = pre ++ row :: post ∧ containsTh row.node = false ∧
      (f = ⟨ELLIPSIS, .int (-1) (-1), none⟩ ∧ startsWith (lower row.node.toText) ELLIPSIS = true ∨
       ∃ kc cc lc lp, row.node.nthChild tTd (cols.key + 1) = some kc ∧ row.node.nthChild tTd (cols.content + 1) = some cc ∧
        row.node.nthChild tTd (cols.label + 1) = some lc ∧ lc.nthChild tP 1 = some lp ∧
        ReadsStruct m.figId (ListBegun pre) (cols.content ≠ cols.label) kc.toText cc.toText lp.toText (parseDoc env root).evs f) := by
  have hne := entity_figId_ne env hE root _ (mem_entities.mp h)
  obtain ⟨tbl, h1, c, cols, re, h2, -, h3, h4⟩ := C23_fields_from_rows env hE root _ h
  have hf' : f ∈ (match ty with | .bytes => fs | .bits => fs.reverse) := by
    cases ty
    · exact List.mem_reverse.2 hf
    · exact hf
  obtain ⟨pre, row, post, h5, h6, h7⟩ := h4.mem_pre hf'
  exact ⟨tbl, c, cols, pre, row, post, h1, h2, h5, h6, h7.reads hne h3⟩

/-- C04 - C09, tables of values: every field of every entity of a document, but those which stand for a row of dots, reads the
cells of one data row of the table of its figure. -/
theorem C05_document_values (env : Env) (hE : EnvOk env) (root : Node) (m : EntityMeta) (fs : List ValueField)
    (h : ⟨m, .values fs⟩ ∈ entities (parseDoc env root).evs) (f : ValueField) (hf : f ∈ fs) :
    ∃ tbl cols pre row post, FigureIn env root m tbl ∧ Selected env m tbl .value cols ∧
      (rowIter tbl).1 = pre ++ row :: post ∧ containsTh row.node = false ∧
      (f = ⟨ELLIPSIS, ELLIPSIS, none⟩ ∧ (startsWith (lower row.node.toText) ELLIPSIS = true ∨
        ∃ vc, row.node.nthChild tTd (cols.key + 1) = some vc ∧ lower vc.toText = ELLIPSIS) ∨
       ∃ vc cc, row.node.nthChild tTd (cols.key + 1) = some vc ∧ row.node.nthChild tTd (cols.content + 1) = some cc ∧
        ReadsValue env.labelOverrides m.figId (cols.content ≠ cols.label) vc.toText cc.toText
          (fun t => ∃ p, LabelParagraph cols row.node cc p ∧ t = p.toText) (parseDoc env root).evs f) := by
  have hne := entity_figId_ne env hE root _ (mem_entities.mp h)
  obtain ⟨tbl, h1, cols, re, h2, h3, h4⟩ := C23_fields_from_rows env hE root _ h
  obtain ⟨pre, row, post, h5, h6, h7⟩ := h4.mem_pre hf
  exact ⟨tbl, cols, pre, row, post, h1, h2, h5, h6, h7.reads hne h3⟩

/-- C04: every brief in a document is at most 60 characters long, does not end with a period and does not start with a blank;
briefs of bits and bytes figures are not empty. -/
theorem C04_document (env : Env) (hE : EnvOk env) (root : Node) (e : Entity) (h : e ∈ entities (parseDoc env root).evs)
    (b : Str) (hb : b ∈ e.body.briefs) : BriefOk b ∧ ∀ ty fs, e.body = .struct ty fs → b ≠ [] := by
  obtain ⟨m, body⟩ := e
  cases body with
  | struct ty fs =>
    obtain ⟨f, hf, hfb⟩ := List.mem_filterMap.1 hb
    obtain ⟨_, _, _, _, _, _, -, -, -, -, ⟨rfl, -⟩ | ⟨_, _, _, _, -, -, -, -, hr⟩⟩ := C01_document env hE root m ty fs h f hf
    · cases hfb
    · cases hr with
      | mark _ _ h1 h2 h3 => rw [h2] at hfb; cases hfb
      | field n reports b' h0 h1 h2 h3 h4 h5 h6 h7 =>
        rw [h7] at hfb
        split at hfb
        · cases hfb
        · rename_i hne
          subst hfb
          exact ⟨h6.quoted.1, fun _ _ _ h => hne (by rw [h])⟩
  | values fs =>
    obtain ⟨f, hf, hfb⟩ := List.mem_filterMap.1 hb
    obtain ⟨_, _, _, _, _, -, -, -, -, ⟨rfl, -⟩ | ⟨_, _, -, -, hr⟩⟩ := C05_document_values env hE root m fs h f hf
    · cases hfb
    · have := hr.brief_ok
      rw [hfb] at this
      exact ⟨this.quoted.1, fun _ _ h => by cases h⟩

/-- C06, bits and bytes figures: but for the marks RESERVED, OBSOLETE and the ellipsis, a label is in lower case and has no
blank, slash or hyphen. -/
theorem C06_document (env : Env) (hE : EnvOk env) (root : Node) (m : EntityMeta) (ty : StructTy) (fs : List StructField)
    (h : ⟨m, .struct ty fs⟩ ∈ entities (parseDoc env root).evs) (f : StructField) (hf : f ∈ fs) :
    f.label ∈ [RESERVED, OBSOLETE, ELLIPSIS] ∨ (lower f.label = f.label ∧ ∀ c ∈ [' ', '/', '-'], c ∉ f.label) := by
  obtain ⟨_, _, _, _, _, _, -, -, -, -, ⟨rfl, -⟩ | ⟨_, _, _, _, -, -, -, -, hr⟩⟩ := C01_document env hE root m ty fs h f hf
  · exact .inl (by simp)
  · cases hr with
    | mark _ _ h1 h2 h3 =>
      left
      rcases h1 with ⟨-, h⟩ | ⟨-, ⟨-, h⟩ | ⟨-, h⟩⟩ <;> rw [h] <;> simp
    | field n reports b h0 h1 h2 h3 h4 h5 h6 h7 =>
      right
      have h2 := h2.checked h3
      rw [h1]
      refine ⟨Uni.lower_idem _, fun c hc => lower_chars ?_ ?_ (h2.2.1 c hc)⟩
      · simp only [List.mem_cons, List.not_mem_nil, or_false] at hc
        rcases hc with rfl | rfl | rfl <;> decide
      · simp only [List.mem_cons, List.not_mem_nil, or_false] at hc
        rcases hc with rfl | rfl | rfl <;> decide

/-- C06, tables of values: but for the ellipsis and labels from the list of overrides, a label is in upper case and has no blank,
slash or hyphen. -/
theorem C06_document_values (env : Env) (hE : EnvOk env) (root : Node) (m : EntityMeta) (fs : List ValueField)
    (h : ⟨m, .values fs⟩ ∈ entities (parseDoc env root).evs) (f : ValueField) (hf : f ∈ fs) :
    f = ⟨ELLIPSIS, ELLIPSIS, none⟩ ∨ env.labelOverrides.lookup (m.figId, f.val) = some f.label ∨
    (upper f.label = f.label ∧ ∀ c ∈ [' ', '/', '-'], c ∉ f.label) := by
  obtain ⟨_, _, _, _, _, -, -, -, -, ⟨rfl, -⟩ | ⟨_, _, -, -, hr⟩⟩ := C05_document_values env hE root m fs h f hf
  · exact .inl rfl
  · rcases hr.label_ok with ⟨h1, -⟩ | ⟨-, t, reports, -, h1, h2⟩
    · exact .inr (.inl h1)
    rcases h1.checked h2 with h1 | h1
    · refine .inr (.inr ?_)
      rw [h1]
      refine ⟨?_, by decide⟩
      have : AsciiAlnum RESERVED := by unfold AsciiAlnum; decide
      rw [upper_asciiAlnum this]
      decide
    · exact .inr (.inr ⟨h1.1, h1.2.1⟩)

/-- C07: a diagnostic L1004 of a document which quotes a label quotes one which is not an identifier. -/
theorem C07_document_sound (env : Env) (root : Node) (d : LintEntry) (h : d ∈ diagnostics .lblInvalidChrs (parseDoc env root).evs)
    (l : Str) (hl : d.ctx = [(c!"label", .str l)]) : ¬ Identifier l := by
  obtain ⟨h1, h2⟩ := mem_diagnostics.mp h
  have key := emits_parseTables (env := env)
    (P := fun ev => ∀ d, ev = .lint d → d.err = .lblInvalidChrs → ∀ l, d.ctx = [(c!"label", .str l)] → ¬ Identifier l)
    (by intro e d hd; cases hd) (by
      intro err fig row ctx hu d hd he l hc hid
      obtain rfl := (Ev.lint.inj hd).symm
      rcases hu.2.2.1 he with hn | ⟨l', hl', hv, -⟩
      · change ctx = _ at hc
        rw [hn] at hc
        cases hc
      · change ctx = _ at hc
        rw [hl'] at hc
        simp only [List.cons.injEq, Prod.mk.injEq, Json.str.injEq, and_true, true_and] at hc
        subst hc
        have := (labelValidation_iff l').2 (by
          obtain ⟨c, w, h1, h2, h3⟩ := hid
          exact ⟨c, w, h2, h3, .inl h1⟩)
        rw [Option.isNone_iff_eq_none] at hv
        rw [hv] at this
        cases this) (by
      intro fig val lab _ d hd he
      obtain rfl := (Ev.lint.inj hd).symm
      cases he) _ 0 false _ h1
  exact key d rfl h2 l hl

/-- C07 (partial): the label of a field is accepted, or it is reported with L1004 in the figure and the row of the field and
quoted there (before it is put in lower case, for bits and bytes figures). Missing with respect to the full claim: as for
`C07_invalid_flagged_partial`, among the accepted labels are some which are not identifiers. -/
theorem C07_document_partial (env : Env) (hE : EnvOk env) (root : Node) (m : EntityMeta) (ty : StructTy) (fs : List StructField)
    (h : ⟨m, .struct ty fs⟩ ∈ entities (parseDoc env root).evs) (f : StructField) (hf : f ∈ fs) :
    f.label ∈ [RESERVED, OBSOLETE, ELLIPSIS] ∨ ∃ l, f.label = lower l ∧ (AcceptedLabel l ∨
      .lint (issue .lblInvalidChrs m.figId (some (rangeKey f.range)) [(c!"label", .str l)]) ∈ (parseDoc env root).evs) := by
  obtain ⟨_, _, _, _, _, _, -, -, -, -, ⟨rfl, -⟩ | ⟨_, _, _, _, -, -, -, -, hr⟩⟩ := C01_document env hE root m ty fs h f hf
  · exact .inl (by simp)
  · cases hr with
    | mark _ _ h1 h2 h3 =>
      left
      rcases h1 with ⟨-, h⟩ | ⟨-, ⟨-, h⟩ | ⟨-, h⟩⟩ <;> rw [h] <;> simp
    | field n reports b h0 h1 h2 h3 h4 h5 h6 h7 => exact .inr ⟨n, h1, (h2.checked h3).2.2⟩

/-- the same for tables of values -/
theorem C07_document_values_partial (env : Env) (hE : EnvOk env) (root : Node) (m : EntityMeta) (fs : List ValueField)
    (h : ⟨m, .values fs⟩ ∈ entities (parseDoc env root).evs) (f : ValueField) (hf : f ∈ fs) :
    f = ⟨ELLIPSIS, ELLIPSIS, none⟩ ∨ env.labelOverrides.lookup (m.figId, f.val) = some f.label ∨ AcceptedLabel f.label ∨
    .lint (issue .lblInvalidChrs m.figId (some f.val) [(c!"label", .str f.label)]) ∈ (parseDoc env root).evs := by
  obtain ⟨_, _, _, _, _, -, -, -, -, ⟨rfl, -⟩ | ⟨_, _, -, -, hr⟩⟩ := C05_document_values env hE root m fs h f hf
  · exact .inl rfl
  · rcases hr.label_ok with ⟨h1, -⟩ | ⟨-, t, reports, -, h1, h2⟩
    · exact .inr (.inl h1)
    rcases h1.checked h2 with h1 | h1
    · refine .inr (.inr (.inl (.inl ?_)))
      rw [h1]
      refine ⟨'R', c!"ESERVED", rfl, by decide, ?_⟩
      intro x hx
      have hx' : x.toNat < 128 ∧ (x.isAlphanum || x == '_') = true := by
        revert x
        decide
      rw [Uni.isWord_ascii x hx'.1]
      exact hx'.2
    · exact .inr (.inr h1.2.2)

/-- C03 (partial): a field of a figure, the row of which comes after the head of a dynamic list, has the two formulas of its range as bounds,
or the text of the range if these are not two formulas, which is then reported with R1001. Missing with respect to the full claim: the rows which
are reserved, obsolete or omitted (`C03_reserved_false`). -/
theorem C03_document_partial (env : Env) (hE : EnvOk env) (root : Node) (m : EntityMeta) (ty : StructTy) (fs : List StructField)
    (h : ⟨m, .struct ty fs⟩ ∈ entities (parseDoc env root).evs) (f : StructField) (hf : f ∈ fs) (hl : f.label ∉ [RESERVED, OBSOLETE, ELLIPSIS]) :
    ∃ tbl c cols pre row post kc, FigureIn env root m tbl ∧ Selected env m tbl (.struct c) cols ∧ (rowIter tbl).1 = pre ++ row :: post ∧
      containsTh row.node = false ∧ row.node.nthChild tTd (cols.key + 1) = some kc ∧
      (ListBegun pre →
        (∃ high low, DynText kc.toText high low ∧ f.range = .dyn low high) ∨
        ((¬ ∃ high low, DynText kc.toText high low) ∧ f.range = .raw kc.toText ∧
          .lint (issue .rangeInvalid m.figId (some kc.toText)) ∈ (parseDoc env root).evs)) := by
  obtain ⟨tbl, c, cols, pre, row, post, h1, h2, h3, h4, ⟨rfl, -⟩ | ⟨kc, cc, lc, lp, h5, -, -, -, hr⟩⟩ := C01_document env hE root m ty fs h f hf
  · exact absurd (by simp) hl
  · refine ⟨tbl, c, cols, pre, row, post, kc, h1, h2, h3, h4, h5, fun hb => ?_⟩
    cases hr with
    | mark _ _ g _ _ =>
      refine absurd ?_ hl
      rcases g with ⟨-, g⟩ | ⟨-, ⟨-, g⟩ | ⟨-, g⟩⟩ <;> rw [g] <;> simp
    | field n reports b _ _ _ _ g _ _ _ =>
      obtain ⟨evs, g, hs⟩ := g hb
      generalize f.range = r at g
      cases g with
      | formulas a b g => exact .inl ⟨a, b, g, rfl⟩
      | text g => exact .inr ⟨fun ⟨a, b, g'⟩ => g a b g', rfl, hs (by simp)⟩

/-! ### Examples, and what fails -/

section
open Sample

/-- a bytes figure with a dynamic list -/
def listDoc : Node := doc [.elem tTable [] [tr [td c!"Figure 7: Log"], tr [th c!"Bytes", th c!"Description"],
  tr [td c!"03:00", td c!"Number of Entries (NE): This field counts the entries."],
  tr [.elem tTh [(aColspan, c!"2")] [.elem tP [] [.text c!"Entry List"]]],
  tr [td c!"(NE+1)*4 + 3:\n(NE+1)*4", td c!"Entry N: last"],
  tr [td c!"NE*4+9:NE*4+8", td c!"Reserved"]]]

/-- `C01_document`, `C03_document_partial`, `C04_document`, `C06_document` meet this document: a range, two formulas, a text -/
example : letI := Uni.ascii
    (entities (parseDoc (envPlain false) listDoc).evs).map (·.body) =
      [.struct .bytes [⟨c!"ne", .int 0 3, some c!"This field counts the entries"⟩,
        ⟨c!"en", .dyn c!"(NE+1)*4" c!"(NE+1)*4+3", some c!"last"⟩,
        ⟨RESERVED, .raw c!"NE*4+9:NE*4+8", none⟩]] := by decide +kernel

omit [Uni] in
/-- C03 fails for the rows which are reserved, obsolete or omitted: in a dynamic list, the formulas of their range are not
separated, and are reported as an invalid range. -/
theorem C03_reserved_false : letI := Uni.ascii
    ∃ (root : Node) (m : EntityMeta) (fs : List StructField) (f : StructField) (t a b : Str),
      ⟨m, .struct .bytes fs⟩ ∈ entities (parseDoc (envPlain false) root).evs ∧ f ∈ fs ∧ f.label = RESERVED ∧ f.range = .raw t ∧
      DynText t a b ∧ (diagnostics .rangeInvalid (parseDoc (envPlain false) root).evs).map (·.row) = [some t] := by
  let _ := Uni.ascii
  refine ⟨listDoc, ⟨some c!"Figure 7: Log", c!"7", none⟩, [⟨c!"ne", .int 0 3, some c!"This field counts the entries"⟩,
        ⟨c!"en", .dyn c!"(NE+1)*4" c!"(NE+1)*4+3", some c!"last"⟩,
        ⟨RESERVED, .raw c!"NE*4+9:NE*4+8", none⟩], ⟨RESERVED, .raw c!"NE*4+9:NE*4+8", none⟩, c!"NE*4+9:NE*4+8", c!"NE*4+9", c!"NE*4+8",
        by decide +kernel, by simp, rfl, rfl, ⟨by decide, by decide, ?_, ?_, [], by decide, by simp⟩, by decide +kernel⟩
  · intro c hc
    exact (clsDynamic_iff c).1 (by revert c; decide)
  · intro c hc
    exact (clsDynamic_iff c).1 (by revert c; decide)

/-- a bits figure with a column for labels: one which is an identifier only without its blank, one which is none -/
def attributeDoc : Node := doc [figure c!"Figure 8: Flags" [c!"Bits", c!"Attribute", c!"Description"]
  [[td c!"1", td c!"Write Protect: x", td c!"Media: written."], [td c!"0", td c!"9x: y", td c!"none"]]]

/-- `C07_document_partial`, `C07_document_sound`: the second label is reported and quoted -/
example : letI := Uni.ascii
    let r := parseDoc (envPlain false) attributeDoc
    (entities r.evs).map (·.body) = [.struct .bits [⟨c!"9x", .int 0 0, none⟩, ⟨c!"write_protect", .int 1 1, some c!"written"⟩]] ∧
    (diagnostics .lblInvalidChrs r.evs).map (fun l => (l.row, l.ctx.length)) = [(some c!"1", 0), (some c!"0", 1)] := by decide +kernel

omit [Uni] in
/-- C07 fails in tables with a column for labels: a label written with a blank is reported, although the label of the field is
an identifier; the report quotes no label. -/
theorem C07_blank_false : letI := Uni.ascii
    ∃ (root : Node) (m : EntityMeta) (fs : List StructField) (f : StructField),
      ⟨m, .struct .bits fs⟩ ∈ entities (parseDoc (envPlain false) root).evs ∧ f ∈ fs ∧ Identifier f.label ∧
      ∃ d ∈ diagnostics .lblInvalidChrs (parseDoc (envPlain false) root).evs,
        d.fig = m.figId ∧ d.row = some (rangeKey f.range) ∧ d.ctx.length = 0 := by
  let _ := Uni.ascii
  refine ⟨attributeDoc, ⟨some c!"Figure 8: Flags", c!"8", none⟩,
    [⟨c!"9x", .int 0 0, none⟩, ⟨c!"write_protect", .int 1 1, some c!"written"⟩],
    ⟨c!"write_protect", .int 1 1, some c!"written"⟩, by decide +kernel, by simp,
    ⟨'w', c!"rite_protect", rfl, by decide, by decide⟩, ?_⟩
  have h : (c!"8", some c!"1", 0) ∈ (diagnostics .lblInvalidChrs (parseDoc (envPlain false) attributeDoc).evs).map
      (fun d => (d.fig, d.row, d.ctx.length)) := by decide +kernel
  obtain ⟨d, hd, he⟩ := List.mem_map.1 h
  simp only [Prod.mk.injEq] at he
  exact ⟨d, hd, he.1, he.2.1, he.2.2⟩

end

/-- a table of values with an override, a digit first, a reserved value -/
example : letI := Uni.ascii
    (entities (parseDoc (envZoned false) (Sample.doc [Sample.figure c!"Figure 37: Codes" [c!"Value", c!"Description"]
      [[Sample.td c!"0H", Sample.td c!"16-bit / Guard: y."], [Sample.td c!"1h", Sample.td c!"Reserved"]]])).evs).map (·.body) =
      [.values [⟨c!"0h", c!"_BIT_GUARD_16", some c!"y"⟩, ⟨c!"1h", RESERVED, none⟩]] := by decide +kernel

end Spex
