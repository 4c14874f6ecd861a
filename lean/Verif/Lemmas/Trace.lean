import Verif.Lemmas.Figure
import Verif.Lemmas.Fuel
import Verif.Props.Headers
import Mathlib.Data.List.Forall2
/-
A specification of the possible outputs of a figure as an inductive relation, and the proof that the model refines it.
-/
set_option autoImplicit false
namespace Spex
variable [Uni]

/-- How the processing of a figure (or of its rows) ends. -/
inductive End where
  /-- normally -/
  | done
  /-- with an exception which was reported as T1000 of the figure `culprit`, and then ignored -/
  | swallowed (culprit : Str)
  /-- with an exception, which was already reported as T1000 of `culprit`, or not yet reported -/
  | raised (e : Exn) (culprit : Option Str)
  deriving DecidableEq

/-- the row starts a dynamic list -/
def startsList (row : Row) : Bool := containsTh row.node && isInfix c!"List" (extractPossibleColspan row.node)

/-- How a field comes from a data row of a struct figure, with the diagnostics among `evs`; `dyn`: the row belongs to a
dynamic list. -/
inductive StructFrom (fig : Str) (cols : Cols) (dyn : Bool) (row : Node) (evs : List Ev) : StructField → Prop where
  | ellipsis : startsWith (lower row.toText) ELLIPSIS = true → StructFrom fig cols dyn row evs ⟨ELLIPSIS, .int (-1) (-1), none⟩
  | special (rangeTxt contentTxt labelTxt : Str) (fl : Bool) (r : RangeV) (f : StructField) :
      extractFields cols row = .ok (rangeTxt, contentTxt, labelTxt) →
      (parseRange fig rangeTxt rangeTxt fl).out = .ok r → (parseRange fig rangeTxt rangeTxt fl).evs ⊆ evs →
      isSpecialCase rangeTxt = false → (isSpecialCase labelTxt || isSpecialCase contentTxt) = true →
      handleSpecialCase contentTxt r = some f → StructFrom fig cols dyn row evs f
  | normal (rangeTxt contentTxt labelTxt : Str) (fl fl' : Bool) (r : RangeV) (label : Str) :
      extractFields cols row = .ok (rangeTxt, contentTxt, labelTxt) →
      isSpecialCase rangeTxt = false → isSpecialCase labelTxt = false → isSpecialCase contentTxt = false →
      (rowRange fig dyn rangeTxt fl).out = .ok r → (rowRange fig dyn rangeTxt fl).evs ⊆ evs →
      (parseLabel fig cols labelTxt (rangeToRowKey r) fl').out = .ok label →
      (parseLabel fig cols labelTxt (rangeToRowKey r) fl').evs ⊆ evs →
      StructFrom fig cols dyn row evs (structField r label (contentExtractBrief contentTxt))

theorem StructFrom.mono {fig : Str} {cols : Cols} {dyn : Bool} {row : Node} {evs evs' : List Ev} {f : StructField}
    (h : StructFrom fig cols dyn row evs f) (hs : evs ⊆ evs') : StructFrom fig cols dyn row evs' f := by
  cases h with
  | ellipsis h => exact .ellipsis h
  | special a b c fl r f h0 h1 h2 h3 h4 h5 => exact .special a b c fl r f h0 h1 (h2.trans hs) h3 h4 h5
  | normal a b c fl fl' r label h0 h1 h2 h3 h4 h5 h6 h7 =>
    exact .normal a b c fl fl' r label h0 h1 h2 h3 h4 (h5.trans hs) h6 (h7.trans hs)

theorem StructFrom.src {fig : Str} {cols : Cols} {dyn : Bool} {row : Node} {evs : List Ev} {f : StructField}
    (h : StructFrom fig cols dyn row evs f) : StructSrc fig evs f := by
  cases h with
  | ellipsis h => exact .ellipsisRow
  | special a b c fl r f h0 h1 h2 h3 h4 h5 => exact .special a b fl r f h1 h2 h5
  | normal a b c fl fl' r label h0 h1 h2 h3 h4 h5 h6 h7 =>
    exact .normal dyn cols a b c fl fl' r label h1 h2 h3 h4 h5 h6 h7

/-- How a field comes from a data row of a value figure, with the diagnostics among `evs`. -/
inductive ValueFrom (ov : List ((Str × Str) × Str)) (fig : Str) (cols : Cols) (row : Node) (evs : List Ev) : ValueField → Prop where
  | ellipsis (h : startsWith (lower row.toText) ELLIPSIS = true ∨
        ∃ rowVal, row.nthChild tTd (cols.key + 1) = some rowVal ∧ lower rowVal.toText = ELLIPSIS) :
      ValueFrom ov fig cols row evs ⟨ELLIPSIS, ELLIPSIS, none⟩
  | normal (rowVal rowData : Node) (fl : Bool) (label : Str) :
      row.nthChild tTd (cols.key + 1) = some rowVal → row.nthChild tTd (cols.content + 1) = some rowData →
      (valueLabel ov fig cols row (lower rowVal.toText) rowData fl).out = .ok label →
      (valueLabel ov fig cols row (lower rowVal.toText) rowData fl).evs ⊆ evs →
      ValueFrom ov fig cols row evs ⟨lower rowVal.toText, label, contentExtractBrief rowData.toText⟩

theorem ValueFrom.mono {ov : List ((Str × Str) × Str)} {fig : Str} {cols : Cols} {row : Node} {evs evs' : List Ev}
    {f : ValueField} (h : ValueFrom ov fig cols row evs f) (hs : evs ⊆ evs') : ValueFrom ov fig cols row evs' f := by
  cases h with
  | ellipsis h => exact .ellipsis h
  | normal a b fl label h1 h2 h3 h4 => exact .normal a b fl label h1 h2 h3 (h4.trans hs)

/-- Rows with their fields, if they have one. -/
abbrev Outcomes (α : Type) : Type := List (Row × Option α)

/-- The fields `fs` come, in order, from the rows, each from a different one: `S pre r f` for the field `f` of the row `r`, with
the rows `pre` before it. Rows without a field are header rows or satisfy `Skip`; rows are only ignored after one which satisfies
`Stop`. -/
def RowsGive {α : Type} (rows : List Row) (S : List Row → Row → α → Prop) (Skip Stop : Row → Prop) (fs : List α) : Prop :=
  ∃ (outs : Outcomes α) (rest : List Row), rows = outs.map (·.1) ++ rest ∧ fs = outs.filterMap (·.2) ∧
    (∀ pre r f post, outs = pre ++ (r, some f) :: post → containsTh r.node = false ∧ S (pre.map (·.1)) r f) ∧
    (∀ r, (r, none) ∈ outs → containsTh r.node = true ∨ Skip r) ∧
    (rest = [] ∨ ∃ r rs, rest = r :: rs ∧ containsTh r.node = false ∧ Stop r)

omit [Uni] in
/-- the row a field comes from -/
theorem RowsGive.mem_pre {α : Type} {rows : List Row} {S : List Row → Row → α → Prop} {Skip Stop : Row → Prop} {fs : List α}
    (h : RowsGive rows S Skip Stop fs) {f : α} (hf : f ∈ fs) :
    ∃ pre r post, rows = pre ++ r :: post ∧ containsTh r.node = false ∧ S pre r f := by
  obtain ⟨outs, rest, h1, h2, h3, -, -⟩ := h
  rw [h2] at hf
  obtain ⟨⟨r, o⟩, hmem, ho⟩ := List.mem_filterMap.mp hf
  simp only at ho
  subst ho
  obtain ⟨pre, post, ho⟩ := List.append_of_mem hmem
  exact ⟨pre.map (·.1), r, post.map (·.1) ++ rest, by rw [h1, ho]; simp, h3 pre r f post ho⟩

omit [Uni] in
theorem RowsGive.nil {α : Type} {S : List Row → Row → α → Prop} {Skip Stop : Row → Prop} : RowsGive [] S Skip Stop [] :=
  ⟨[], [], rfl, rfl, by simp, by simp, .inl rfl⟩

omit [Uni] in
theorem RowsGive.stop {α : Type} {S : List Row → Row → α → Prop} {Skip Stop : Row → Prop} {r : Row} {rows : List Row}
    (hth : containsTh r.node = false) (h : Stop r) : RowsGive (r :: rows) S Skip Stop [] :=
  ⟨[], r :: rows, rfl, rfl, by simp, by simp, .inr ⟨r, rows, rfl, hth, h⟩⟩

omit [Uni] in
theorem RowsGive.skip {α : Type} {S S' : List Row → Row → α → Prop} {Skip Stop : Row → Prop} {r : Row} {rows : List Row}
    {fs : List α} (hs : containsTh r.node = true ∨ Skip r) (h : RowsGive rows S Skip Stop fs)
    (hS : ∀ pre r' f, S pre r' f → S' (r :: pre) r' f) : RowsGive (r :: rows) S' Skip Stop fs := by
  obtain ⟨outs, rest, h1, h2, h3, h4, h5⟩ := h
  refine ⟨(r, none) :: outs, rest, by simp [h1], by simp [h2], ?_, ?_, h5⟩
  · intro pre r' f post h
    cases pre with
    | nil => simp at h
    | cons q pre =>
      rw [List.cons_append, List.cons.injEq] at h
      obtain ⟨rfl, h⟩ := h
      exact ⟨(h3 pre r' f post h).1, hS _ _ _ (h3 pre r' f post h).2⟩
  · intro r' h
    simp only [List.mem_cons, Prod.mk.injEq, and_true] at h
    rcases h with rfl | h
    · exact hs
    · exact h4 r' h

omit [Uni] in
theorem RowsGive.field {α : Type} {S S' : List Row → Row → α → Prop} {Skip Stop : Row → Prop} {r : Row} {rows : List Row}
    {fs : List α} {f : α} (hth : containsTh r.node = false) (hf : S' [] r f) (h : RowsGive rows S Skip Stop fs)
    (hS : ∀ pre r' f, S pre r' f → S' (r :: pre) r' f) : RowsGive (r :: rows) S' Skip Stop (f :: fs) := by
  obtain ⟨outs, rest, h1, h2, h3, h4, h5⟩ := h
  refine ⟨(r, some f) :: outs, rest, by simp [h1], by simp [h2], ?_, ?_, h5⟩
  · intro pre r' f' post h
    cases pre with
    | nil =>
      rw [List.nil_append, List.cons.injEq, Prod.mk.injEq, Option.some.injEq] at h
      obtain ⟨⟨rfl, rfl⟩, -⟩ := h
      exact ⟨hth, hf⟩
    | cons q pre =>
      rw [List.cons_append, List.cons.injEq] at h
      obtain ⟨rfl, h⟩ := h
      exact ⟨(h3 pre r' f' post h).1, hS _ _ _ (h3 pre r' f' post h).2⟩
  · intro r' h
    simp only [List.mem_cons, Prod.mk.injEq, reduceCtorEq, and_false, false_or] at h
    exact h4 r' h

/-- a row of a struct figure without a field -/
def StructSkip (h : ErrHandler) (cols : Cols) (row : Row) : Prop :=
  ((∃ e, extractFields cols row.node = .error e) ∧ rowErrHandler h row = .cont) ∨
  ∃ rangeTxt contentTxt labelTxt, extractFields cols row.node = .ok (rangeTxt, contentTxt, labelTxt) ∧
    (isSpecialCase rangeTxt = true ∨ (isSpecialCase labelTxt || isSpecialCase contentTxt) = true ∧
      ∃ r, handleSpecialCase contentTxt r = none)

/-- a row of a struct figure which ends it -/
def StructStop (h : ErrHandler) (cols : Cols) (row : Row) : Prop :=
  (∃ e, extractFields cols row.node = .error e) ∧ startsWith (lower row.node.toText) ELLIPSIS = false ∧
  (startsWith (lower row.node.toText) c!"note" = true ∨ ∃ x, rowErrHandler h row = .stop x)

/-- a row of a value figure without a field -/
def ValueSkip (cols : Cols) (row : Row) : Prop :=
  (row.node.nthChild tTd (cols.key + 1) = none ∨ row.node.nthChild tTd (cols.content + 1) = none) ∧
  startsWith (lower row.node.toText) ELLIPSIS = false ∧ startsWith (lower row.node.toText) c!"notes:" = false

/-- a row of a value figure which ends it -/
def ValueStop (cols : Cols) (row : Row) : Prop :=
  (row.node.nthChild tTd (cols.key + 1) = none ∨ row.node.nthChild tTd (cols.content + 1) = none) ∧
  startsWith (lower row.node.toText) ELLIPSIS = false ∧ startsWith (lower row.node.toText) c!"notes:" = true

/-- the extractor and the columns used for a table -/
def Selected (env : Env) (m : EntityMeta) (tbl : Node) (c : Cls) (cols : Cols) : Prop :=
  ∃ mapping, mkCols (columnNames tbl) mapping = .ok cols ∧
    (env.overrides.lookup m.figId = none ∧ firstApplicable extractors (columnNames tbl) = some (c, mapping) ∨
     env.overrides.lookup m.figId = some c ∧ c.canApply (columnNames tbl) = some mapping)

/-- the diagnostic for a figure which could not be processed -/
def failLint (m : EntityMeta) : Ev :=
  .lint (issue .tblParseErr m.figId none (match m.title with | some t => [(c!"title", .str t)] | none => []))

/-- the report of a failure in figure `m`, unless it was reported before -/
def failReport (m : EntityMeta) : Option Str → List Ev
  | none => [failLint m]
  | some _ => []

/-- how a figure `m` ends after a failure -/
def failEnd (env : Env) (m : EntityMeta) (e : Exn) (culprit : Option Str) : End :=
  if m.parent.isSome || !env.skip then .raised e (some (culprit.getD m.figId)) else .swallowed (culprit.getD m.figId)

/-- the exceptions which rows can raise themselves -/
def RowExn (e : Exn) : Prop := e = .xpathNotFound ∨ e = .labelExtraction ∨ e = .valueError

/-- meta data of figures -/
def MetaOk (m : EntityMeta) : Prop := m.figId ≠ [] ∧ (m.parent.isSome = true → '_' ∈ m.figId)

/-- meta data of a figure nested in the row with this key of the figure `m` -/
def nestedMeta (m : EntityMeta) (key : Str) : EntityMeta := ⟨none, m.figId ++ '_' :: key, some m.figId⟩

/-- whether rows or a whole figure are described -/
inductive Phase where
  | rows | fig

/-- The possible outputs of the rows of a table, and of a figure. -/
inductive Trace (env : Env) : Phase → EntityMeta → Node → List Ev → End → Prop where
  /-- nothing happens -/
  | nil (m tbl) : Trace env .rows m tbl [] .done
  /-- a row raises an exception -/
  | raise (m tbl) (e : Exn) : RowExn e → Trace env .rows m tbl [] (.raised e none)
  /-- a diagnostic for a row -/
  | lint (m tbl) (err : LintErr) (key : Str) (ctx : List (Str × Json)) : err ∈ ownCodes → err ≠ .tblParseErr → err ≠ .tblSkipped →
      Trace env .rows m tbl [.lint (issue err m.figId (some key) ctx)] .done
  /-- a nested figure -/
  | nested (m tbl) (key : Str) (row : Row) (td t : Node) (evs : List Ev) (s : End) : row ∈ (rowIter tbl).1 →
      td ∈ row.node.childs tTd → t ∈ td.childs tTable → evs = (parseFigure env (nestedMeta m key) t false).evs →
      Trace env .fig (nestedMeta m key) t evs s → Trace env .rows m tbl evs s
  /-- one thing after another -/
  | app (m tbl a b s) : Trace env .rows m tbl a .done → Trace env .rows m tbl b s → Trace env .rows m tbl (a ++ b) s
  /-- no extractor for the columns of the table -/
  | skipped (m tbl) : env.overrides.lookup m.figId = none → chosen (columnNames tbl) = none →
      Trace env .fig m tbl (headerIssues m.figId tbl ++
        [.lint (issue .tblSkipped m.figId none [(c!"columns", .arr ((columnNames tbl).map .str))])]) .done
  /-- the extractor required for the figure does not accept the columns of the table -/
  | mismatch (m tbl) (c : Cls) : env.overrides.lookup m.figId = some c → c.canApply (columnNames tbl) = none →
      Trace env .fig m tbl (headerIssues m.figId tbl) (.raised .runtimeError none)
  /-- a struct figure -/
  | struct (m tbl) (c : StructCls) (cols : Cols) (evs : List Ev) (fs : List StructField) : Selected env m tbl (.struct c) cols →
      Trace env .rows m tbl evs .done → RowsGive (rowIter tbl).1 (fun pre r f => StructFrom m.figId cols (pre.any startsList) r.node evs f) (StructSkip c.handler cols) (StructStop c.handler cols) fs →
      Trace env .fig m tbl (headerIssues m.figId tbl ++ (evs ++ (structEvs m.figId (layoutOrder c.ty fs) ++
        [.ent ⟨m, .struct c.ty (layoutOrder c.ty fs)⟩]))) .done
  /-- a value figure -/
  | value (m tbl) (cols : Cols) (evs : List Ev) (fs : List ValueField) : Selected env m tbl .value cols →
      Trace env .rows m tbl evs .done → RowsGive (rowIter tbl).1 (fun _ r f => ValueFrom env.labelOverrides m.figId cols r.node evs f) (ValueSkip cols) (ValueStop cols) fs →
      Trace env .fig m tbl (headerIssues m.figId tbl ++ (evs ++ (valuesEvs m.figId fs ++ [.ent ⟨m, .values fs⟩]))) .done
  /-- a struct figure with a further figure in its last rows -/
  | split (m tbl) (c : StructCls) (pre newId : Str) (title : Option Str) (row : Row) (a b : List Ev) (s : End) :
      env.overrides.lookup m.figId = some (.struct c) → c.handler = .split pre newId → m.parent = none →
      row ∈ (rowIter tbl).1 → Trace env .fig m tbl a .done → (∃ ty fs, (Ev.ent ⟨m, .struct ty fs⟩) ∈ a) →
      b = (parseFigure env ⟨title, newId, none⟩ (.elem tTable [] row.following) false).evs →
      Trace env .fig ⟨title, newId, none⟩ (.elem tTable [] row.following) b s → (∀ e c, s ≠ .raised e c) →
      Trace env .fig m tbl (a ++ b) s
  /-- the same, the further figure fails -/
  | splitFailed (m tbl) (c : StructCls) (pre newId : Str) (title : Option Str) (row : Row) (a b : List Ev) (e : Exn)
      (cul : Option Str) :
      env.overrides.lookup m.figId = some (.struct c) → c.handler = .split pre newId → m.parent = none →
      row ∈ (rowIter tbl).1 → Trace env .fig m tbl a .done → (∃ ty fs, (Ev.ent ⟨m, .struct ty fs⟩) ∈ a) →
      b = (parseFigure env ⟨title, newId, none⟩ (.elem tTable [] row.following) false).evs →
      Trace env .fig ⟨title, newId, none⟩ (.elem tTable [] row.following) b (.raised e cul) →
      Trace env .fig m tbl (a ++ b ++ failReport m cul) (failEnd env m e cul)
  /-- a row, or a figure nested in it, raises an exception -/
  | failed (m tbl) (evs : List Ev) (e : Exn) (cul : Option Str) : Trace env .rows m tbl evs (.raised e cul) →
      Trace env .fig m tbl (headerIssues m.figId tbl ++ (evs ++ failReport m cul)) (failEnd env m e cul)

/-- only figures which are not nested ignore exceptions -/
theorem Trace.swallowed_top {env : Env} {p : Phase} {m : EntityMeta} {tbl : Node} {evs : List Ev} {s : End}
    (h : Trace env p m tbl evs s) (c : Str) (hs : s = .swallowed c) : env.skip = true ∧ (p = .fig → m.parent = none) := by
  induction h with
  | nil => simp at hs
  | raise => simp at hs
  | lint => simp at hs
  | nested m tbl key row td t evs s h1 h2 h3 h3' h4 ih => exact absurd ((ih hs).2 rfl) (by simp [nestedMeta])
  | app m tbl a b s h1 h2 ih1 ih2 => exact ⟨(ih2 hs).1, by simp⟩
  | skipped => simp at hs
  | mismatch => simp at hs
  | struct => simp at hs
  | value => simp at hs
  | split m tbl c pre newId title row a b s h1 h2 h3 h4 h5 h6 h6' h7 h8 ih1 ih2 => exact ⟨(ih2 hs).1, fun _ => h3⟩
  | splitFailed m tbl c pre newId title row a b e cul h1 h2 h3 =>
    unfold failEnd at hs
    split at hs
    · simp at hs
    · rename_i hc
      simp only [Bool.or_eq_true, not_or, Bool.not_eq_true, Bool.not_eq_false'] at hc
      exact ⟨hc.2, fun _ => h3⟩
  | failed m tbl evs e cul h ih =>
    unfold failEnd at hs
    split at hs
    · simp at hs
    · rename_i hc
      simp only [Bool.or_eq_true, not_or, Bool.not_eq_true, Bool.not_eq_false'] at hc
      exact ⟨hc.2, fun _ => by simpa using hc.1⟩

/-! ### refinement -/

/-- a run of a figure refines the specification -/
def FigOk (env : Env) (m : EntityMeta) (tbl : Node) (r : Res Unit) : Prop :=
  (r.out = .ok () ∧ r.flag = false ∧ Trace env .fig m tbl r.evs .done) ∨
  (∃ c, r.out = .ok () ∧ r.flag = true ∧ Trace env .fig m tbl r.evs (.swallowed c)) ∨
  (∃ e c, r.out = .error e ∧ r.flag = c.isSome ∧ Trace env .fig m tbl r.evs (.raised e c))

/-- a computation which is part of the rows of a figure refines the specification, if it starts without the flag -/
def RowsOk {α : Type} (env : Env) (m : EntityMeta) (tbl : Node) (Q : α → List Ev → Prop) (x : M α) : Prop :=
  (∃ a, (x false).out = .ok a ∧ (x false).flag = false ∧ Trace env .rows m tbl (x false).evs .done ∧ Q a (x false).evs) ∨
  (∃ e c, (x false).out = .error e ∧ (x false).flag = c.isSome ∧ Trace env .rows m tbl (x false).evs (.raised e c))

namespace RowsOk
variable {α β : Type} {env : Env} {m : EntityMeta} {tbl : Node} {Q : α → List Ev → Prop} {Q' : β → List Ev → Prop}

theorem pure {a : α} (h : Q a []) : RowsOk env m tbl Q (Pure.pure a : M α) :=
  .inl ⟨a, rfl, rfl, .nil m tbl, h⟩

theorem raise {e : Exn} (h : RowExn e) : RowsOk env m tbl Q (M.raise e : M α) :=
  .inr ⟨e, none, rfl, rfl, .raise m tbl e h⟩

theorem ofExcept {x : Except Exn α} (h1 : ∀ a, x = .ok a → Q a []) (h2 : ∀ e, x = .error e → RowExn e) :
    RowsOk env m tbl Q (M.ofExcept x) := by
  cases x with
  | ok a => exact .inl ⟨a, rfl, rfl, .nil m tbl, h1 a rfl⟩
  | error e => exact .inr ⟨e, none, rfl, rfl, .raise m tbl e (h2 e rfl)⟩

theorem bind {x : M α} {k : α → M β} (hx : RowsOk env m tbl Q x)
    (hk : ∀ a e0, Q a e0 → RowsOk env m tbl (fun b e1 => Q' b (e0 ++ e1)) (k a)) : RowsOk env m tbl Q' (x >>= k) := by
  rcases hx with ⟨a, h1, h2, h3, h4⟩ | ⟨e, c, h1, h2, h3⟩
  · unfold RowsOk
    rw [M.bind_ok h1, h2]
    rcases hk a _ h4 with ⟨b, k1, k2, k3, k4⟩ | ⟨e, c, k1, k2, k3⟩
    · exact .inl ⟨b, k1, k2, .app m tbl _ _ _ h3 k3, k4⟩
    · exact .inr ⟨e, c, k1, k2, .app m tbl _ _ _ h3 k3⟩
  · unfold RowsOk
    rw [M.bind_err h1]
    exact .inr ⟨e, c, rfl, h2, h3⟩

theorem weaken {x : M α} {Q₂ : α → List Ev → Prop} (h : RowsOk env m tbl Q x) (hq : ∀ a e, Q a e → Q₂ a e) :
    RowsOk env m tbl Q₂ x :=
  h.imp (fun ⟨a, h1, h2, h3, h4⟩ => ⟨a, h1, h2, h3, hq a _ h4⟩) id

theorem ite {c : Prop} [Decidable c] {x y : M α} (h1 : c → RowsOk env m tbl Q x) (h2 : ¬ c → RowsOk env m tbl Q y) :
    RowsOk env m tbl Q (if c then x else y) := by
  split
  · exact h1 ‹_›
  · exact h2 ‹_›

/-- computations which only report diagnostics on rows -/
theorem ofSat {x : M α} {Q0 : α → Prop} {R : Exn → Prop} (h : Sat (RowLint m.figId) Q0 R x) (hR : ∀ e, R e → RowExn e) :
    RowsOk env m tbl (fun a e => (x false).out = .ok a ∧ (x false).evs = e) x := by
  obtain ⟨h1, h2, h3, h4⟩ := h false
  have ht : Trace env .rows m tbl (x false).evs .done := by
    generalize (x false).evs = l at h1
    induction l with
    | nil => exact .nil m tbl
    | cons e l ih =>
      obtain ⟨err, key, ctx, he, k1, k2, k3⟩ := h1 e (List.mem_cons_self ..)
      rw [he]
      exact .app m tbl [_] l _ (.lint m tbl err key ctx k1 k2 k3) (ih (fun x hx => h1 x (List.mem_cons_of_mem _ hx)))
  cases ho : (x false).out with
  | ok a => exact .inl ⟨a, ho, h4, ht, rfl, rfl⟩
  | error e =>
    refine .inr ⟨e, none, ho, h4, ?_⟩
    have := Trace.app m tbl _ [] _ ht (.raise m tbl e (hR e (h3 e ho)))
    rwa [List.append_nil] at this
end RowsOk

/-- the recursive occurrence, on tables smaller than `N` -/
def ParseOk (env : Env) (N : Nat) (parse : ParseFn) : Prop :=
  ∀ m t f, t.size < N → MetaOk m → FigOk env m t (parse m t f) ∧ (parse m t f).evs = (parseFigure env m t false).evs

omit [Uni] in
theorem metaOk_nested (m : EntityMeta) (key : Str) : MetaOk (nestedMeta m key) := by
  refine ⟨?_, ?_⟩ <;> simp [nestedMeta]

omit [Uni] in
theorem extractFields_err {cols : Cols} {row : Node} {e : Exn} (h : extractFields cols row = .error e) : e = .xpathNotFound := by
  unfold extractFields at h
  have hreq : ∀ (o : Option Node) (e : Exn), req o = .error e → e = .xpathNotFound := by
    intro o e h
    unfold req at h
    split at h
    · simp at h
    · simp only [Except.error.injEq] at h
      exact h.symm
  cases h1 : req (row.nthChild tTd (cols.key + 1)) with
  | error e1 =>
    rw [h1] at h
    simp only [bind, Except.bind, Except.error.injEq] at h
    exact h ▸ hreq _ _ h1
  | ok a =>
    cases h2 : req (row.nthChild tTd (cols.content + 1)) with
    | error e1 =>
      rw [h1, h2] at h
      simp only [bind, Except.bind, Except.error.injEq] at h
      exact h ▸ hreq _ _ h2
    | ok b =>
      cases h3 : req ((row.nthChild tTd (cols.label + 1)).bind (·.nthChild tP 1)) with
      | error e1 =>
        rw [h1, h2, h3] at h
        simp only [bind, Except.bind, Except.error.injEq] at h
        exact h ▸ hreq _ _ h3
      | ok c =>
        rw [h1, h2, h3] at h
        simp [bind, Except.bind, pure, Except.pure] at h

theorem rowIter_err (tbl : Node) (e : Exn) (h : (rowIter tbl).2 = some e) : e = .valueError := by
  have hspan : ∀ name td e, spanAttr name td = .error e → e = .valueError := by
    intro name td e h
    unfold spanAttr at h
    split at h
    · simp at h
    · exact pyInt_err _ _ h
  have hemit : ∀ (alst : List Pend) off e, emitPending off alst = .error e → e = .valueError := by
    intro alst
    induction alst with
    | nil => intro off e h; simp [emitPending] at h
    | cons p rest ih =>
      intro off e h
      simp only [emitPending] at h
      split at h
      · split at h
        · rename_i hh
          simp only [Except.error.injEq] at h
          exact h ▸ hspan _ _ _ hh
        · split at h
          · rename_i hh
            simp only [Except.error.injEq] at h
            exact h ▸ ih _ _ hh
          · simp at h
      · simp at h
  have hsorted : ∀ (tds : List Node) off (alst : List Pend) e, sortedRowChildren off tds alst = .error e → e = .valueError := by
    intro tds
    induction tds with
    | nil => intro off alst e h; unfold sortedRowChildren at h; split at h <;> simp at h
    | cons td tds ih =>
      intro off alst e h
      simp only [sortedRowChildren] at h
      split at h
      · rename_i hh
        simp only [Except.error.injEq] at h
        exact h ▸ hemit _ _ _ hh
      · split at h
        · rename_i hh
          simp only [Except.error.injEq] at h
          exact h ▸ hspan _ _ _ hh
        · split at h
          · rename_i hh
            simp only [Except.error.injEq] at h
            exact h ▸ ih _ _ _ hh
          · simp at h
  have hstore : ∀ (tds : List Node) off (alst : List Pend) e, storeSpans off tds alst = .error e → e = .valueError := by
    intro tds
    induction tds with
    | nil => intro off alst e h; simp [storeSpans] at h
    | cons td tds ih =>
      intro off alst e h
      simp only [storeSpans] at h
      split at h
      · rename_i hh
        simp only [Except.error.injEq] at h
        exact h ▸ hspan _ _ _ hh
      · split at h
        · rename_i hh
          simp only [Except.error.injEq] at h
          exact h ▸ hspan _ _ _ hh
        · exact ih _ _ _ h
  have key : ∀ (rows : List Row) (alst : List Pend) e, (rowIterGo alst rows).2 = some e → e = .valueError := by
    intro rows
    induction rows with
    | nil => intro alst e h; simp [rowIterGo] at h
    | cons r rows ih =>
      intro alst e h
      simp only [rowIterGo] at h
      split at h
      · exact ih _ _ h
      · split at h
        · rename_i hh
          simp only [Option.some.injEq] at h
          subst h
          unfold rebuildRow at hh
          split at hh
          · simp at hh
          · split at hh
            · rename_i hs
              simp only [Except.error.injEq] at hh
              exact hh ▸ hsorted _ _ _ _ hs
            · simp at hh
        · split at h
          · rename_i hh
            simp only [Option.some.injEq] at h
            exact h ▸ hstore _ _ _ _ hh
          · exact ih _ _ h
  exact key _ _ e h

theorem rowIter_exn (tbl : Node) (e : Exn) (h : (rowIter tbl).2 = some e) : RowExn e := .inr (.inr (rowIter_err tbl e h))

section
variable {env : Env} {m : EntityMeta} (hm : MetaOk m) {tbl : Node} {parse : ParseFn} (hp : ParseOk env tbl.size parse)
include hm hp

omit hm in
theorem rowsOk_subTables (key : Str) {row : Row} (hr : row ∈ (rowIter tbl).1) {td : Node} (htd : td ∈ row.node.childs tTd)
    (ts : List Node) (hts : ∀ t ∈ ts, t ∈ td.childs tTable) :
    RowsOk env m tbl (fun _ _ => True) (subTables parse ⟨none, m.figId ++ '_' :: key, some m.figId⟩ ts) := by
  induction ts with
  | nil => exact .pure trivial
  | cons t ts ih =>
    refine RowsOk.bind (Q := fun _ _ => True) ?_ (fun _ _ _ => (ih (fun x hx => hts x (List.mem_cons_of_mem _ hx))).weaken
      (fun _ _ _ => trivial))
    have ht := hts t (List.mem_cons_self ..)
    obtain ⟨hfig, hrun⟩ := hp (nestedMeta m key) t false (nested_smaller hr htd ht) (metaOk_nested m key)
    rcases hfig with
      ⟨h1, h2, h3⟩ | ⟨c, h1, h2, h3⟩ | ⟨e, c, h1, h2, h3⟩
    · exact .inl ⟨(), h1, h2, .nested m tbl key row td t _ _ hr htd ht hrun h3, trivial⟩
    · exact absurd ((h3.swallowed_top c rfl).2 rfl) (by simp [nestedMeta])
    · exact .inr ⟨e, c, h1, h2, .nested m tbl key row td t _ _ hr htd ht hrun h3⟩

theorem rowsOk_structRow (h : ErrHandler) (cols : Cols) (dyn : Bool) (row : Row) (hr : row ∈ (rowIter tbl).1) :
    RowsOk env m tbl (fun o e => (∀ x, o = .field x → StructFrom m.figId cols dyn row.node e x) ∧
        (o = .skip → StructSkip h cols row) ∧ (∀ x, o = .stop x → StructStop h cols row) ∧
        ∀ x, o = .stop (some x) → ∃ pre newId title, h = .split pre newId ∧ x = (⟨title, newId, none⟩, .elem tTable [] row.following))
      (structRow parse m.figId h cols dyn row) := by
  unfold structRow
  split
  · rename_i e he
    have hxe : RowExn e := by
      left
      exact extractFields_err he
    refine RowsOk.ite (fun hs => RowsOk.pure ⟨?_, by simp, by simp, by simp⟩) (fun hell => RowsOk.ite (fun hnote => RowsOk.pure
      ⟨by simp, by simp, fun _ _ => ⟨⟨e, he⟩, by simpa using hell, .inl hnote⟩, by simp⟩) (fun _ => ?_))
    · intro x hx
      simp only [RowOut.field.injEq] at hx
      rw [← hx]
      exact .ellipsis hs
    · split
      · rename_i hx
        refine RowsOk.pure ⟨by simp, by simp, fun _ _ => ⟨⟨e, he⟩, by simpa using hell, .inr ⟨_, hx⟩⟩, ?_⟩
        intro x he
        simp only [RowOut.stop.injEq] at he
        subst he
        unfold rowErrHandler at hx
        split at hx
        · split at hx <;> simp at hx
        · split at hx <;> simp at hx
        · split at hx
          · simp at hx
          · simp only [RowErrPolicy.stop.injEq, Option.some.injEq] at hx
            exact ⟨_, _, _, rfl, hx.symm⟩
      · exact RowsOk.raise hxe
      · rename_i hx
        exact RowsOk.pure ⟨by simp, fun _ => .inl ⟨⟨e, he⟩, hx⟩, by simp, by simp⟩
  · rename_i rangeF contentF labelF hex
    refine RowsOk.ite (fun hsp => RowsOk.ite (fun hs => RowsOk.pure ⟨by simp, fun _ => .inr ⟨_, _, _, hex, .inl hs⟩, by simp,
      by simp⟩) (fun hs => ?_)) (fun hsp => ?_)
    · refine RowsOk.bind (RowsOk.ofSat (sat_parseRange hm.1 rangeF rangeF) (fun e h => .inr (.inr h))) (fun r e0 hr => ?_)
      obtain ⟨ho, he⟩ := hr
      split
      · rename_i f hf
        refine RowsOk.pure ⟨?_, by simp, by simp, by simp⟩
        intro x hx
        simp only [RowOut.field.injEq] at hx
        subst hx
        exact .special rangeF contentF labelF false r _ hex ho (by rw [he]; simp) (by simpa using hs)
          (by simpa [hs] using hsp) hf
      · rename_i hnone
        refine RowsOk.pure ⟨by simp, fun _ => .inr ⟨_, _, _, hex, .inr ⟨?_, r, hnone⟩⟩, by simp, by simp⟩
        simpa [hs] using hsp
    · simp only [Bool.or_eq_true, not_or, Bool.not_eq_true] at hsp
      refine RowsOk.bind (RowsOk.ofSat (sat_rowRange hm.1 dyn rangeF) (fun e h => .inr (.inr h))) (fun r e0 hr => ?_)
      obtain ⟨ho, he⟩ := hr
      refine RowsOk.bind (RowsOk.ofSat (sat_parseLabel hm.1 cols labelF _) (fun e h => h.elim)) (fun label e1 hl => ?_)
      obtain ⟨ho', he'⟩ := hl
      refine RowsOk.bind (Q := fun c _ => c ∈ row.node.childs tTd) (RowsOk.ofExcept ?_ ?_) (fun content e2 hcont => ?_)
      · intro a ha
        unfold req at ha
        split at ha
        · rename_i hn
          simp only [Except.ok.injEq] at ha
          exact ha ▸ nthChild_mem hn
        · simp at ha
      · intro e he
        unfold req at he
        split at he
        · simp at he
        · simp only [Except.error.injEq] at he
          exact .inl he.symm
      · refine RowsOk.bind (Q := fun _ _ => True) (rowsOk_subTables hp _ ‹_› hcont _ (fun t h => h)) (fun _ e3 _ => ?_)
        refine RowsOk.pure ⟨?_, by simp, by simp, by simp⟩
        intro x hx
        simp only [RowOut.field.injEq] at hx
        subst hx
        refine .normal rangeF contentF labelF false false r label hex hsp.1.1 hsp.1.2 hsp.2 ho ?_ ho' ?_
        · rw [he]; simp
        · rw [he']
          intro x hx
          simp [hx]

theorem rowsOk_structRows (h : ErrHandler) (cols : Cols) (err : Option Exn) (herr : ∀ e, err = some e → RowExn e) (rows : List Row)
    (hr : ∀ row ∈ rows, row ∈ (rowIter tbl).1) (dyn : Bool) :
    RowsOk env m tbl (fun o e => RowsGive rows (fun pre r f => StructFrom m.figId cols (dyn || pre.any startsList) r.node e f) (StructSkip h cols) (StructStop h cols)
          o.1 ∧
        ∀ x, o.2 = some x → ∃ row ∈ rows, ∃ pre newId title, h = .split pre newId ∧
          x = (⟨title, newId, none⟩, .elem tTable [] row.following))
      (structRows parse m.figId h cols err dyn rows) := by
  induction rows generalizing dyn with
  | nil =>
    unfold structRows
    split
    · exact RowsOk.pure ⟨.nil, by simp⟩
    · exact RowsOk.raise (herr _ rfl)
  | cons row rows ih =>
    have ih := fun dyn => ih (fun r h => hr r (List.mem_cons_of_mem _ h)) dyn
    have hup : ∀ x, (∃ r ∈ rows, ∃ pre newId title, h = .split pre newId ∧ x = (⟨title, newId, none⟩, Node.elem tTable [] r.following)) →
        ∃ r ∈ row :: rows, ∃ pre newId title, h = .split pre newId ∧
          x = ((⟨title, newId, none⟩ : EntityMeta), Node.elem tTable [] r.following) := by
      rintro x ⟨r, hr, hh⟩
      exact ⟨r, List.mem_cons_of_mem _ hr, hh⟩
    unfold structRows
    refine RowsOk.ite (fun hth => (ih _).weaken ?_) (fun hth => ?_)
    · rintro a e ⟨h1, h3⟩
      refine ⟨h1.skip (.inl hth) (fun pre r f h => ?_), fun x hx => hup x (h3 x hx)⟩
      simpa [List.any_cons, startsList, hth, Bool.or_assoc] using h
    have hth : containsTh row.node = false := by simpa using hth
    refine RowsOk.bind (rowsOk_structRow hm hp h cols dyn row (hr row (List.mem_cons_self ..))) (fun o e0 ho => ?_)
    split
    · refine RowsOk.pure ⟨.stop hth (ho.2.2.1 _ rfl), ?_⟩
      intro x hx
      simp only at hx
      subst hx
      exact ⟨row, List.mem_cons_self .., ho.2.2.2 x rfl⟩
    · refine (ih _).weaken ?_
      rintro a e ⟨h1, h3⟩
      refine ⟨h1.skip (.inr (ho.2.1 rfl)) (fun pre r f h => ?_), fun x hx => hup x (h3 x hx)⟩
      simpa [List.any_cons, startsList, hth] using h.mono (evs' := e0 ++ e) (by simp)
    · rename_i f
      refine RowsOk.bind (ih _) (fun o' e1 ho' => ?_)
      obtain ⟨h1, h3⟩ := ho'
      refine RowsOk.pure ⟨h1.field hth ?_ (fun pre r f h => ?_), fun x hx => hup x (h3 x hx)⟩
      · simpa using (ho.1 f rfl).mono (evs' := e0 ++ e1) (by simp)
      · simpa [List.any_cons, startsList, hth] using h.mono (evs' := e0 ++ e1) (by simp)

theorem rowsOk_valueRow (cols : Cols) (row : Row) (hr : row ∈ (rowIter tbl).1) :
    RowsOk env m tbl (fun o e => (∀ x, o = .field x → ValueFrom env.labelOverrides m.figId cols row.node e x) ∧
        (o = .skip → ValueSkip cols row) ∧ (∀ x, o = .stop x → ValueStop cols row))
      (valueRow parse env.labelOverrides m.figId cols row) := by
  unfold valueRow
  split
  · rename_i rowVal rowData h1 h2
    refine RowsOk.ite (fun hv => RowsOk.pure ⟨?_, by simp, by simp⟩) (fun _ => ?_)
    · intro x hx
      simp only [RowOut.field.injEq] at hx
      rw [← hx]
      exact .ellipsis (.inr ⟨rowVal, h1, hv⟩)
    · refine RowsOk.bind (RowsOk.ofSat (sat_valueLabel hm.1 _ cols row.node _ rowData) ?_) (fun label e0 hl => ?_)
      · rintro e (h | h)
        · exact .inl h
        · exact .inr (.inl h)
      obtain ⟨ho, he⟩ := hl
      refine RowsOk.bind (Q := fun _ _ => True) (rowsOk_subTables hp _ hr (nthChild_mem h2) _ (fun t h => h)) (fun _ e3 _ => ?_)
      refine RowsOk.pure ⟨?_, by simp, by simp⟩
      intro x hx
      simp only [RowOut.field.injEq] at hx
      subst hx
      exact .normal rowVal rowData false label h1 h2 ho (by rw [he]; simp)
  · rename_i hno
    have hmiss : row.node.nthChild tTd (cols.key + 1) = none ∨ row.node.nthChild tTd (cols.content + 1) = none := by
      cases h1 : row.node.nthChild tTd (cols.key + 1) with
      | none => exact .inl rfl
      | some a =>
        cases h2 : row.node.nthChild tTd (cols.content + 1) with
        | none => exact .inr rfl
        | some b => exact absurd h2 (hno a b h1)
    refine RowsOk.ite (fun hs => RowsOk.pure ⟨?_, by simp, by simp⟩) (fun he => RowsOk.ite (fun hn => RowsOk.pure ⟨by simp, by simp,
      fun _ _ => ⟨hmiss, by simpa using he, hn⟩⟩) (fun hn => RowsOk.pure ⟨by simp, fun _ => ⟨hmiss, by simpa using he,
      by simpa using hn⟩, by simp⟩))
    intro x hx
    simp only [RowOut.field.injEq] at hx
    rw [← hx]
    exact .ellipsis (.inl hs)

theorem rowsOk_valueRows (cols : Cols) (err : Option Exn) (herr : ∀ e, err = some e → RowExn e) (rows : List Row)
    (hr : ∀ row ∈ rows, row ∈ (rowIter tbl).1) :
    RowsOk env m tbl (fun o e => RowsGive rows (fun _ r f => ValueFrom env.labelOverrides m.figId cols r.node e f) (ValueSkip cols)
          (ValueStop cols) o)
      (valueRows parse env.labelOverrides m.figId cols err rows) := by
  induction rows with
  | nil =>
    unfold valueRows
    split
    · exact RowsOk.pure .nil
    · exact RowsOk.raise (herr _ rfl)
  | cons row rows ih =>
    have ih := ih (fun r h => hr r (List.mem_cons_of_mem _ h))
    unfold valueRows
    refine RowsOk.ite (fun hth => ih.weaken (fun a e h => h.skip (.inl hth) (fun _ _ _ h => h))) (fun hth => ?_)
    have hth : containsTh row.node = false := by simpa using hth
    refine RowsOk.bind (rowsOk_valueRow hm hp cols row (hr row (List.mem_cons_self ..))) (fun o e0 ho => ?_)
    split
    · exact RowsOk.pure (.stop hth (ho.2.2 _ rfl))
    · exact ih.weaken (fun a e h => h.skip (.inr (ho.2.1 rfl)) (fun _ _ _ h => h.mono (by simp)))
    · rename_i f
      refine RowsOk.bind ih (fun o' e1 h1 => ?_)
      exact RowsOk.pure (h1.field hth ((ho.1 f rfl).mono (by simp)) (fun _ _ _ h => h.mono (by simp)))

theorem figOk_structCall (hE : EnvOk env) (c : StructCls) (cols : Cols) (hsel : Selected env m tbl (.struct c) cols)
    (hc : ∀ pre newId, c.handler = .split pre newId → env.overrides.lookup m.figId = some (.struct c)) :
    FigOk env m tbl (let r := M.tryCatch (structCall parse c m cols tbl) (onFigError env m) false
      ⟨headerIssues m.figId tbl ++ r.evs, r.flag, r.out⟩) := by
  have hrows := rowsOk_structRows hm hp c.handler cols (rowIter tbl).2 (rowIter_exn tbl) (rowIter tbl).1 (fun r h => h) false
  rw [M.tryCatch_run]
  unfold structCall
  simp only
  rcases hrows with ⟨o, h1, h2, h3, ⟨hsrc, hext⟩⟩ | ⟨e, cul, h1, h2, h3⟩
  · rw [M.bind_ok h1, h2, M.bind_run, validateStruct_run _ hm.1]
    simp only
    rw [M.bind_run, M.yield_run]
    simp only
    have hdone := Trace.struct m tbl c cols _ o.1 hsel h3 hsrc
    obtain ⟨fs, extra⟩ := o
    cases extra with
    | none =>
      simp only [parseExtra, M.pure_run, List.append_nil]
      exact .inl ⟨rfl, rfl, hdone⟩
    | some x =>
      obtain ⟨row, hrow, pre, newId, title, hh, rfl⟩ := hext x rfl
      simp only [parseExtra]
      have hov := hc _ _ hh
      have hE' := hE _ _ _ _ hov hh
      have hpar : m.parent = none := by
        cases hpp : m.parent with
        | none => rfl
        | some p => exact absurd (hm.2 (by simp [hpp])) hE'.2.1
      have hent : ∃ ty fields, (Ev.ent ⟨m, .struct ty fields⟩) ∈ headerIssues m.figId tbl ++
          ((structRows parse m.figId c.handler cols (rowIter tbl).2 false (rowIter tbl).1 false).evs ++
          (structEvs m.figId (layoutOrder c.ty fs) ++ [.ent ⟨m, .struct c.ty (layoutOrder c.ty fs)⟩])) :=
        ⟨c.ty, layoutOrder c.ty fs, by simp⟩
      obtain ⟨hfig, hrun⟩ := hp ⟨title, newId, none⟩ (.elem tTable [] row.following) false (following_smaller hrow) ⟨hE'.1, by simp⟩
      rcases hfig with
        ⟨k1, k2, k3⟩ | ⟨cul, k1, k2, k3⟩ | ⟨e, cul, k1, k2, k3⟩
      · simp only [k1]
        have := Trace.split m tbl c pre newId title row _ _ _ hov hh hpar hrow hdone hent hrun k3 (by simp)
        refine .inl ⟨rfl, k2, ?_⟩
        simp only [List.append_assoc] at this ⊢
        exact this
      · simp only [k1]
        have := Trace.split m tbl c pre newId title row _ _ _ hov hh hpar hrow hdone hent hrun k3 (by simp)
        refine .inr (.inl ⟨cul, rfl, k2, ?_⟩)
        simp only [List.append_assoc] at this ⊢
        exact this
      · simp only [k1, k2]
        have := Trace.splitFailed m tbl c pre newId title row _ _ _ _ hov hh hpar hrow hdone hent hrun k3
        unfold onFigError
        rw [addIssue_none hm.1 (by decide)]
        cases cul <;> by_cases hsk : (m.parent.isSome || !env.skip) = true <;>
          simp only [M.bind_run, M.getFlag_run, M.setFlag_run, M.emit_run, Bool.not_false, Bool.not_true, if_true, hsk,
            Bool.false_eq_true, if_false, M.raise_run, M.pure_run, List.nil_append, List.append_nil, Option.isSome_none,
            Option.isSome_some, failEnd, Option.getD_none, Option.getD_some, failReport, List.append_assoc] at this ⊢
        · exact .inr (.inr ⟨e, some m.figId, rfl, rfl, this⟩)
        · exact .inr (.inl ⟨m.figId, rfl, rfl, this⟩)
        · rename_i cc
          exact .inr (.inr ⟨e, some cc, rfl, rfl, this⟩)
        · rename_i cc
          exact .inr (.inl ⟨cc, rfl, rfl, this⟩)
  · rw [M.bind_err h1, h2]
    simp only
    have := Trace.failed m tbl _ _ _ h3
    unfold onFigError
    rw [addIssue_none hm.1 (by decide)]
    cases cul <;> by_cases hsk : (m.parent.isSome || !env.skip) = true <;>
      simp only [M.bind_run, M.getFlag_run, M.setFlag_run, M.emit_run, Bool.not_false, Bool.not_true, if_true, hsk,
        Bool.false_eq_true, if_false, M.raise_run, M.pure_run, List.nil_append, List.append_nil, Option.isSome_none,
        Option.isSome_some, failEnd, Option.getD_none, Option.getD_some, failReport] at this ⊢
    · exact .inr (.inr ⟨e, some m.figId, rfl, rfl, this⟩)
    · exact .inr (.inl ⟨m.figId, rfl, rfl, this⟩)
    · rename_i cc
      exact .inr (.inr ⟨e, some cc, rfl, rfl, this⟩)
    · rename_i cc
      exact .inr (.inl ⟨cc, rfl, rfl, this⟩)

theorem figOk_valueCall (cols : Cols) (hsel : Selected env m tbl .value cols) :
    FigOk env m tbl (let r := M.tryCatch (valueCall parse env.labelOverrides m cols tbl) (onFigError env m) false
      ⟨headerIssues m.figId tbl ++ r.evs, r.flag, r.out⟩) := by
  have hrows := rowsOk_valueRows hm hp cols (rowIter tbl).2 (rowIter_exn tbl) (rowIter tbl).1 (fun r h => h)
  rw [M.tryCatch_run]
  unfold valueCall
  simp only
  rcases hrows with ⟨o, h1, h2, h3, hsrc⟩ | ⟨e, cul, h1, h2, h3⟩
  · rw [M.bind_ok h1, h2, M.bind_run, validateValues_run _ hm.1]
    simp only
    rw [M.yield_run]
    simp only
    exact .inl ⟨rfl, rfl, Trace.value m tbl cols _ o hsel h3 hsrc⟩
  · rw [M.bind_err h1, h2]
    simp only
    have := Trace.failed m tbl _ _ _ h3
    unfold onFigError
    rw [addIssue_none hm.1 (by decide)]
    cases cul <;> by_cases hsk : (m.parent.isSome || !env.skip) = true <;>
      simp only [M.bind_run, M.getFlag_run, M.setFlag_run, M.emit_run, Bool.not_false, Bool.not_true, if_true, hsk,
        Bool.false_eq_true, if_false, M.raise_run, M.pure_run, List.nil_append, List.append_nil, Option.isSome_none,
        Option.isSome_some, failEnd, Option.getD_none, Option.getD_some, failReport] at this ⊢
    · exact .inr (.inr ⟨e, some m.figId, rfl, rfl, this⟩)
    · exact .inr (.inl ⟨m.figId, rfl, rfl, this⟩)
    · rename_i cc
      exact .inr (.inr ⟨e, some cc, rfl, rfl, this⟩)
    · rename_i cc
      exact .inr (.inl ⟨cc, rfl, rfl, this⟩)
end

omit [Uni] in
theorem mkCols_ok {c : Cls} {hdrs : List Str} {mapping : Mapping} (h : c.canApply hdrs = some mapping) :
    ∃ cols, mkCols hdrs mapping = .ok cols := by
  have hcol : ∀ (hdrs : List Str) (x : Str) (i : Nat), x ∈ hdrs → ∃ j, colNdxGo i hdrs x = some j := by
    intro hdrs x
    induction hdrs with
    | nil => intro i h; simp at h
    | cons y ys ih =>
      intro i h
      simp only [colNdxGo]
      cases hg : colNdxGo (i + 1) ys x with
      | some j => exact ⟨j, rfl⟩
      | none =>
        rcases List.mem_cons.mp h with rfl | h
        · exact ⟨i, by simp⟩
        · obtain ⟨j, hj⟩ := ih (i + 1) h
          rw [hg] at hj
          simp at hj
  have hndx : ∀ (o : Option Str), (∀ x, o = some x → x ∈ hdrs) → o ≠ none → ∃ j, colNdx hdrs o = .ok j := by
    intro o h1 h2
    cases o with
    | none => simp at h2
    | some x =>
      obtain ⟨j, hj⟩ := hcol hdrs x 0 (h1 x rfl)
      exact ⟨j, by simp [colNdx, hj]⟩
  have hfirst : ∀ cands x, firstHdr cands hdrs = some x → x ∈ hdrs := fun cands x h => List.mem_of_find?_eq_some h
  have hmap : mappingIncomplete mapping = false ∧ (∀ x, mapping.key = some x → x ∈ hdrs) ∧
      (∀ x, mapping.label = some x → x ∈ hdrs) ∧ (∀ x, mapping.content = some x → x ∈ hdrs) := by
    have key : mappingIncomplete mapping = false ∧
        ((∃ sc : StructCls, sc.canApply0 hdrs = mapping) ∨ valueCanApply0 hdrs = mapping) := by
      cases c with
      | struct sc =>
        simp only [Cls.canApply, Option.ite_none_left_eq_some, Option.some.injEq, Bool.not_eq_true] at h
        exact ⟨h.2 ▸ h.1, .inl ⟨sc, h.2⟩⟩
      | value =>
        simp only [Cls.canApply, Option.ite_none_left_eq_some, Option.some.injEq, Bool.not_eq_true] at h
        exact ⟨h.2 ▸ h.1, .inr h.2⟩
    refine ⟨key.1, ?_⟩
    rcases key.2 with ⟨sc, h⟩ | h
    · rw [← h]
      exact ⟨hfirst _, hfirst _, hfirst _⟩
    · rw [← h]
      unfold valueCanApply0
      simp only
      split
      · exact ⟨hfirst _, hfirst _, hfirst _⟩
      · split
        · split
          · rename_i x xs hf
            have hk : (x :: xs) ∈ hdrs := List.mem_of_find?_eq_some hf
            exact ⟨hfirst _, fun y hy => by simp only [Option.some.injEq] at hy; exact hy ▸ hk,
              fun y hy => by simp only [Option.some.injEq] at hy; exact hy ▸ hk⟩
          · exact ⟨hfirst _, hfirst _, hfirst _⟩
        · exact ⟨hfirst _, hfirst _, hfirst _⟩
  obtain ⟨h0, h1, h2, h3⟩ := hmap
  unfold mappingIncomplete at h0
  simp only [Bool.or_eq_false_iff, Option.isNone_eq_false_iff] at h0
  obtain ⟨i, hi⟩ := hndx _ h1 (by rw [← Option.isSome_iff_ne_none]; exact h0.1.1)
  obtain ⟨j, hj⟩ := hndx _ h2 (by rw [← Option.isSome_iff_ne_none]; exact h0.1.2)
  obtain ⟨k, hk⟩ := hndx _ h3 (by rw [← Option.isSome_iff_ne_none]; exact h0.2)
  exact ⟨⟨i, j, k⟩, by simp [mkCols, hi, hj, hk, bind, Except.bind, pure, Except.pure]⟩

omit [Uni] in
theorem firstApplicable_some {cs : List Cls} {hdrs : List Str} {c : Cls} {mapping : Mapping}
    (h : firstApplicable cs hdrs = some (c, mapping)) : c ∈ cs ∧ c.canApply hdrs = some mapping := by
  induction cs with
  | nil => simp [firstApplicable] at h
  | cons x xs ih =>
    simp only [firstApplicable] at h
    split at h
    · rename_i hm
      simp only [Option.some.injEq, Prod.mk.injEq] at h
      exact ⟨h.1 ▸ List.mem_cons_self .., by rw [← h.1, ← h.2]; exact hm⟩
    · exact ⟨List.mem_cons_of_mem _ (ih h).1, (ih h).2⟩

theorem figOk_onParseFig {env : Env} (hE : EnvOk env) {m : EntityMeta} (hm : MetaOk m) {tbl : Node} {parse : ParseFn}
    (hp : ParseOk env tbl.size parse) (f : Bool) : FigOk env m tbl (onParseFig env parse m tbl f) := by
  have run : ∀ c mapping, c.canApply (columnNames tbl) = some mapping →
      (env.overrides.lookup m.figId = none ∧ firstApplicable extractors (columnNames tbl) = some (c, mapping) ∨
        env.overrides.lookup m.figId = some c ∧ c.canApply (columnNames tbl) = some mapping) →
      (let r := runExtractor env parse m tbl (columnNames tbl) c mapping false
       FigOk env m tbl ⟨headerIssues m.figId tbl ++ r.evs, r.flag, r.out⟩) := by
    intro c mapping hcan hsel
    obtain ⟨cols, hcols⟩ := mkCols_ok hcan
    have hs : Selected env m tbl c cols := ⟨mapping, hcols, hsel⟩
    simp only
    unfold runExtractor
    rw [hcols, M.ofExcept_ok, pure_bind]
    cases c with
    | value => exact figOk_valueCall hm hp cols hs
    | struct c =>
      refine figOk_structCall hm hp hE c cols hs ?_
      intro pre newId hh
      rcases hsel with ⟨_, h2⟩ | ⟨h1, _⟩
      · have := (firstApplicable_some h2).1
        simp only [extractors, List.mem_cons, Cls.struct.injEq, List.not_mem_nil, or_false, reduceCtorEq, false_or] at this
        rcases this with h | h <;> (subst h; simp [bytesCls, bitsCls] at hh)
      · exact h1
  unfold onParseFig
  rw [M.bind_run, M.setFlag_run]
  simp only
  rw [M.bind_run, C15_headers m.figId tbl hm.1 false]
  simp only [List.nil_append]
  obtain hov | ⟨c, hov⟩ := Option.eq_none_or_eq_some (env.overrides.lookup m.figId)
  · obtain hnone | ⟨⟨c, mapping⟩, hsome⟩ := Option.eq_none_or_eq_some (firstApplicable extractors (columnNames tbl))
    · simp only [hov, hnone]
      rw [addIssue_none hm.1 (by decide)]
      refine .inl ⟨rfl, rfl, ?_⟩
      exact Trace.skipped m tbl hov (by unfold chosen; rw [hnone]; rfl)
    · simp only [hov, hsome]
      exact run c mapping (firstApplicable_some hsome).2 (.inl ⟨hov, hsome⟩)
  · obtain hnone | ⟨mapping, hsome⟩ := Option.eq_none_or_eq_some (c.canApply (columnNames tbl))
    · simp only [hov, hnone]
      refine .inr (.inr ⟨.runtimeError, none, rfl, rfl, ?_⟩)
      rw [M.raise_run, List.append_nil]
      exact Trace.mismatch m tbl c hov hnone
    · simp only [hov, hsome]
      exact run c mapping hsome (.inr ⟨hov, hsome⟩)

/-- Every figure refines the specification, if there is enough fuel. -/
theorem figOk_parseFig {env : Env} (hE : EnvOk env) (n : Nat) (m : EntityMeta) (tbl : Node) (hn : tbl.size ≤ n) (hm : MetaOk m)
    (f : Bool) : FigOk env m tbl (parseFig env n m tbl f) := by
  induction n generalizing m tbl f with
  | zero => have := size_pos tbl; omega
  | succ n ih => exact figOk_onParseFig hE hm (fun m' t f' ht hm' => ⟨ih m' t (by omega) hm' f', by
      rw [parseFig_fuel env t.size n m' t (Nat.le_refl _) (by omega), ← parseFigure_flag env m' t f']; rfl⟩) f

/-- Every figure refines the specification. -/
theorem figOk_parseFigure {env : Env} (hE : EnvOk env) (m : EntityMeta) (tbl : Node) (hm : MetaOk m) (f : Bool) :
    FigOk env m tbl (parseFigure env m tbl f) := figOk_parseFig hE _ m tbl (Nat.le_refl _) hm f

/-! ### documents -/

/-- The possible outputs of a top level table, with the number of figures without an id seen before and after it. -/
inductive TableTrace (env : Env) (k : Nat) (t : Node) : List Ev → End → Nat → Prop where
  /-- a table without rows -/
  | noRow : (unwrapTable t).nthChild tTr 1 = none → TableTrace env k t [] (.raised .xpathNotFound none) k
  /-- not a figure -/
  | noTitle (tr : Node) : (unwrapTable t).nthChild tTr 1 = some tr → figureTitle tr = none → TableTrace env k t [] .done k
  /-- a figure without an id -/
  | noId (tr : Node) (title : Str) : (unwrapTable t).nthChild tTr 1 = some tr → figureTitle tr = some title →
      figureId title = none →
      TableTrace env k t [.lint (issue .tblFigIdExtractErr (figIdMissing k) none [(c!"title", .str title)])] .done (k + 1)
  /-- a figure -/
  | figure (tr : Node) (title fid : Str) (evs : List Ev) (s : End) : (unwrapTable t).nthChild tTr 1 = some tr →
      figureTitle tr = some title → figureId title = some fid →
      Trace env .fig ⟨some title, fid, none⟩ (removeFirstTr (unwrapTable t)) evs s → TableTrace env k t evs s k

/-- The possible outputs of the top level tables of a document. -/
inductive DocTrace (env : Env) : Nat → List Node → List Ev → Except Exn Unit → Prop where
  | nil (k) : DocTrace env k [] [] (.ok ())
  | step (k t ts evs s k' evs' r) : TableTrace env k t evs s k' → (∀ e c, s ≠ .raised e c) → DocTrace env k' ts evs' r →
      DocTrace env k (t :: ts) (evs ++ evs') r
  | stop (k t ts evs e c k') : TableTrace env k t evs (.raised e c) k' → DocTrace env k (t :: ts) evs (.error e)

theorem docTrace_parseTables {env : Env} (hE : EnvOk env) (ts : List Node) (k : Nat) (f : Bool) :
    DocTrace env k ts (parseTables env k ts f).evs (parseTables env k ts f).out := by
  induction ts generalizing k f with
  | nil => exact .nil k
  | cons t ts ih =>
    simp only [parseTables]
    obtain h1 | ⟨tr, h1⟩ := Option.eq_none_or_eq_some ((unwrapTable t).nthChild tTr 1)
    · rw [h1]
      exact .stop k t ts _ _ none k (.noRow h1)
    rw [h1]
    simp only
    obtain h2 | ⟨title, h2⟩ := Option.eq_none_or_eq_some (figureTitle tr)
    · rw [h2]
      exact .step k t ts [] .done k _ _ (.noTitle tr h1 h2) (by simp) (ih k f)
    rw [h2]
    simp only
    obtain h3 | ⟨fid, h3⟩ := Option.eq_none_or_eq_some (figureId title)
    · rw [h3]
      simp only
      rw [M.bind_run, addIssue_none (by simp [figIdMissing]) (by decide)]
      exact .step k t ts _ .done (k + 1) _ _ (.noId tr title h1 h2 h3) (by simp) (ih (k + 1) f)
    rw [h3]
    simp only
    have := figOk_parseFigure hE ⟨some title, fid, none⟩ (removeFirstTr (unwrapTable t)) ⟨figureId_ne h3, by simp⟩ f
    rcases this with ⟨a1, a2, a3⟩ | ⟨c, a1, a2, a3⟩ | ⟨e, c, a1, a2, a3⟩
    · rw [M.bind_ok a1]
      exact .step k t ts _ .done k _ _ (.figure tr title fid _ _ h1 h2 h3 a3) (by simp) (ih k _)
    · rw [M.bind_ok a1]
      exact .step k t ts _ (.swallowed c) k _ _ (.figure tr title fid _ _ h1 h2 h3 a3) (by simp) (ih k _)
    · rw [M.bind_err a1]
      exact .stop k t ts _ e c k (.figure tr title fid _ _ h1 h2 h3 a3)

/-- The output of a document refines the specification. -/
theorem docTrace_parseDoc {env : Env} (hE : EnvOk env) (root : Node) :
    DocTrace env 0 (figures root) (parseDoc env root).evs (parseDoc env root).out := docTrace_parseTables hE _ _ _

end Spex
