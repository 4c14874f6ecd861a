import Verif.Lemmas.Figure
/-
Which diagnostics a run can report.
-/
set_option autoImplicit false
namespace Spex

/-- every event of every run satisfies `P` -/
def Emits {α : Type} (P : Ev → Prop) (x : M α) : Prop := ∀ f, ∀ e ∈ (x f).evs, P e

namespace Emits
variable {α β : Type} {P : Ev → Prop}

theorem pure (a : α) : Emits P (Pure.pure a : M α) := by intro f; simp [M.pure_run]
theorem raise (e : Exn) : Emits P (M.raise e : M α) := by intro f; simp [M.raise_run]
theorem ofExcept (x : Except Exn α) : Emits P (M.ofExcept x) := by intro f; simp [M.ofExcept_run]
theorem setFlag (b : Bool) : Emits P (M.setFlag b) := by intro f; simp [M.setFlag_run]
theorem getFlag : Emits P M.getFlag := by intro f; simp [M.getFlag_run]
theorem yield {e : Entity} (h : P (.ent e)) : Emits P (M.yield e) := by intro f; simpa [M.yield_run] using h

theorem bind {x : M α} {k : α → M β} (hx : Emits P x) (hk : ∀ a, Emits P (k a)) : Emits P (x >>= k) := by
  intro f e he
  rw [M.bind_run] at he
  cases ho : (x f).out with
  | error e' => rw [ho] at he; exact hx f e he
  | ok a =>
    rw [ho] at he
    rcases List.mem_append.mp he with h | h
    · exact hx f e h
    · exact hk a _ e h

theorem ite {c : Prop} [Decidable c] {x y : M α} (h1 : Emits P x) (h2 : Emits P y) : Emits P (if c then x else y) := by
  split
  · exact h1
  · exact h2

theorem tryCatch {x : M α} {k : Exn → M α} (hx : Emits P x) (hk : ∀ e, Emits P (k e)) : Emits P (M.tryCatch x k) := by
  intro f e he
  rw [M.tryCatch_run] at he
  cases ho : (x f).out with
  | ok a => rw [ho] at he; exact hx f e he
  | error e' =>
    rw [ho] at he
    rcases List.mem_append.mp he with h | h
    · exact hx f e h
    · exact hk e' _ e h

theorem addIssue {err : LintErr} {fig : Str} {row : Option Str} {ctx : List (Str × Json)} (h : P (.lint (issue err fig row ctx))) :
    Emits P (Spex.addIssue err fig row ctx) := by
  intro f e he
  unfold Spex.addIssue mkLintEntry at he
  by_cases h1 : fig = []
  · simp [h1, M.raise_run] at he
  · by_cases h2 : (err.needsRow && row.isNone) = true
    · simp only [h1, if_false, h2, if_true, M.raise_run] at he
      simp at he
    · simp only [h1, if_false, h2, Bool.false_eq_true, M.emit_run] at he
      simp only [if_true, List.mem_singleton] at he
      exact he ▸ h
end Emits

variable [Uni]

/-- What a diagnostic with this code tells besides its message: the row and the context. Codes for which this is false are not reported
by a run on a document. -/
def IssueShape (err : LintErr) (row : Option Str) (ctx : List (Str × Json)) : Prop :=
  match err with
  | .tblParseErr => row = none ∧ (ctx = [] ∨ ∃ t, ctx = [(c!"title", .str t)])
  | .tblFigIdExtractErr => row = none ∧ ∃ t, ctx = [(c!"title", .str t)]
  | .tblHdrErr => row = none ∧ ∃ got expected, ctx = [(c!"got", .str got), (c!"expected", .str expected)] ∧
      (got, expected) ∈ [(c!"code", c!"value"), (c!"bit", c!"bits"), (c!"byte", c!"bytes")]
  | .tblSkipped => row = none ∧ ∃ headings : List Str, ctx = [(c!"columns", .arr (headings.map Json.str))]
  | .tblRowOrderReversed => row = none ∧ ctx = []
  | .lblDuplicate => (∃ r, row = some r) ∧ ∃ l, ctx = [(c!"label", .str l)]
  | .lblInvalidChrs => (∃ r, row = some r) ∧ (ctx = [] ∨ ∃ l, ctx = [(c!"label", .str l)])
  | .tblFieldOverlap | .tblFieldGap | .lblExtractErr | .lblImputed | .lblOverridden | .valDuplicate | .rangeInvalid | .rangeReversed =>
    (∃ r, row = some r) ∧ ctx = []
  | .general | .lblEmpty | .valExtractErr | .valEmpty | .valInvalid | .rangeExtractErr => False

omit [Uni] in
theorem mapping_mem {got expected : Str} (h : tblNormalizeMappings.lookup got = some expected) :
    (got, expected) ∈ [(c!"code", c!"value"), (c!"bit", c!"bits"), (c!"byte", c!"bytes")] := by
  obtain ⟨l1, l2, h1, -⟩ := List.lookup_eq_some_iff.1 h
  have : (got, expected) ∈ tblNormalizeMappings := by rw [h1]; simp
  exact this

/-- proves `IssueShape` for a diagnostic which is written out -/
macro "issueShape" : tactic => `(tactic| first
  | exact ⟨rfl, rfl⟩ | exact ⟨rfl, _, rfl⟩ | exact ⟨rfl, _, _, rfl⟩ | exact ⟨rfl, .inl rfl⟩ | exact ⟨rfl, .inr ⟨_, rfl⟩⟩
  | exact ⟨⟨_, rfl⟩, rfl⟩ | exact ⟨⟨_, rfl⟩, _, rfl⟩ | exact ⟨⟨_, rfl⟩, .inl rfl⟩ | exact ⟨⟨_, rfl⟩, .inr ⟨_, rfl⟩⟩)

/-- Diagnostics which are not about overrides, nor general ones; those about the characters of a label quote a label the validation refuses, or
quote nothing. -/
def Usual (err : LintErr) (row : Option Str) (ctx : List (Str × Json)) : Prop :=
  err ≠ .lblOverridden ∧ err ≠ .general ∧ (err = .lblInvalidChrs → ctx = [] ∨ ∃ l, ctx = [(c!"label", .str l)] ∧
    (reLabelValidation.pmatch l).isNone = true ∧ (reEllipsisLabel.pmatch l).isNone = true) ∧ IssueShape err row ctx

section
variable {env : Env} {P : Ev → Prop} (hent : ∀ e, P (.ent e))
  (hlint : ∀ err fig row ctx, Usual err row ctx → P (.lint (issue err fig row ctx)))
  (hov : ∀ fig val l, env.labelOverrides.lookup (fig, val) = some l → P (.lint (issue .lblOverridden fig (some val))))

/-- goes through a piece of the model -/
macro "emits" h:term : tactic => `(tactic| repeat' first
  | exact Emits.pure _ | exact Emits.raise _ | exact Emits.ofExcept _ | exact Emits.getFlag | exact Emits.setFlag _
  | exact Emits.addIssue ($h _ _ _ _ ⟨by decide, by decide, fun h => absurd h (by decide), by issueShape⟩)
  | exact Emits.addIssue ($h _ _ _ _ ⟨by decide, by decide, fun _ => .inl rfl, by issueShape⟩)
  | refine Emits.ite ?_ ?_ | refine Emits.bind ?_ (fun _ => ?_) | split)

include hlint in
theorem emits_parseRange (fig v key : Str) : Emits P (parseRange fig v key) := by
  unfold parseRange rangeLow
  emits hlint

include hlint in
theorem emits_rowRange (fig : Str) (dyn : Bool) (v : Str) : Emits P (rowRange fig dyn v) := by
  unfold rowRange parseDynamicRange
  have := emits_parseRange hlint fig v v
  refine Emits.ite ?_ this
  emits hlint

include hlint in
theorem emits_validateLabel (l fig key : Str) : Emits P (validateLabel l fig key) := by
  unfold validateLabel
  split
  · rename_i h
    rw [Bool.and_eq_true] at h
    exact Emits.addIssue (hlint _ _ _ _ ⟨by decide, by decide, fun _ => .inr ⟨l, rfl, h.1, h.2⟩, by issueShape⟩)
  · exact Emits.pure _

include hlint in
theorem emits_parseLabel (fig : Str) (cols : Cols) (l key : Str) : Emits P (parseLabel fig cols l key) := by
  unfold parseLabel extractLabel extractLabelSeparate extractLabelSame
  refine Emits.bind ?_ (fun _ => Emits.bind (emits_validateLabel hlint _ _ _) (fun _ => Emits.pure _))
  emits hlint

include hlint hov in
theorem emits_valueLabel (fig : Str) (cols : Cols) (row : Node) (val : Str) (data : Node) :
    Emits P (valueLabel env.labelOverrides fig cols row val data) := by
  unfold valueLabel
  cases h : env.labelOverrides.lookup (fig, val) with
  | some l => exact Emits.bind (Emits.addIssue (hov _ _ _ h)) (fun _ => Emits.pure _)
  | none =>
    simp only
    unfold extractLabelValue labelText labelTextDedicated labelTextSame extractLabelDedicated
    refine Emits.bind ?_ (fun o => ?_)
    · emits hlint
    · split
      · exact Emits.pure _
      · exact Emits.bind (emits_validateLabel hlint _ _ _) (fun _ => Emits.pure _)

variable {p : ParseFn} (hp : ∀ m t, Emits P (p m t))

omit [Uni] in
include hp in
theorem emits_subTables (m : EntityMeta) (ts : List Node) : Emits P (subTables p m ts) := by
  induction ts with
  | nil => exact Emits.pure _
  | cons t ts ih => exact Emits.bind (hp m t) (fun _ => ih)

include hlint hp in
theorem emits_structRow (fig : Str) (h : ErrHandler) (cols : Cols) (dyn : Bool) (row : Row) :
    Emits P (structRow p fig h cols dyn row) := by
  unfold structRow
  split
  · emits hlint
  · refine Emits.ite (Emits.ite (Emits.pure _) (Emits.bind (emits_parseRange hlint _ _ _) (fun _ => ?_))) ?_
    · emits hlint
    · exact Emits.bind (emits_rowRange hlint _ _ _) (fun _ => Emits.bind (emits_parseLabel hlint _ _ _ _) (fun _ =>
        Emits.bind (Emits.ofExcept _) (fun _ => Emits.bind (emits_subTables hp _ _) (fun _ => Emits.pure _))))

include hlint hp in
theorem emits_structRows (fig : Str) (h : ErrHandler) (cols : Cols) (err : Option Exn) (rows : List Row) (dyn : Bool) :
    Emits P (structRows p fig h cols err dyn rows) := by
  induction rows generalizing dyn with
  | nil => unfold structRows; emits hlint
  | cons row rows ih =>
    unfold structRows
    refine Emits.ite (ih _) (Emits.bind (emits_structRow hlint hp _ _ _ _ _) (fun o => ?_))
    split
    · exact Emits.pure _
    · exact ih _
    · exact Emits.bind (ih _) (fun _ => Emits.pure _)

include hlint hov hp in
theorem emits_valueRows (fig : Str) (cols : Cols) (err : Option Exn) (rows : List Row) :
    Emits P (valueRows p env.labelOverrides fig cols err rows) := by
  induction rows with
  | nil => unfold valueRows; emits hlint
  | cons row rows ih =>
    unfold valueRows
    refine Emits.ite ih (Emits.bind ?_ (fun o => ?_))
    · unfold valueRow
      split
      · exact Emits.ite (Emits.pure _) (Emits.bind (emits_valueLabel hlint hov _ _ _ _ _) (fun _ =>
          Emits.bind (emits_subTables hp _ _) (fun _ => Emits.pure _)))
      · emits hlint
    · split
      · exact Emits.pure _
      · exact ih
      · exact Emits.bind ih (fun _ => Emits.pure _)

include hlint in
theorem emits_validateLoop (fig : Str) (labels : List Str) (prev : Option RangeV) (fs : List StructField) :
    Emits P (validateLoop fig labels prev fs) := by
  induction fs generalizing labels prev with
  | nil => exact Emits.pure _
  | cons f fs ih =>
    unfold validateLoop
    refine Emits.bind ?_ (fun _ => Emits.ite (ih _ _) ?_)
    · unfold dupIssue
      emits hlint
    · split
      · exact ih _ _
      · refine Emits.bind ?_ (fun _ => ih _ _)
        unfold rangeIssue
        emits hlint

include hlint in
theorem emits_validateValuesLoop (fig : Str) (labels values : List Str) (fs : List ValueField) :
    Emits P (validateValuesLoop fig labels values fs) := by
  induction fs generalizing labels values with
  | nil => exact Emits.pure _
  | cons f fs ih =>
    unfold validateValuesLoop
    refine Emits.ite (ih _ _) (Emits.bind ?_ (fun _ => Emits.bind ?_ (fun _ => ih _ _)))
    · unfold dupLabelIssue
      emits hlint
    · unfold dupValueIssue
      emits hlint

include hent hlint hov hp in
theorem emits_onParseFig (m : EntityMeta) (tbl : Node) : Emits P (onParseFig env p m tbl) := by
  have hcall : ∀ c cols, Emits P (callExtractor env p c m cols tbl) := by
    intro c cols
    unfold callExtractor
    cases c with
    | struct c =>
      simp only
      unfold structCall
      refine Emits.bind (emits_structRows hlint hp _ _ _ _ _ _) (fun x => Emits.bind ?_ (fun _ => Emits.bind (Emits.yield (hent _))
        (fun _ => ?_)))
      · unfold validateStruct
        split
        · exact Emits.pure _
        · exact Emits.pure _
        · exact Emits.ite (Emits.addIssue (hlint _ _ _ _ ⟨by decide, by decide, fun h => absurd h (by decide), by issueShape⟩)) (emits_validateLoop hlint _ _ _ _)
      · unfold parseExtra
        split
        · exact Emits.pure _
        · exact hp _ _
    | value =>
      simp only
      unfold valueCall
      refine Emits.bind (emits_valueRows hlint hov hp _ _ _ _) (fun x => Emits.bind ?_ (fun _ => Emits.yield (hent _)))
      unfold validateValues
      exact Emits.ite (Emits.pure _) (emits_validateValuesLoop hlint _ _ _ _)
  have hrun : ∀ hdrs c mapping, Emits P (runExtractor env p m tbl hdrs c mapping) := by
    intro hdrs c mapping
    refine Emits.bind (Emits.ofExcept _) (fun cols => Emits.tryCatch (hcall c cols) (fun e => ?_))
    unfold onFigError
    emits hlint
  have hh : ∀ cs, Emits P (extractHdrs m.figId cs) := by
    intro cs
    induction cs with
    | nil => exact Emits.pure _
    | cons c cs ih =>
      unfold extractHdrs
      refine Emits.bind ?_ (fun _ => Emits.bind ih (fun _ => Emits.pure _))
      unfold normalizeHdr
      cases ho : tblNormalizeMappings.lookup (hdrText c) with
      | none => exact Emits.pure _
      | some r => exact Emits.bind (Emits.addIssue (hlint _ _ _ _ ⟨by decide, by decide, fun h => absurd h (by decide),
          rfl, _, _, rfl, mapping_mem ho⟩)) (fun _ => Emits.pure _)
  unfold onParseFig
  refine Emits.bind (Emits.setFlag _) (fun _ => Emits.bind (hh _) (fun hdrs => ?_))
  split
  · split
    · exact Emits.addIssue (hlint _ _ _ _ ⟨by decide, by decide, fun h => absurd h (by decide), by issueShape⟩)
    · exact hrun _ _ _
  · split
    · exact Emits.raise _
    · exact hrun _ _ _

include hent hlint hov in
theorem emits_parseTables (ts : List Node) (k : Nat) : Emits P (parseTables env k ts) := by
  have key : ∀ n m tbl, Emits P (parseFig env n m tbl) := by
    intro n
    induction n with
    | zero => intro m tbl; exact Emits.raise _
    | succ n ih => intro m tbl; exact emits_onParseFig hent hlint hov ih m tbl
  induction ts generalizing k with
  | nil => exact Emits.pure _
  | cons t ts ih =>
    unfold parseTables
    simp only
    split
    · exact Emits.raise _
    · split
      · exact ih _
      · split
        · exact Emits.bind (Emits.addIssue (hlint _ _ _ _ ⟨by decide, by decide, fun h => absurd h (by decide), by issueShape⟩)) (fun _ => ih _)
        · exact Emits.bind (key _ _ _) (fun _ => ih _)
end

end Spex
