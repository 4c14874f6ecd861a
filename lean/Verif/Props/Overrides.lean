import Verif.Lemmas.Inert
import Verif.Lemmas.Emits
import Verif.Props.Document
import Verif.Props.Sample
/-
C36: label overrides.
-/
set_option autoImplicit false
namespace Spex
variable [Uni]

/-- C36, for tables of values: a field whose value is listed for its figure carries the label listed there, and this is reported. -/
theorem C36_override_honoured_partial (env : Env) (hE : EnvOk env) (root : Node) (m : EntityMeta) (fs : List ValueField)
    (h : ⟨m, .values fs⟩ ∈ entities (parseDoc env root).evs) (f : ValueField) (hf : f ∈ fs) (hv : f.val ≠ ELLIPSIS) (l : Str)
    (hl : env.labelOverrides.lookup (m.figId, f.val) = some l) :
    f.label = l ∧ .lint (issue .lblOverridden m.figId (some f.val)) ∈ (parseDoc env root).evs := by
  obtain ⟨tbl, hfig, cols, re, -, hre, hrows⟩ := C23_fields_from_rows env hE root _ h
  obtain ⟨_, r, _, -, -, hfrom⟩ := hrows.mem_pre hf
  have hne : m.figId ≠ [] := by
    have := C30_diagnostics_wellformed env hE root
    simp only at hfig
    cases hfig with
    | top t tr title fid h1 h2 h3 h4 => exact figureId_ne h4
    | nested => simp
    | further _ _ _ c pre newId title _ _ h1 h2 => exact (hE _ _ _ _ h1 h2).1
  cases hfrom with
  | ellipsis => exact absurd rfl hv
  | normal rowVal rowData fl label h1 h2 h3 h4 =>
    simp only at hl ⊢
    unfold valueLabel at h3 h4
    rw [hl] at h3 h4
    simp only at h3 h4
    rw [addIssue_row hne, M.bind_run, M.emit_run] at h3 h4
    simp only [M.pure_run, Except.ok.injEq] at h3 h4
    exact ⟨h3.symm, hre (h4 (by simp))⟩

/-- C36: overrides which are not reported as used have no effect at all. -/
theorem C36_unused_inert (env : Env) (hov : ∀ k ∈ env.labelOverrides, k.1.1 ≠ []) (root : Node)
    (h : diagnostics .lblOverridden (parseDoc env root).evs = []) :
    parseDoc { env with labelOverrides := [] } root = parseDoc env root := by
  refine inert_parseTables env hov _ 0 false ?_
  intro ev hev
  cases ev with
  | ent e => rfl
  | lint l =>
    simp only [isOverride, beq_eq_false_iff_ne]
    intro hl
    have : l ∈ diagnostics .lblOverridden (parseDoc env root).evs := mem_diagnostics.mpr ⟨hev, hl⟩
    rw [h] at this
    simp at this

/-- C36: only listed fields are reported as overridden. -/
theorem C36_report_listed (env : Env) (root : Node) (l : LintEntry)
    (h : l ∈ diagnostics .lblOverridden (parseDoc env root).evs) :
    ∃ val label, l.row = some val ∧ env.labelOverrides.lookup (l.fig, val) = some label := by
  obtain ⟨h1, h2⟩ := mem_diagnostics.mp h
  refine emits_parseTables (env := env)
    (P := fun ev => ∀ l, ev = .lint l → l.err = .lblOverridden →
      ∃ val label, l.row = some val ∧ env.labelOverrides.lookup (l.fig, val) = some label) ?_ ?_ ?_ _ 0 false _ h1 l rfl h2
  · intro e l hl; simp at hl
  · intro err fig row ctx he l hl hl'
    simp only [Ev.lint.injEq] at hl
    rw [← hl] at hl'
    exact absurd hl' he.1
  · intro fig val lab hlab l hl _
    simp only [Ev.lint.injEq] at hl
    rw [← hl]
    exact ⟨val, lab, rfl, hlab⟩

open Sample in
/-- a document for the examples: figure 37 with a table of values -/
def overrideDoc : Node := doc [figure c!"Figure 37: Codes" [c!"Value", c!"Description"]
  [[td c!"0", td c!"Some words"], [td c!"5", td c!"Alpha: x"]]]

/-- C36 for the quirks of the zoned namespace specification: the first field is overridden, the second is not. -/
example : letI := Uni.ascii
    let r := parseDoc (envZoned false) overrideDoc
    (entities r.evs).map (·.body) = [.values [⟨c!"0", c!"zt", none⟩, ⟨c!"5", c!"ALPHA", some c!"x"⟩]] ∧
    (diagnostics .lblOverridden r.evs).map (fun l => (l.fig, l.row)) = [(c!"37", some c!"0")] := by decide +kernel

/-- without the override, the label is taken from the text -/
example : letI := Uni.ascii
    (entities (parseDoc (envPlain false) overrideDoc).evs).map (·.body) =
      [.values [⟨c!"0", c!"SOME_WORDS", none⟩, ⟨c!"5", c!"ALPHA", some c!"x"⟩]] := by decide +kernel

omit [Uni] in
open Sample in
/-- C36 fails for bits and bytes tables: the override listed for row 0 of figure 37 is not applied, and not reported. -/
theorem C36_struct_ignored_false : letI := Uni.ascii
    ∃ (root : Node) (m : EntityMeta) (f : StructField) (l : Str),
      ⟨m, .struct .bytes [f]⟩ ∈ entities (parseDoc (envZoned false) root).evs ∧
      (envZoned false).labelOverrides.lookup (m.figId, rangeKey f.range) = some l ∧ f.label ≠ l ∧
      diagnostics .lblOverridden (parseDoc (envZoned false) root).evs = [] := by
  let _ := Uni.ascii
  refine ⟨doc [figure c!"Figure 37: Report" [c!"Bytes", c!"Description"] [[td c!"0", td c!"Some Words (SW): x"]]],
    ⟨some c!"Figure 37: Report", c!"37", none⟩, ⟨c!"sw", .int 0 0, some c!"x"⟩, c!"zt", by decide +kernel, by decide +kernel,
    by decide +kernel, List.length_eq_zero_iff.mp (by decide +kernel)⟩

end Spex
