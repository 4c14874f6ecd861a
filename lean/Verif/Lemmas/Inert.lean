import Verif.Lemmas.Figure
/-
Two runs of the same figure: with and without label overrides.
-/
set_option autoImplicit false
namespace Spex
variable [Uni]

/-- whether an event is the report of an overridden label -/
def isOverride : Ev → Bool
  | .ent _ => false
  | .lint l => l.err == .lblOverridden

/-- as long as `x` reports no overridden label, `y` does the same -/
def Inert {α : Type} (x y : M α) : Prop := ∀ f, (∀ ev ∈ (x f).evs, isOverride ev = false) → y f = x f

namespace Inert
variable {α β : Type}

omit [Uni] in
theorem refl (x : M α) : Inert x x := fun _ _ => rfl

omit [Uni] in
theorem bind {x y : M α} {k k' : α → M β} (hx : Inert x y) (hk : ∀ a, Inert (k a) (k' a)) : Inert (x >>= k) (y >>= k') := by
  intro f hf
  rw [M.bind_run] at hf
  rw [M.bind_run, M.bind_run]
  cases ho : (x f).out with
  | error e =>
    rw [ho] at hf
    rw [hx f hf, ho]
  | ok a =>
    rw [ho] at hf
    simp only at hf
    rw [hx f (fun ev h => hf ev (List.mem_append_left _ h)), ho]
    simp only [hk a _ (fun ev h => hf ev (List.mem_append_right _ h))]

omit [Uni] in
theorem ite {c : Prop} [Decidable c] {x y x' y' : M α} (h1 : c → Inert x x') (h2 : ¬ c → Inert y y') :
    Inert (if c then x else y) (if c then x' else y') := by
  split
  · exact h1 ‹_›
  · exact h2 ‹_›

omit [Uni] in
theorem tryCatch {x y : M α} {k : Exn → M α} (hx : Inert x y) : Inert (M.tryCatch x k) (M.tryCatch y k) := by
  intro f hf
  rw [M.tryCatch_run] at hf
  rw [M.tryCatch_run, M.tryCatch_run]
  have : ∀ ev ∈ (x f).evs, isOverride ev = false := by
    cases ho : (x f).out with
    | ok a => rw [ho] at hf; exact hf
    | error e => rw [ho] at hf; exact fun ev h => hf ev (List.mem_append_left _ h)
  rw [hx f this]
end Inert

section
variable {p q : ParseFn} (hp : ∀ m t, Inert (p m t) (q m t)) {ov : List ((Str × Str) × Str)} (hov : ∀ k ∈ ov, k.1.1 ≠ [])

omit [Uni] in
include hp in
theorem inert_subTables (m : EntityMeta) (ts : List Node) : Inert (subTables p m ts) (subTables q m ts) := by
  induction ts with
  | nil => exact .refl _
  | cons t ts ih => exact .bind (hp m t) (fun _ => ih)

include hp in
theorem inert_structRow (fig : Str) (h : ErrHandler) (cols : Cols) (dyn : Bool) (row : Row) :
    Inert (structRow p fig h cols dyn row) (structRow q fig h cols dyn row) := by
  unfold structRow
  split
  · exact .refl _
  · exact .ite (fun _ => .refl _) (fun _ => .bind (.refl _) (fun r => .bind (.refl _) (fun l => .bind (.refl _)
      (fun c => .bind (inert_subTables hp _ _) (fun _ => .refl _)))))

include hp in
theorem inert_structRows (fig : Str) (h : ErrHandler) (cols : Cols) (err : Option Exn) (rows : List Row) (dyn : Bool) :
    Inert (structRows p fig h cols err dyn rows) (structRows q fig h cols err dyn rows) := by
  induction rows generalizing dyn with
  | nil => exact .refl _
  | cons row rows ih =>
    unfold structRows
    refine .ite (fun _ => ih _) (fun _ => .bind (inert_structRow hp fig h cols dyn row) (fun o => ?_))
    split
    · exact .refl _
    · exact ih _
    · exact .bind (ih _) (fun _ => .refl _)

omit [Uni] in
theorem lookup_mem {α β : Type} [BEq α] [LawfulBEq α] {l : List (α × β)} {a : α} {b : β} (h : l.lookup a = some b) : (a, b) ∈ l := by
  induction l with
  | nil => simp at h
  | cons x xs ih =>
    obtain ⟨k, v⟩ := x
    rw [List.lookup_cons] at h
    split at h
    · rename_i hk
      simp only [Option.some.injEq] at h
      rw [eq_of_beq hk, h]
      exact List.mem_cons_self ..
    · exact List.mem_cons_of_mem _ (ih h)

include hov in
theorem inert_valueLabel (fig : Str) (cols : Cols) (row : Node) (val : Str) (data : Node) :
    Inert (valueLabel ov fig cols row val data) (valueLabel [] fig cols row val data) := by
  unfold valueLabel
  cases h : ov.lookup (fig, val) with
  | none => exact .refl _
  | some l =>
    intro f hf
    exfalso
    simp only at hf
    rw [addIssue_row (hov _ (lookup_mem h)), M.bind_run, M.emit_run] at hf
    have := hf (.lint (issue .lblOverridden fig (some val))) (List.mem_cons_self ..)
    simp [isOverride, issue] at this

include hp hov in
theorem inert_valueRow (fig : Str) (cols : Cols) (row : Row) :
    Inert (valueRow p ov fig cols row) (valueRow q [] fig cols row) := by
  unfold valueRow
  split
  · exact .ite (fun _ => .refl _) (fun _ => .bind (inert_valueLabel hov _ _ _ _ _) (fun l =>
      .bind (inert_subTables hp _ _) (fun _ => .refl _)))
  · exact .refl _

include hp hov in
theorem inert_valueRows (fig : Str) (cols : Cols) (err : Option Exn) (rows : List Row) :
    Inert (valueRows p ov fig cols err rows) (valueRows q [] fig cols err rows) := by
  induction rows with
  | nil => exact .refl _
  | cons row rows ih =>
    unfold valueRows
    refine .ite (fun _ => ih) (fun _ => .bind (inert_valueRow hp hov fig cols row) (fun o => ?_))
    split
    · exact .refl _
    · exact ih
    · exact .bind ih (fun _ => .refl _)
end

theorem inert_onParseFig (env : Env) (hov : ∀ k ∈ env.labelOverrides, k.1.1 ≠ []) {p q : ParseFn} (hp : ∀ m t, Inert (p m t) (q m t))
    (m : EntityMeta) (tbl : Node) : Inert (onParseFig env p m tbl) (onParseFig { env with labelOverrides := [] } q m tbl) := by
  have hcall : ∀ c cols, Inert (callExtractor env p c m cols tbl) (callExtractor { env with labelOverrides := [] } q c m cols tbl) := by
    intro c cols
    unfold callExtractor
    cases c with
    | struct c =>
      simp only
      unfold structCall
      refine .bind (inert_structRows hp _ _ _ _ _ _) (fun x => .bind (.refl _) (fun _ => .bind (.refl _) (fun _ => ?_)))
      unfold parseExtra
      split
      · exact .refl _
      · exact hp _ _
    | value =>
      simp only
      unfold valueCall
      exact .bind (inert_valueRows hp hov _ _ _ _) (fun _ => .refl _)
  have hrun : ∀ hdrs c mapping, Inert (runExtractor env p m tbl hdrs c mapping)
      (runExtractor { env with labelOverrides := [] } q m tbl hdrs c mapping) :=
    fun hdrs c mapping => .bind (.refl _) (fun cols => .tryCatch (hcall c cols))
  unfold onParseFig
  refine .bind (.refl _) (fun _ => .bind (.refl _) (fun hdrs => ?_))
  cases h : env.overrides.lookup m.figId with
  | none =>
    simp only [h]
    split
    · exact .refl _
    · exact hrun _ _ _
  | some c =>
    simp only [h]
    split
    · exact .refl _
    · exact hrun _ _ _

theorem inert_parseTables (env : Env) (hov : ∀ k ∈ env.labelOverrides, k.1.1 ≠ []) (ts : List Node) (k : Nat) :
    Inert (parseTables env k ts) (parseTables { env with labelOverrides := [] } k ts) := by
  have key : ∀ n m tbl, Inert (parseFig env n m tbl) (parseFig { env with labelOverrides := [] } n m tbl) := by
    intro n
    induction n with
    | zero => intro m tbl; exact .refl _
    | succ n ih => intro m tbl; exact inert_onParseFig env hov ih m tbl
  induction ts generalizing k with
  | nil => exact .refl _
  | cons t ts ih =>
    unfold parseTables
    simp only
    split
    · exact .refl _
    · split
      · exact ih _
      · split
        · exact .bind (.refl _) (fun _ => ih _)
        · exact .bind (key _ _ _) (fun _ => ih _)

end Spex
