import Verif.Model.Console
import Verif.Lemmas.Emits
import Verif.Lemmas.Fuel
/-
The document parser with and without its messages.
-/
set_option autoImplicit false
namespace Spex

theorem Said.said_ev (s : Said) : s.ev.said = some s := by
  cases s with
  | failed m => cases m with | mk title figId parent => cases title <;> simp [Said.ev, Ev.said, saidTitle]
  | within m => cases m with | mk title figId parent => cases title <;> simp [Said.ev, Ev.said, saidTitle]
  | noId t => simp [Said.ev, Ev.said, saidTitle]

theorem quiet_append (a b : List Ev) : quiet (a ++ b) = quiet a ++ quiet b := List.filter_append ..
theorem saidOf_append (a b : List Ev) : saidOf (a ++ b) = saidOf a ++ saidOf b := List.filterMap_append ..
theorem quiet_said (s : Said) : quiet [s.ev] = [] := by simp [quiet, Said.said_ev]
theorem saidOf_said (s : Said) : saidOf [s.ev] = [s] := by simp [saidOf, Said.said_ev]

/-- the event is not a message -/
def NotSaid (e : Ev) : Prop := e.said = none

theorem notSaid_ent (e : Entity) : NotSaid (.ent e) := rfl
theorem notSaid_issue {err : LintErr} (h : err ≠ .general) (fig : Str) (row : Option Str) (ctx : List (Str × Json)) :
    NotSaid (.lint (issue err fig row ctx)) := by
  unfold NotSaid Ev.said
  exact if_pos h

theorem quiet_of {evs : List Ev} (h : ∀ e ∈ evs, NotSaid e) : quiet evs = evs :=
  List.filter_eq_self.mpr fun e he => by rw [h e he]; rfl
theorem saidOf_of {evs : List Ev} (h : ∀ e ∈ evs, NotSaid e) : saidOf evs = [] :=
  List.filterMap_eq_nil_iff.mpr h

theorem said_issue {err : LintErr} (h : err ≠ .general) (fig : Str) (row : Option Str) (ctx : List (Str × Json)) :
    Emits NotSaid (addIssue err fig row ctx) := Emits.addIssue (notSaid_issue h _ _ _)

/-! ### without the messages nothing changes -/

/-- `y` does the same as `x`, apart from messages -/
def SameAs {α : Type} (x y : M α) : Prop :=
  ∀ f, quiet (y f).evs = (x f).evs ∧ (y f).flag = (x f).flag ∧ (y f).out = (x f).out

namespace SameAs
variable {α β : Type}

theorem refl {x : M α} (h : Emits NotSaid x) : SameAs x x := fun f => ⟨quiet_of (h f), rfl, rfl⟩

theorem bind {x y : M α} {k k' : α → M β} (hx : SameAs x y) (hk : ∀ a, SameAs (k a) (k' a)) : SameAs (x >>= k) (y >>= k') := by
  intro f
  obtain ⟨h1, h2, h3⟩ := hx f
  rw [M.bind_run, M.bind_run, h3]
  cases ho : (x f).out with
  | error e => exact ⟨h1, h2, rfl⟩
  | ok a =>
    obtain ⟨g1, g2, g3⟩ := hk a (x f).flag
    simp only
    rw [h2, quiet_append, h1, g1]
    exact ⟨rfl, g2, g3⟩

theorem tryCatch {x y : M α} {k k' : Exn → M α} (hx : SameAs x y) (hk : ∀ a, SameAs (k a) (k' a)) :
    SameAs (M.tryCatch x k) (M.tryCatch y k') := by
  intro f
  obtain ⟨h1, h2, h3⟩ := hx f
  rw [M.tryCatch_run, M.tryCatch_run, h3]
  cases ho : (x f).out with
  | ok a => exact ⟨h1, h2, by rw [h3, ho]⟩
  | error e =>
    obtain ⟨g1, g2, g3⟩ := hk e (x f).flag
    simp only
    rw [h2, quiet_append, h1, g1]
    exact ⟨rfl, g2, g3⟩

theorem ite {c : Prop} [Decidable c] {x y x' y' : M α} (h1 : SameAs x x') (h2 : SameAs y y') :
    SameAs (if c then x else y) (if c then x' else y') := by
  split
  · exact h1
  · exact h2

/-- a message is added in front -/
theorem say {s : Said} {x y : M α} (h : SameAs x y) : SameAs x (M.say s >>= fun _ => y) := by
  intro f
  rw [M.bind_run]
  unfold M.say
  rw [M.emit_run]
  simp only [quiet_append, quiet_said, List.nil_append]
  exact h f
end SameAs

variable [Uni]

theorem notSaid_lint {err : LintErr} {row : Option Str} {ctx : List (Str × Json)} (h : Usual err row ctx) (fig : Str) :
    NotSaid (.lint (issue err fig row ctx)) := notSaid_issue h.2.1 _ _ _

theorem notSaid_usual : ∀ err fig row ctx, Usual err row ctx → NotSaid (.lint (issue err fig row ctx)) :=
  fun _ fig _ _ h => notSaid_lint h fig

theorem quiet_validateStruct (fig : Str) (fs : List StructField) : Emits NotSaid (validateStruct fig fs) := by
  unfold validateStruct
  split
  · exact Emits.pure _
  · exact Emits.pure _
  · exact Emits.ite (said_issue (by decide) _ _ _) (emits_validateLoop notSaid_usual _ _ _ _)

theorem quiet_validateValues (fig : Str) (fs : List ValueField) : Emits NotSaid (validateValues fig fs) := by
  unfold validateValues
  exact Emits.ite (Emits.pure _) (emits_validateValuesLoop notSaid_usual _ _ _ _)

theorem quiet_valueLabel (ov : List ((Str × Str) × Str)) (fig : Str) (cols : Cols) (row : Node) (val : Str) (data : Node) :
    Emits NotSaid (valueLabel ov fig cols row val data) :=
  emits_valueLabel (env := ⟨false, [], ov⟩) notSaid_usual (fun _ _ _ _ => notSaid_issue (by decide) _ _ _) fig cols row val data

theorem quiet_headers (fig : Str) (cs : List Node) : Emits NotSaid (extractHdrs fig cs) := by
  induction cs with
  | nil => exact Emits.pure _
  | cons c cs ih =>
    unfold extractHdrs
    refine Emits.bind ?_ (fun _ => Emits.bind ih (fun _ => Emits.pure _))
    unfold normalizeHdr
    generalize tblNormalizeMappings.lookup (hdrText c) = o
    cases o with
    | none => exact Emits.pure _
    | some r => exact Emits.bind (said_issue (by decide) _ _ _) (fun _ => Emits.pure _)

section
variable {p q : ParseFn} (hp : ∀ m t, SameAs (p m t) (q m t))
include hp

omit [Uni] in
theorem same_subTables (m : EntityMeta) (ts : List Node) : SameAs (subTables p m ts) (subTables q m ts) := by
  induction ts with
  | nil => exact .refl (.pure _)
  | cons t ts ih => exact .bind (hp m t) (fun _ => ih)

theorem same_structRow (fig : Str) (h : ErrHandler) (cols : Cols) (dyn : Bool) (row : Row) :
    SameAs (structRow p fig h cols dyn row) (structRow q fig h cols dyn row) := by
  unfold structRow
  split
  · refine .refl ?_
    emits notSaid_usual
  · refine .ite (.refl ?_) ?_
    · refine Emits.ite (Emits.pure _) (Emits.bind (emits_parseRange notSaid_usual _ _ _) (fun _ => ?_))
      emits notSaid_usual
    · exact .bind (.refl (emits_rowRange notSaid_usual _ _ _)) (fun _ => .bind (.refl (emits_parseLabel notSaid_usual _ _ _ _))
        (fun _ => .bind (.refl (.ofExcept _)) (fun _ => .bind (same_subTables hp _ _) (fun _ => .refl (.pure _)))))

theorem same_structRows (fig : Str) (h : ErrHandler) (cols : Cols) (err : Option Exn) (rows : List Row) (dyn : Bool) :
    SameAs (structRows p fig h cols err dyn rows) (structRows q fig h cols err dyn rows) := by
  induction rows generalizing dyn with
  | nil =>
    unfold structRows
    refine .refl ?_
    emits notSaid_usual
  | cons row rows ih =>
    unfold structRows
    refine .ite (ih _) (.bind (same_structRow hp _ _ _ _ _) (fun o => ?_))
    split
    · exact .refl (.pure _)
    · exact ih _
    · exact .bind (ih _) (fun _ => .refl (.pure _))

theorem same_valueRows (ov : List ((Str × Str) × Str)) (fig : Str) (cols : Cols) (err : Option Exn) (rows : List Row) :
    SameAs (valueRows p ov fig cols err rows) (valueRows q ov fig cols err rows) := by
  induction rows with
  | nil =>
    unfold valueRows
    refine .refl ?_
    emits notSaid_usual
  | cons row rows ih =>
    unfold valueRows
    refine .ite ih (.bind ?_ (fun o => ?_))
    · unfold valueRow
      split
      · exact .ite (.refl (.pure _)) (.bind (.refl (quiet_valueLabel _ _ _ _ _ _)) (fun _ =>
          .bind (same_subTables hp _ _) (fun _ => .refl (.pure _))))
      · refine .refl ?_
        emits notSaid_usual
    · split
      · exact .refl (.pure _)
      · exact ih
      · exact .bind ih (fun _ => .refl (.pure _))

theorem same_callExtractor (env : Env) (c : Cls) (m : EntityMeta) (cols : Cols) (tbl : Node) :
    SameAs (callExtractor env p c m cols tbl) (callExtractor env q c m cols tbl) := by
  unfold callExtractor
  cases c with
  | struct c =>
    simp only
    unfold structCall
    refine .bind (same_structRows hp _ _ _ _ _ _) (fun x => .bind (.refl (quiet_validateStruct _ _)) (fun _ =>
      .bind (.refl (.yield (notSaid_ent _))) (fun _ => ?_)))
    unfold parseExtra
    split
    · exact .refl (.pure _)
    · exact hp _ _
  | value =>
    simp only
    unfold valueCall
    exact .bind (same_valueRows hp _ _ _ _ _) (fun x => .bind (.refl (quiet_validateValues _ _)) (fun _ =>
      .refl (.yield (notSaid_ent _))))

omit hp in
theorem same_onFigError (env : Env) (m : EntityMeta) (e : Exn) : SameAs (onFigError env m e) (onFigErrorC env m e) := by
  unfold onFigError onFigErrorC
  refine .bind (.refl .getFlag) (fun u => ?_)
  cases u with
  | false =>
    simp only [Bool.not_false, if_true]
    refine .say (.bind (.refl (.setFlag _)) (fun _ => .bind (.refl (said_issue (by decide) _ _ _)) (fun _ => .refl ?_)))
    emits notSaid_usual
  | true =>
    simp only [Bool.not_true, Bool.false_eq_true, if_false]
    refine .say (.refl ?_)
    emits notSaid_usual

theorem same_onParseFig (env : Env) (m : EntityMeta) (tbl : Node) : SameAs (onParseFig env p m tbl) (onParseFigC env q m tbl) := by
  have hrun : ∀ hdrs c mapping, SameAs (runExtractor env p m tbl hdrs c mapping) (runExtractorC env q m tbl hdrs c mapping) :=
    fun hdrs c mapping => .bind (.refl (.ofExcept _)) (fun cols => .tryCatch (same_callExtractor hp _ _ _ _ _)
      (fun e => same_onFigError _ _ _))
  unfold onParseFig onParseFigC
  refine .bind (.refl (.setFlag _)) (fun _ => .bind (.refl (quiet_headers _ _)) (fun hdrs => ?_))
  cases env.overrides.lookup m.figId with
  | none =>
    simp only
    cases firstApplicable extractors hdrs with
    | none => exact .refl (said_issue (by decide) _ _ _)
    | some x => exact hrun _ _ _
  | some c =>
    simp only
    cases c.canApply hdrs with
    | none => exact .refl (.raise _)
    | some x => exact hrun _ _ _
end

theorem same_parseFig (env : Env) (n : Nat) (m : EntityMeta) (tbl : Node) : SameAs (parseFig env n m tbl) (parseFigC env n m tbl) := by
  induction n generalizing m tbl with
  | zero => exact .refl (.raise _)
  | succ n ih => exact same_onParseFig ih env m tbl

theorem same_parseTables (env : Env) (k : Nat) (ts : List Node) : SameAs (parseTables env k ts) (parseTablesC env k ts) := by
  induction ts generalizing k with
  | nil => exact .refl (.pure _)
  | cons t ts ih =>
    unfold parseTables parseTablesC
    simp only
    cases (unwrapTable t).nthChild tTr 1 with
    | none => exact .refl (.raise _)
    | some tr =>
      simp only
      cases figureTitle tr with
      | none => exact ih _
      | some title =>
        simp only
        cases figureId title with
        | none => exact .say (.bind (.refl (said_issue (by decide) _ _ _)) (fun _ => ih _))
        | some fid => exact .bind (same_parseFig _ _ _ _) (fun _ => ih _)

end Spex
