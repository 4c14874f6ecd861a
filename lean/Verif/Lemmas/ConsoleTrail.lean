import Verif.Lemmas.Console
import Verif.Lemmas.TraceUse
/-
What the document parser says about a figure which cannot be processed.
-/
set_option autoImplicit false
namespace Spex

/-- a message, or a diagnostic T1000 or T1008 -/
inductive Mark where
  | said (s : Said)
  | report (l : LintEntry)

/-- the mark of an event -/
def Ev.mark (e : Ev) : Option Mark :=
  match e.said with
  | some s => some (.said s)
  | none => match e with
    | .ent _ => none
    | .lint l => if l.err = .tblParseErr ∨ l.err = .tblFigIdExtractErr then some (.report l) else none

/-- messages and diagnostics T1000 and T1008, in order -/
def marks (evs : List Ev) : List Mark := evs.filterMap Ev.mark

theorem marks_append (a b : List Ev) : marks (a ++ b) = marks a ++ marks b := List.filterMap_append ..
theorem marks_nil : marks [] = [] := rfl

theorem mark_issue {err : LintErr} (h : err ≠ .general) (h' : err ≠ .tblParseErr) (h'' : err ≠ .tblFigIdExtractErr) (fig : Str) (row : Option Str) (ctx : List (Str × Json)) :
    (Ev.lint (issue err fig row ctx)).mark = none := by
  unfold Ev.mark
  rw [show (Ev.lint (issue err fig row ctx)).said = none from notSaid_issue h fig row ctx]
  exact if_neg (fun h => h.elim h' h'')

theorem mark_said (s : Said) : s.ev.mark = some (.said s) := by
  unfold Ev.mark
  rw [Said.said_ev]

/-- the diagnostic for a figure which could not be processed -/
def failEntry (m : EntityMeta) : LintEntry :=
  issue .tblParseErr m.figId none (match m.title with | some t => [(c!"title", .str t)] | none => [])

theorem mark_fail (m : EntityMeta) : (Ev.lint (failEntry m)).mark = some (.report (failEntry m)) := by
  unfold Ev.mark failEntry
  rw [show (Ev.lint (issue .tblParseErr m.figId none _)).said = none from notSaid_issue (by decide) _ _ _]
  exact if_pos (.inl rfl)

theorem marks_of {evs : List Ev} (h : ∀ e ∈ evs, e.mark = none) : marks evs = [] := List.filterMap_eq_nil_iff.mpr h

variable [Uni]

/-- `m'` is a figure inside `m`: nested in one of its rows, or made of its last rows -/
inductive PartOf (env : Env) (m : EntityMeta) : EntityMeta → Prop where
  | nested (key : Str) : PartOf env m ⟨none, m.figId ++ '_' :: key, some m.figId⟩
  | further (c : StructCls) (pre newId : Str) (title : Option Str) : env.overrides.lookup m.figId = some (.struct c) →
      c.handler = .split pre newId → PartOf env m ⟨title, newId, none⟩

/-- what is said, and reported, when an exception passes through the figure `m`: the innermost figure it passes through is named as the one
which failed, then the figures around it, from the inside to the outside -/
inductive Trail (env : Env) : EntityMeta → List Mark → Prop where
  | here (m : EntityMeta) : Trail env m [.said (.failed m), .report (failEntry m)]
  | out (m m' : EntityMeta) (ms : List Mark) : PartOf env m m' → Trail env m' ms → Trail env m (ms ++ [.said (.within m)])

/-- what is said by a part of the processing of a figure; it starts without the flag -/
def Tells {α : Type} (U : List Mark → Prop) (Q : α → Prop) (x : M α) : Prop :=
  (∃ a, (x false).out = .ok a ∧ (x false).flag = false ∧ marks (x false).evs = [] ∧ Q a) ∨
  (∃ e, (x false).out = .error e ∧ (x false).flag = false ∧ marks (x false).evs = []) ∨
  (∃ e, (x false).out = .error e ∧ (x false).flag = true ∧ U (marks (x false).evs))

namespace Tells
variable {α β : Type} {U : List Mark → Prop} {Q : α → Prop} {Q' : β → Prop}

omit [Uni] in
theorem pure {a : α} (h : Q a) : Tells U Q (Pure.pure a : M α) := .inl ⟨a, rfl, rfl, rfl, h⟩
omit [Uni] in
theorem raise {e : Exn} : Tells U Q (M.raise e : M α) := .inr (.inl ⟨e, rfl, rfl, rfl⟩)
omit [Uni] in
theorem ofExcept {x : Except Exn α} (h : ∀ a, x = .ok a → Q a) : Tells U Q (M.ofExcept x) := by
  cases x with
  | ok a => exact .inl ⟨a, rfl, rfl, rfl, h a rfl⟩
  | error e => exact .inr (.inl ⟨e, rfl, rfl, rfl⟩)

omit [Uni] in
theorem bind {x : M α} {k : α → M β} (hx : Tells U Q x) (hk : ∀ a, Q a → Tells U Q' (k a)) : Tells U Q' (x >>= k) := by
  rcases hx with ⟨a, h1, h2, h3, h4⟩ | ⟨e, h1, h2, h3⟩ | ⟨e, h1, h2, h3⟩
  · unfold Tells
    rw [M.bind_ok h1, h2]
    simp only [marks_append, h3, List.nil_append]
    exact hk a h4
  · unfold Tells
    rw [M.bind_err h1]
    exact .inr (.inl ⟨e, rfl, h2, h3⟩)
  · unfold Tells
    rw [M.bind_err h1]
    exact .inr (.inr ⟨e, rfl, h2, h3⟩)

omit [Uni] in
theorem ite {c : Prop} [Decidable c] {x y : M α} (h1 : Tells U Q x) (h2 : Tells U Q y) : Tells U Q (if c then x else y) := by
  split
  · exact h1
  · exact h2

theorem ofSat {fig : Str} {x : M α} {Q0 : α → Prop} {R : Exn → Prop} (h : Sat (RowLint fig) Q0 R x) : Tells U (fun _ => True) x := by
  obtain ⟨h1, h2, h3, h4⟩ := h false
  have hm : marks (x false).evs = [] := marks_of fun e he => by
    obtain ⟨err, key, ctx, rfl, k1, k2, -⟩ := h1 e he
    exact mark_issue (fun h => by subst h; exact absurd k1 (by decide)) k2 (fun h => by subst h; exact absurd k1 (by decide)) _ _ _
  cases ho : (x false).out with
  | ok a => exact .inl ⟨a, ho, h4, hm, trivial⟩
  | error e => exact .inr (.inl ⟨e, ho, h4, hm⟩)
end Tells

/-- what is said by the processing of a figure -/
def Told (env : Env) (m : EntityMeta) (tbl : Node) (r : Res Unit) : Prop :=
  (r.out = .ok () ∧ r.flag = false ∧ marks r.evs = []) ∨
  (r.out = .ok () ∧ r.flag = true ∧ env.skip = true ∧ ∃ x, (x = m ∨ PartOf env m x) ∧ x.parent = none ∧ Trail env x (marks r.evs)) ∨
  (r.out = .error .runtimeError ∧ r.flag = false ∧ marks r.evs = [] ∧
    ∃ c, env.overrides.lookup m.figId = some c ∧ c.canApply (columnNames tbl) = none) ∨
  (∃ e, r.out = .error e ∧ r.flag = true ∧ (m.parent.isSome = true ∨ env.skip = false) ∧ Trail env m (marks r.evs))

/-- the recursive occurrence, on tables smaller than `N` -/
def ParseTold (env : Env) (N : Nat) (p : ParseFn) : Prop := ∀ m t f, t.size < N → MetaOk m → Told env m t (p m t f)

section
variable {env : Env} {m : EntityMeta} {tbl : Node} {p : ParseFn} (hE : EnvOk env) (hp : ParseTold env tbl.size p)
include hE hp

theorem tells_subTables (key : Str) {row : Row} (hr : row ∈ (rowIter tbl).1) {td : Node} (htd : td ∈ row.node.childs tTd)
    (ts : List Node) (hts : ∀ t ∈ ts, t ∈ td.childs tTable) :
    Tells (fun ms => ∃ m', PartOf env m m' ∧ Trail env m' ms) (fun _ => True)
      (subTables p ⟨none, m.figId ++ '_' :: key, some m.figId⟩ ts) := by
  induction ts with
  | nil => exact .pure trivial
  | cons t ts ih =>
    refine .bind (Q := fun _ => True) ?_ (fun _ _ => ih (fun x hx => hts x (List.mem_cons_of_mem _ hx)))
    have hin : PartOf env m ⟨none, m.figId ++ '_' :: key, some m.figId⟩ := .nested key
    rcases hp ⟨none, m.figId ++ '_' :: key, some m.figId⟩ t false (nested_smaller hr htd (hts t (List.mem_cons_self ..)))
      (metaOk_nested m key) with ⟨h1, h2, h3⟩ | ⟨h1, h2, -, x, h4, h5, h6⟩ | ⟨h1, h2, h3, -⟩ | ⟨e, h1, h2, -, h4⟩
    · exact .inl ⟨(), h1, h2, h3, trivial⟩
    · exfalso
      rcases h4 with rfl | h4
      · cases h5
      · cases h4 with
        | nested key => cases h5
        | further c pre newId title k1 k2 => exact (hE _ _ _ _ k1 k2).2.1 (by simp)
    · exact .inr (.inl ⟨_, h1, h2, h3⟩)
    · exact .inr (.inr ⟨e, h1, h2, _, hin, h4⟩)

variable (hm : MetaOk m)
include hm

theorem tells_structRow (h : ErrHandler) (cols : Cols) (dyn : Bool) (row : Row) (hr : row ∈ (rowIter tbl).1) :
    Tells (fun ms => ∃ m', PartOf env m m' ∧ Trail env m' ms)
      (fun o => ∀ x, o = .stop (some x) → ∃ pre newId title, h = .split pre newId ∧ x = (⟨title, newId, none⟩, .elem tTable [] row.following))
      (structRow p m.figId h cols dyn row) := by
  unfold structRow
  split
  · refine .ite (.pure (by simp)) (.ite (.pure (by simp)) ?_)
    split
    · rename_i hx
      refine .pure ?_
      intro x he
      simp only [RowOut.stop.injEq] at he
      subst he
      unfold rowErrHandler at hx
      split at hx
      · split at hx <;> simp at hx
      · split at hx <;> simp at hx
      · split at hx
        · simp at hx
        · simp only [RowErrPolicy.stop.injEq, Option.some.injEq] at hx
          exact ⟨_, _, _, rfl, hx.symm⟩
    · exact .raise
    · exact .pure (by simp)
  · refine .ite (.ite (.pure (by simp)) (.bind (.ofSat (sat_parseRange hm.1 _ _)) (fun r _ => ?_))) ?_
    · split
      · exact .pure (by simp)
      · exact .pure (by simp)
    · refine .bind (.ofSat (sat_rowRange hm.1 _ _)) (fun r _ => .bind (.ofSat (sat_parseLabel hm.1 cols _ _)) (fun l _ => ?_))
      refine .bind (Q := fun c => c ∈ row.node.childs tTd) (.ofExcept ?_) (fun content hcont => ?_)
      · intro a ha
        unfold req at ha
        split at ha
        · rename_i hn
          simp only [Except.ok.injEq] at ha
          exact ha ▸ nthChild_mem hn
        · simp at ha
      · exact .bind (tells_subTables hE hp _ hr hcont _ (fun t h => h)) (fun _ _ => .pure (by simp))

theorem tells_structRows (h : ErrHandler) (cols : Cols) (err : Option Exn) (rows : List Row)
    (hr : ∀ row ∈ rows, row ∈ (rowIter tbl).1) (dyn : Bool) :
    Tells (fun ms => ∃ m', PartOf env m m' ∧ Trail env m' ms)
      (fun o => ∀ x, o.2 = some x → ∃ row ∈ (rowIter tbl).1, ∃ pre newId title, h = .split pre newId ∧
        x = (⟨title, newId, none⟩, .elem tTable [] row.following))
      (structRows p m.figId h cols err dyn rows) := by
  induction rows generalizing dyn with
  | nil =>
    unfold structRows
    split
    · exact .pure (by simp)
    · exact .raise
  | cons row rows ih =>
    have ih := fun dyn => ih (fun r h => hr r (List.mem_cons_of_mem _ h)) dyn
    have hrow := hr row (List.mem_cons_self ..)
    unfold structRows
    refine .ite (ih _) (.bind (tells_structRow hE hp hm h cols dyn row hrow) (fun o ho => ?_))
    split
    · refine .pure ?_
      intro x hx
      simp only at hx
      subst hx
      exact ⟨row, hrow, ho x rfl⟩
    · exact ih _
    · exact .bind (ih _) (fun o' ho' => .pure ho')

theorem tells_valueRows (cols : Cols) (err : Option Exn) (rows : List Row) (hr : ∀ row ∈ rows, row ∈ (rowIter tbl).1) :
    Tells (fun ms => ∃ m', PartOf env m m' ∧ Trail env m' ms) (fun _ => True)
      (valueRows p env.labelOverrides m.figId cols err rows) := by
  induction rows with
  | nil =>
    unfold valueRows
    split
    · exact .pure trivial
    · exact .raise
  | cons row rows ih =>
    have ih := ih (fun r h => hr r (List.mem_cons_of_mem _ h))
    unfold valueRows
    refine .ite ih (.bind (Q := fun _ => True) ?_ (fun o _ => ?_))
    · unfold valueRow
      split
      · rename_i rowVal rowData h1 h2
        refine .ite (.pure trivial) (.bind (.ofSat (sat_valueLabel hm.1 _ cols row.node _ rowData)) (fun _ _ => ?_))
        exact .bind (tells_subTables hE hp _ (hr row (List.mem_cons_self ..)) (nthChild_mem h2) _ (fun t h => h)) (fun _ _ => .pure trivial)
      · exact .ite (.pure trivial) (.ite (.pure trivial) (.pure trivial))
    · split
      · exact .pure trivial
      · exact ih
      · exact .bind ih (fun _ _ => .pure trivial)
end

/-- what is said by an extractor which is called without the flag, before the exception is handled -/
theorem told_handler {env : Env} {m : EntityMeta} (hm : MetaOk m) {tbl : Node} {x : M Unit}
    (hx : ((x false).out = .ok () ∧ (x false).flag = false ∧ marks (x false).evs = []) ∨
      ((x false).out = .ok () ∧ (x false).flag = true ∧ env.skip = true ∧
        ∃ y, (y = m ∨ PartOf env m y) ∧ y.parent = none ∧ Trail env y (marks (x false).evs)) ∨
      (∃ e, (x false).out = .error e ∧ (x false).flag = false ∧ marks (x false).evs = []) ∨
      (∃ e, (x false).out = .error e ∧ (x false).flag = true ∧ ∃ m', PartOf env m m' ∧ Trail env m' (marks (x false).evs))) :
    Told env m tbl (M.tryCatch x (onFigErrorC env m) false) := by
  rw [M.tryCatch_run]
  rcases hx with ⟨h1, h2, h3⟩ | ⟨h1, h2, h3⟩ | ⟨e, h1, h2, h3⟩ | ⟨e, h1, h2, m', h3, h4⟩
  · rw [h1]; exact .inl ⟨h1, h2, h3⟩
  · rw [h1]; exact .inr (.inl ⟨h1, h2, h3⟩)
  · have hmk : marks ((x false).evs ++ ([Said.ev (.failed m)] ++ [Ev.lint (failEntry m)])) = [.said (.failed m), .report (failEntry m)] := by
      rw [marks_append, h3]
      simp [marks, mark_said, mark_fail]
    rw [h1, h2]
    simp only
    unfold onFigErrorC M.say
    rw [addIssue_none hm.1 (by decide)]
    by_cases hsk : (m.parent.isSome || !env.skip) = true
    · simp only [M.bind_run, M.getFlag_run, M.setFlag_run, M.emit_run, Bool.not_false, if_true, hsk, M.raise_run, List.nil_append,
        List.append_nil]
      refine .inr (.inr (.inr ⟨e, rfl, rfl, by simpa using hsk, ?_⟩))
      change Trail env m (marks ((x false).evs ++ ([Said.ev (.failed m)] ++ [Ev.lint (failEntry m)])))
      rw [hmk]
      exact .here m
    · simp only [M.bind_run, M.getFlag_run, M.setFlag_run, M.emit_run, Bool.not_false, if_true, hsk, Bool.false_eq_true, if_false,
        M.pure_run, List.nil_append, List.append_nil]
      simp only [Bool.or_eq_true, not_or, Bool.not_eq_true, Option.isSome_eq_false_iff, Option.isNone_iff_eq_none, Bool.not_eq_false'] at hsk
      refine .inr (.inl ⟨rfl, rfl, hsk.2, m, .inl rfl, hsk.1, ?_⟩)
      change Trail env m (marks ((x false).evs ++ ([Said.ev (.failed m)] ++ [Ev.lint (failEntry m)])))
      rw [hmk]
      exact .here m
  · have hmk : marks ((x false).evs ++ [Said.ev (.within m)]) = marks (x false).evs ++ [.said (.within m)] := by
      rw [marks_append]
      simp [marks, mark_said]
    have ht : Trail env m (marks ((x false).evs ++ [Said.ev (.within m)])) := by rw [hmk]; exact .out m m' _ h3 h4
    rw [h1, h2]
    simp only
    unfold onFigErrorC M.say
    by_cases hsk : (m.parent.isSome || !env.skip) = true
    · simp only [M.bind_run, M.getFlag_run, M.emit_run, Bool.not_true, Bool.false_eq_true, if_false, hsk, if_true, M.raise_run, List.nil_append,
        List.append_nil]
      exact .inr (.inr (.inr ⟨e, rfl, rfl, by simpa using hsk, ht⟩))
    · simp only [M.bind_run, M.getFlag_run, M.emit_run, Bool.not_true, Bool.false_eq_true, if_false, hsk, M.pure_run, List.nil_append,
        List.append_nil]
      simp only [Bool.or_eq_true, not_or, Bool.not_eq_true, Option.isSome_eq_false_iff, Option.isNone_iff_eq_none, Bool.not_eq_false'] at hsk
      exact .inr (.inl ⟨rfl, rfl, hsk.2, m, .inl rfl, hsk.1, ht⟩)

omit [Uni] in
theorem mark_own {fig : Str} {evs : List Ev} (h : ∀ x ∈ evs, OwnLint fig x) (h' : ∀ x ∈ evs, NotSaid x) : marks evs = [] :=
  marks_of fun e he => by
    obtain ⟨err, row, ctx, rfl, -, k1, -, k2⟩ := h e he
    unfold Ev.mark
    rw [h' _ he]
    exact if_neg (fun h => h.elim k1 k2)

section
variable {env : Env} {m : EntityMeta} {tbl : Node} {p : ParseFn} (hE : EnvOk env) (hp : ParseTold env tbl.size p) (hm : MetaOk m)
include hE hp hm

theorem told_structCall (c : StructCls) (cols : Cols)
    (hc : ∀ pre newId, c.handler = .split pre newId → env.overrides.lookup m.figId = some (.struct c)) :
    Told env m tbl (M.tryCatch (structCall p c m cols tbl) (onFigErrorC env m) false) := by
  refine told_handler hm ?_
  have hrows := tells_structRows hE hp hm c.handler cols (rowIter tbl).2 (rowIter tbl).1 (fun r h => h) false
  unfold structCall
  simp only
  rcases hrows with ⟨o, h1, h2, h3, h4⟩ | ⟨e, h1, h2, h3⟩ | ⟨e, h1, h2, m', h3, h4⟩
  · have hv : marks (structEvs m.figId (layoutOrder c.ty o.1) ++ [Ev.ent ⟨m, .struct c.ty (layoutOrder c.ty o.1)⟩]) = [] := by
      rw [marks_append, mark_own (structEvs_own m.figId _)]
      · rfl
      · have := quiet_validateStruct m.figId (layoutOrder c.ty o.1) false
        rw [validateStruct_run _ hm.1] at this
        exact this
    rw [M.bind_ok h1, h2, M.bind_run, validateStruct_run _ hm.1]
    simp only
    rw [M.bind_run, M.yield_run]
    simp only
    obtain ⟨fs, extra⟩ := o
    cases extra with
    | none =>
      refine .inl ⟨rfl, rfl, ?_⟩
      simp only [parseExtra, M.pure_run, List.append_nil]
      rw [marks_append, h3, hv]
      rfl
    | some x =>
      obtain ⟨row, hrow, pre, newId, title, hh, rfl⟩ := h4 x rfl
      simp only [parseExtra]
      have hov := hc _ _ hh
      have hE' := hE _ _ _ _ hov hh
      have hin : PartOf env m ⟨title, newId, none⟩ := .further c pre newId title hov hh
      have hmk : ∀ evs : List Ev, marks ((structRows p m.figId c.handler cols (rowIter tbl).2 false (rowIter tbl).1 false).evs ++
          (structEvs m.figId (layoutOrder c.ty fs) ++ ([Ev.ent ⟨m, .struct c.ty (layoutOrder c.ty fs)⟩] ++ evs))) = marks evs := by
        intro evs
        rw [← List.append_assoc (structEvs _ _), marks_append, h3, marks_append, hv]
        rfl
      rw [hmk]
      rcases hp ⟨title, newId, none⟩ (.elem tTable [] row.following) false (following_smaller hrow) ⟨hE'.1, by simp⟩ with
        ⟨k1, k2, k3⟩ | ⟨k1, k2, k3, x, k4, k5, k6⟩ | ⟨k1, k2, k3, -⟩ | ⟨e, k1, k2, k3, k4⟩
      · exact .inl ⟨k1, k2, k3⟩
      · refine .inr (.inl ⟨k1, k2, k3, x, ?_, k5, k6⟩)
        rcases k4 with rfl | k4
        · exact .inr hin
        · exfalso
          cases k4 with
          | nested key => cases k5
          | further c' pre' newId' title' j1 j2 => rw [hE'.2.2] at j1; cases j1
      · exact .inr (.inr (.inl ⟨_, k1, k2, k3⟩))
      · exact .inr (.inr (.inr ⟨e, k1, k2, _, hin, k4⟩))
  · rw [M.bind_err h1]
    exact .inr (.inr (.inl ⟨e, rfl, h2, h3⟩))
  · rw [M.bind_err h1]
    exact .inr (.inr (.inr ⟨e, rfl, h2, m', h3, h4⟩))

theorem told_valueCall (cols : Cols) :
    Told env m tbl (M.tryCatch (valueCall p env.labelOverrides m cols tbl) (onFigErrorC env m) false) := by
  refine told_handler hm ?_
  have hrows := tells_valueRows hE hp hm cols (rowIter tbl).2 (rowIter tbl).1 (fun r h => h)
  unfold valueCall
  simp only
  rcases hrows with ⟨o, h1, h2, h3, -⟩ | ⟨e, h1, h2, h3⟩ | ⟨e, h1, h2, m', h3, h4⟩
  · have hv : marks (valuesEvs m.figId o ++ [Ev.ent ⟨m, .values o⟩]) = [] := by
      rw [marks_append, mark_own (valuesEvs_own m.figId _)]
      · rfl
      · have := quiet_validateValues m.figId o false
        rw [validateValues_run _ hm.1] at this
        exact this
    rw [M.bind_ok h1, h2, M.bind_run, validateValues_run _ hm.1]
    simp only
    rw [M.yield_run]
    simp only
    refine .inl ⟨trivial, trivial, ?_⟩
    rw [marks_append, h3, hv]
    rfl
  · rw [M.bind_err h1]
    exact .inr (.inr (.inl ⟨e, rfl, h2, h3⟩))
  · rw [M.bind_err h1]
    exact .inr (.inr (.inr ⟨e, rfl, h2, m', h3, h4⟩))

theorem told_onParseFig (f : Bool) : Told env m tbl (onParseFigC env p m tbl f) := by
  have hh : marks (headerIssues m.figId tbl) = [] := by
    refine mark_own (headerIssues_own m.figId tbl) ?_
    have := quiet_headers m.figId (headerCells tbl) false
    rw [show extractHdrs m.figId (headerCells tbl) = extractTblHeaders m.figId tbl from rfl, C15_headers m.figId tbl hm.1 false] at this
    exact this
  have hpre : ∀ r : Res Unit, Told env m tbl r → Told env m tbl ⟨headerIssues m.figId tbl ++ r.evs, r.flag, r.out⟩ := by
    intro r hr
    unfold Told at hr ⊢
    simp only [marks_append, hh, List.nil_append]
    exact hr
  have run : ∀ c mapping, c.canApply (columnNames tbl) = some mapping →
      (env.overrides.lookup m.figId = none ∧ firstApplicable extractors (columnNames tbl) = some (c, mapping) ∨
        env.overrides.lookup m.figId = some c ∧ c.canApply (columnNames tbl) = some mapping) →
      Told env m tbl (runExtractorC env p m tbl (columnNames tbl) c mapping false) := by
    intro c mapping hcan hsel
    obtain ⟨cols, hcols⟩ := mkCols_ok hcan
    unfold runExtractorC
    rw [hcols, M.ofExcept_ok, pure_bind]
    cases c with
    | value => exact told_valueCall hE hp hm cols
    | struct c =>
      refine told_structCall hE hp hm c cols ?_
      intro pre newId hh
      rcases hsel with ⟨_, h2⟩ | ⟨h1, _⟩
      · have := (firstApplicable_some h2).1
        simp only [extractors, List.mem_cons, Cls.struct.injEq, List.not_mem_nil, or_false, reduceCtorEq, false_or] at this
        rcases this with h | h <;> (subst h; simp [bytesCls, bitsCls] at hh)
      · exact h1
  unfold onParseFigC
  rw [M.bind_run, M.setFlag_run]
  simp only
  rw [M.bind_run, C15_headers m.figId tbl hm.1 false]
  simp only [List.nil_append]
  obtain hov | ⟨c, hov⟩ := Option.eq_none_or_eq_some (env.overrides.lookup m.figId)
  · obtain hnone | ⟨⟨c, mapping⟩, hsome⟩ := Option.eq_none_or_eq_some (firstApplicable extractors (columnNames tbl))
    · simp only [hov, hnone]
      rw [addIssue_none hm.1 (by decide)]
      refine .inl ⟨rfl, rfl, ?_⟩
      rw [marks_append, hh]
      exact marks_of fun e he => by
        rw [M.emit_run, List.mem_singleton] at he
        subst he
        exact mark_issue (by decide) (by decide) (by decide) _ _ _
    · simp only [hov, hsome]
      exact hpre _ (run c mapping (firstApplicable_some hsome).2 (.inl ⟨hov, hsome⟩))
  · obtain hnone | ⟨mapping, hsome⟩ := Option.eq_none_or_eq_some (c.canApply (columnNames tbl))
    · simp only [hov, hnone]
      refine .inr (.inr (.inl ⟨rfl, rfl, ?_, c, hov, hnone⟩))
      rw [M.raise_run, List.append_nil]
      exact hh
    · simp only [hov, hsome]
      exact hpre _ (run c mapping hsome (.inr ⟨hov, hsome⟩))
end

/-- what is said about a figure -/
theorem told_parseFig {env : Env} (hE : EnvOk env) (n : Nat) (m : EntityMeta) (tbl : Node) (hn : tbl.size ≤ n) (hm : MetaOk m) (f : Bool) :
    Told env m tbl (parseFigC env n m tbl f) := by
  induction n generalizing m tbl f with
  | zero => have := size_pos tbl; omega
  | succ n ih => exact told_onParseFig hE (fun m' t f' ht hm' => ih m' t (by omega) hm' f') hm f

theorem told_parseFigure {env : Env} (hE : EnvOk env) (m : EntityMeta) (tbl : Node) (hm : MetaOk m) (f : Bool) :
    Told env m tbl (parseFigureC env m tbl f) := told_parseFig hE _ m tbl (Nat.le_refl _) hm f

end Spex
