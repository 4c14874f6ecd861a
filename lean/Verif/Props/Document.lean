import Verif.Props.Figures
import Verif.Props.Sample
/-
C26-C28, C30-C33, C37: whole documents.
-/
set_option autoImplicit false
namespace Spex
variable [Uni]

/-! ### Vocabulary -/

/-- the events apart from T1008, whose placeholder counts figures from the start of the document -/
def exceptT1008 (evs : List Ev) : List Ev := evs.filter fun
  | .ent _ => true
  | .lint l => l.err != .tblFigIdExtractErr

omit [Uni] in
theorem exceptT1008_append (a b : List Ev) : exceptT1008 (a ++ b) = exceptT1008 a ++ exceptT1008 b := List.filter_append ..

omit [Uni] in
theorem entities_exceptT1008 (evs : List Ev) : entities (exceptT1008 evs) = entities evs := by
  induction evs with
  | nil => rfl
  | cons x xs ih =>
    cases x with
    | ent e => simp_all [entities, exceptT1008]
    | lint l =>
      simp only [exceptT1008, List.filter_cons]
      split <;> simp_all [entities, exceptT1008]

/-- the document whose body has these children -/
abbrev docOf (ts : List Node) : Node := .elem c!"html" [] [.elem c!"body" [] ts]

omit [Uni] in
theorem figures_docOf {ts : List Node} (h : ∀ t ∈ ts, t.hasTag tTable = true) : figures (docOf ts) = ts := by
  have hb : (docOf ts).childs c!"body" = [.elem c!"body" [] ts] := by
    simp [Node.childs, Node.kids, Node.hasTag]
  unfold figures
  rw [hb]
  simp only [List.flatMap_cons, List.flatMap_nil, List.append_nil, Node.childs, Node.kids]
  exact List.filter_eq_self.mpr h

omit [Uni] in
theorem figures_table {root t : Node} (h : t ∈ figures root) : t.hasTag tTable = true := by
  simp only [figures, List.mem_flatMap, Node.childs, List.mem_filter] at h
  obtain ⟨b, -, h⟩ := h
  exact h.2

/-! ### processing table by table -/

/-- one table, with the number of figures without an id before it -/
def runTable (env : Env) (k : Nat) (t : Node) : Res Unit := parseTables env k [t] false

/-- does the table have a title, but no figure id in it; then the title -/
def untitledId (t : Node) : Option Str :=
  match (unwrapTable t).nthChild tTr 1 with
  | none => none
  | some tr => match figureTitle tr with
    | none => none
    | some title => match figureId title with
      | none => some title
      | some _ => none

theorem parseTables_flag (env : Env) (ts : List Node) (k : Nat) (f : Bool) :
    (parseTables env k ts f).evs = (parseTables env k ts false).evs ∧ (parseTables env k ts f).out = (parseTables env k ts false).out := by
  induction ts generalizing k f with
  | nil => exact ⟨rfl, rfl⟩
  | cons t ts ih =>
    simp only [parseTables]
    obtain h1 | ⟨tr, h1⟩ := Option.eq_none_or_eq_some ((unwrapTable t).nthChild tTr 1)
    · rw [h1]; exact ⟨rfl, rfl⟩
    rw [h1]
    simp only
    obtain h2 | ⟨title, h2⟩ := Option.eq_none_or_eq_some (figureTitle tr)
    · rw [h2]; exact ih k f
    rw [h2]
    simp only
    obtain h3 | ⟨fid, h3⟩ := Option.eq_none_or_eq_some (figureId title)
    · rw [h3]
      simp only
      rw [addIssue_none (by simp [figIdMissing]) (by decide), M.bind_run, M.bind_run, M.emit_run, M.emit_run]
      simp only
      exact ⟨by rw [(ih _ f).1], (ih _ f).2⟩
    rw [h3]
    simp only
    rw [M.bind_run, M.bind_run, parseFigure_flag _ _ _ f]
    exact ⟨rfl, rfl⟩

theorem parseTables_cons (env : Env) (t : Node) (ts : List Node) (k : Nat) :
    (parseTables env k (t :: ts) false).evs = (runTable env k t).evs ++ (match (runTable env k t).out with
      | .ok _ => (parseTables env (if (untitledId t).isSome then k + 1 else k) ts false).evs
      | .error _ => []) ∧
    (parseTables env k (t :: ts) false).out = (match (runTable env k t).out with
      | .ok _ => (parseTables env (if (untitledId t).isSome then k + 1 else k) ts false).out
      | .error e => .error e) := by
  unfold runTable untitledId
  simp only [parseTables]
  obtain h1 | ⟨tr, h1⟩ := Option.eq_none_or_eq_some ((unwrapTable t).nthChild tTr 1)
  · simp only [h1, M.raise_run, List.append_nil, and_self]
  obtain h2 | ⟨title, h2⟩ := Option.eq_none_or_eq_some (figureTitle tr)
  · simp [h1, h2, M.pure_run]
  obtain h3 | ⟨fid, h3⟩ := Option.eq_none_or_eq_some (figureId title)
  · simp only [h1, h2, h3]
    rw [addIssue_none (by simp [figIdMissing]) (by decide), M.bind_run, M.bind_run, M.emit_run]
    simp only [M.pure_run]
    exact ⟨rfl, rfl⟩
  simp only [h1, h2, h3, Option.isSome_none, Bool.false_eq_true, if_false]
  rw [M.bind_run, M.bind_run]
  cases ho : (parseFigure env ⟨some title, fid, none⟩ (removeFirstTr (unwrapTable t)) false).out with
  | error e => simp
  | ok a =>
    simp only [M.pure_run, List.append_nil]
    exact ⟨by rw [(parseTables_flag env ts k _).1], (parseTables_flag env ts k _).2⟩

omit [Uni] in
theorem lint_exceptT1008 (l : LintEntry) (h : l.err = .tblFigIdExtractErr) : exceptT1008 [.lint l] = [] := by
  simp [exceptT1008, h]

/-- the number of figures without an id before a table only matters for T1008 -/
theorem runTable_number (env : Env) (k j : Nat) (t : Node) :
    exceptT1008 (runTable env k t).evs = exceptT1008 (runTable env j t).evs ∧ (runTable env k t).out = (runTable env j t).out ∧
    (untitledId t = none → runTable env k t = runTable env j t) := by
  unfold runTable untitledId
  simp only [parseTables]
  obtain h1 | ⟨tr, h1⟩ := Option.eq_none_or_eq_some ((unwrapTable t).nthChild tTr 1)
  · rw [h1]; exact ⟨rfl, rfl, fun _ => rfl⟩
  rw [h1]
  simp only
  obtain h2 | ⟨title, h2⟩ := Option.eq_none_or_eq_some (figureTitle tr)
  · rw [h2]; exact ⟨rfl, rfl, fun _ => rfl⟩
  rw [h2]
  simp only
  obtain h3 | ⟨fid, h3⟩ := Option.eq_none_or_eq_some (figureId title)
  · rw [h3]
    simp only
    rw [addIssue_none (by simp [figIdMissing]) (by decide), addIssue_none (by simp [figIdMissing]) (by decide), M.bind_run, M.bind_run,
      M.emit_run, M.emit_run]
    refine ⟨?_, rfl, by simp⟩
    simp only [M.pure_run, List.append_nil]
    rw [lint_exceptT1008 _ rfl, lint_exceptT1008 _ rfl]
  rw [h3]
  exact ⟨rfl, rfl, fun _ => rfl⟩

theorem parseDoc_single (env : Env) {root t : Node} (h : t ∈ figures root) : parseDoc env (docOf [t]) = runTable env 0 t := by
  unfold parseDoc runTable
  rw [figures_docOf (by intro x hx; simp only [List.mem_singleton] at hx; exact hx ▸ figures_table h)]

/-! ### C26 -/

/-- C26, in general: if no table aborts the run when processed by itself, then none does in the document, and the output of the
document is the output of its tables, each processed by itself, one after the other (apart from the numbers in T1008). -/
theorem C26_concatenation (env : Env) (root : Node) (h : ∀ t ∈ figures root, (parseDoc env (docOf [t])).out = .ok ()) :
    (parseDoc env root).out = .ok () ∧
    exceptT1008 (parseDoc env root).evs = (figures root).flatMap (fun t => exceptT1008 (parseDoc env (docOf [t])).evs) := by
  have key : ∀ (ts : List Node) k, (∀ t ∈ ts, t ∈ figures root) → (parseTables env k ts false).out = .ok () ∧
      exceptT1008 (parseTables env k ts false).evs = ts.flatMap (fun t => exceptT1008 (parseDoc env (docOf [t])).evs) := by
    intro ts
    induction ts with
    | nil => intro k _; exact ⟨rfl, rfl⟩
    | cons t ts ih =>
      intro k hts
      have ht := hts t (List.mem_cons_self ..)
      have ho : (runTable env k t).out = .ok () := by
        rw [(runTable_number env k 0 t).2.1, ← parseDoc_single env ht]
        exact h t ht
      obtain ⟨h1, h2⟩ := parseTables_cons env t ts k
      rw [ho] at h1 h2
      simp only at h1 h2
      have ih := ih (if (untitledId t).isSome then k + 1 else k) (fun x hx => hts x (List.mem_cons_of_mem _ hx))
      refine ⟨h2.trans ih.1, ?_⟩
      rw [h1, exceptT1008_append, ih.2, (runTable_number env k 0 t).1, ← parseDoc_single env ht]
      rfl
  exact key _ _ (fun t h => h)

/-- a table which has a row, and whose figure, if it requires an extractor, has the columns which that extractor needs -/
def Processable (env : Env) (t : Node) : Prop :=
  ∃ tr, (unwrapTable t).nthChild tTr 1 = some tr ∧
    ∀ title fid, figureTitle tr = some title → figureId title = some fid →
      ¬ Mismatch env ⟨some title, fid, none⟩ (removeFirstTr (unwrapTable t))

/-- C26: with skip on error, a document is processed to its end, and its output is the output of its tables, each processed by
itself, one after the other: failing figures have no influence on others. The hypothesis is needed, see `C26_abort_false`. -/
theorem C26_isolation_partial (env : Env) (hE : EnvOk env) (hs : env.skip = true) (root : Node)
    (h : ∀ t ∈ figures root, Processable env t) :
    (parseDoc env root).out = .ok () ∧
    exceptT1008 (parseDoc env root).evs = (figures root).flatMap (fun t => exceptT1008 (parseDoc env (docOf [t])).evs) ∧
    entities (parseDoc env root).evs = (figures root).flatMap (fun t => entities (parseDoc env (docOf [t])).evs) := by
  have hout : ∀ t ∈ figures root, (parseDoc env (docOf [t])).out = .ok () := by
    intro t ht
    obtain ⟨tr, h1, h2⟩ := h t ht
    have hd := docTrace_parseDoc hE (docOf [t])
    rw [figures_docOf (by intro x hx; simp only [List.mem_singleton] at hx; exact hx ▸ figures_table ht)] at hd
    generalize (parseDoc env (docOf [t])).evs = evs at hd
    generalize (parseDoc env (docOf [t])).out = out at hd
    cases hd with
    | step k t ts evs s k' evs' r a1 a2 a3 =>
      cases a3
      rfl
    | stop k t ts evs e c k' a1 =>
      exfalso
      cases a1 with
      | noRow hn => rw [h1] at hn; simp at hn
      | figure tr' title fid _ _ b1 b2 b3 b4 =>
        rw [h1] at b1
        simp only [Option.some.injEq] at b1
        subst b1
        cases c with
        | none => exact h2 title fid b2 b3 b4.raised_none.1
        | some c =>
          generalize hp : Phase.fig = p at b4
          generalize hm : EntityMeta.mk (some title) fid none = m at b4
          generalize hr : End.raised e (some c) = s at b4
          cases b4 with
          | mismatch => simp at hr
          | split _ _ c' pre newId title' row a b _ _ _ _ _ _ _ _ _ h8 => exact h8 _ _ hr.symm
          | splitFailed =>
            rw [← hm] at hr
            simp [failEnd, hs] at hr
          | failed =>
            rw [← hm] at hr
            simp [failEnd, hs] at hr
          | _ => first | (simp at hp; done) | simp at hr
  obtain ⟨h1, h2⟩ := C26_concatenation env root hout
  refine ⟨h1, h2, ?_⟩
  rw [← entities_exceptT1008, h2]
  have : ∀ ts : List Node, entities (ts.flatMap (fun t => exceptT1008 (parseDoc env (docOf [t])).evs)) =
      ts.flatMap (fun t => entities (parseDoc env (docOf [t])).evs) := by
    intro ts
    induction ts with
    | nil => rfl
    | cons t ts ih => simp only [List.flatMap_cons, entities_append, ih, entities_exceptT1008]
  exact this _

theorem mismatch_raises {env : Env} {m : EntityMeta} {tbl : Node} (h : Mismatch env m tbl) (hm : m.figId ≠ []) (f : Bool) :
    (parseFigure env m tbl f).out = .error .runtimeError := by
  obtain ⟨c, h1, h2⟩ := h
  unfold parseFigure
  obtain ⟨n, hn⟩ := Nat.exists_eq_succ_of_ne_zero (Nat.pos_iff_ne_zero.1 (Spex.size_pos tbl))
  rw [hn, parseFig]
  unfold onParseFig
  rw [M.bind_run, M.setFlag_run]
  simp only
  rw [M.bind_run, C15_headers _ _ hm]
  simp only [h1, h2, M.raise_run]

/-- C26: with skip on error, exactly those documents are processed to their end whose tables all have a row, and the columns which
the extractor needs that is required for them. Nothing else in a figure can end the run. -/
theorem C26_ends_iff (env : Env) (hE : EnvOk env) (hs : env.skip = true) (root : Node) :
    (parseDoc env root).out = .ok () ↔ ∀ t ∈ figures root, Processable env t := by
  refine ⟨fun h => ?_, fun h => (C26_isolation_partial env hE hs root h).1⟩
  unfold parseDoc at h
  generalize figures root = ts at h ⊢
  generalize 0 = k at h
  induction ts generalizing k with
  | nil => intro t ht; cases ht
  | cons t ts ih =>
    obtain ⟨-, h2⟩ := parseTables_cons env t ts k
    rw [h2] at h
    cases ho : (runTable env k t).out with
    | error e => rw [ho] at h; cases h
    | ok a =>
      rw [ho] at h
      simp only at h
      intro t' ht'
      rcases List.mem_cons.1 ht' with rfl | ht'
      · unfold runTable at ho
        simp only [parseTables] at ho
        obtain h1 | ⟨tr, h1⟩ := Option.eq_none_or_eq_some ((unwrapTable t').nthChild tTr 1)
        · rw [h1] at ho; cases ho
        refine ⟨tr, h1, fun title fid g1 g2 hmis => ?_⟩
        rw [h1] at ho
        simp only [g1, g2] at ho
        rw [M.bind_run] at ho
        have := mismatch_raises hmis (figureId_ne g2) false
        simp only [this] at ho
        cases ho
      · exact ih _ h t' ht'

/-! ### C27 -/

/-- C27: if a run is aborted, then by the first table which, processed by itself, is. The output is that of a run on the tables
before it, followed by what this table puts out by itself. -/
theorem C27_good_prefix (env : Env) (root : Node) (e : Exn) (h : (parseDoc env root).out = .error e) :
    ∃ A t B, figures root = A ++ t :: B ∧ (parseDoc env (docOf A)).out = .ok () ∧
      (parseDoc env (docOf [t])).out = .error e ∧
      (parseDoc env root).evs = (parseDoc env (docOf A)).evs ++ (parseDoc env (docOf [t])).evs := by
  have key : ∀ (ts : List Node) k, (parseTables env k ts false).out = .error e →
      ∃ A t B, ts = A ++ t :: B ∧ (parseTables env k A false).out = .ok () ∧ (runTable env 0 t).out = .error e ∧
      (parseTables env k ts false).evs = (parseTables env k A false).evs ++ (runTable env 0 t).evs := by
    intro ts
    induction ts with
    | nil => intro k h; simp [parseTables, M.pure_run] at h
    | cons t ts ih =>
      intro k h
      obtain ⟨h1, h2⟩ := parseTables_cons env t ts k
      cases ho : (runTable env k t).out with
      | error e' =>
        rw [ho] at h1 h2
        simp only [List.append_nil] at h1 h2
        rw [h2] at h
        simp only [Except.error.injEq] at h
        subst h
        have hu : untitledId t = none := by
          cases hu : untitledId t with
          | none => rfl
          | some title =>
            exfalso
            unfold untitledId at hu
            unfold runTable at ho
            simp only [parseTables] at ho
            obtain h1 | ⟨tr, h1⟩ := Option.eq_none_or_eq_some ((unwrapTable t).nthChild tTr 1)
            · rw [h1] at hu; simp at hu
            rw [h1] at hu ho
            simp only at hu ho
            obtain h2 | ⟨title', h2⟩ := Option.eq_none_or_eq_some (figureTitle tr)
            · rw [h2] at hu; simp at hu
            rw [h2] at hu ho
            simp only at hu ho
            obtain h3 | ⟨fid, h3⟩ := Option.eq_none_or_eq_some (figureId title')
            · rw [h3] at ho
              simp only at ho
              rw [addIssue_none (by simp [figIdMissing]) (by decide), M.bind_run, M.emit_run] at ho
              simp [M.pure_run] at ho
            · rw [h3] at hu; simp at hu
        exact ⟨[], t, ts, rfl, rfl, by rw [← (runTable_number env k 0 t).2.1, ho], by
          rw [h1, (runTable_number env k 0 t).2.2 hu]; rfl⟩
      | ok a =>
        rw [ho] at h1 h2
        simp only at h1 h2
        rw [h2] at h
        obtain ⟨A, t', B, k1, k2, k3, k4⟩ := ih _ h
        obtain ⟨j1, j2⟩ := parseTables_cons env t A k
        rw [ho] at j1 j2
        simp only at j1 j2
        exact ⟨t :: A, t', B, by rw [k1]; rfl, j2.trans k2, k3, by rw [h1, j1, k4, List.append_assoc]⟩
  obtain ⟨A, t, B, h1, h2, h3, h4⟩ := key _ 0 h
  have ht : t ∈ figures root := by rw [h1]; simp
  have hA : ∀ x ∈ A, x.hasTag tTable = true := fun x hx => figures_table (by rw [h1]; exact List.mem_append_left _ hx)
  refine ⟨A, t, B, h1, ?_, ?_, ?_⟩
  · unfold parseDoc; rw [figures_docOf hA]; exact h2
  · rw [parseDoc_single env ht]; exact h3
  · rw [parseDoc_single env ht]
    conv_rhs => unfold parseDoc
    rw [figures_docOf hA]
    exact h4

/-! ### C28 -/

/-- C28: on a document which is processed without an exception, skip on error changes nothing. -/
theorem C28_skip_inert (env : Env) (hs : env.skip = false) (root : Node) (h : (parseDoc env root).out = .ok ()) :
    parseDoc { env with skip := true } root = parseDoc env root := by
  have key : ∀ (ts : List Node) k f, (parseTables env k ts f).out = .ok () →
      parseTables { env with skip := true } k ts f = parseTables env k ts f := by
    intro ts
    induction ts with
    | nil => intro k f _; rfl
    | cons t ts ih =>
      intro k f h
      simp only [parseTables] at h ⊢
      obtain h1 | ⟨tr, h1⟩ := Option.eq_none_or_eq_some ((unwrapTable t).nthChild tTr 1)
      · rw [h1]
      rw [h1] at h ⊢
      simp only at h ⊢
      obtain h2 | ⟨title, h2⟩ := Option.eq_none_or_eq_some (figureTitle tr)
      · rw [h2] at h ⊢
        exact ih k f h
      rw [h2] at h ⊢
      simp only at h ⊢
      obtain h3 | ⟨fid, h3⟩ := Option.eq_none_or_eq_some (figureId title)
      · rw [h3] at h ⊢
        simp only at h ⊢
        rw [addIssue_none (by simp [figIdMissing]) (by decide)] at h ⊢
        rw [M.bind_run, M.emit_run] at h
        rw [M.bind_run, M.bind_run, M.emit_run]
        simp only at h ⊢
        rw [ih _ _ h]
      rw [h3] at h ⊢
      simp only at h ⊢
      obtain ⟨a, h4, h5, -, -⟩ := M.bind_out_ok h
      rw [M.bind_run, M.bind_run, parseFigure_skip env hs _ _ _ a h4, h4]
      simp only
      rw [ih _ _ h5]
  exact key _ _ _ h

/-! ### C30 -/

/-- What the tools reading diagnostics rely on: a figure id, a message, and a row for codes which concern rows. -/
def WellFormed (l : LintEntry) : Prop :=
  l.fig ≠ [] ∧ l.msg ≠ [] ∧ (∀ c rest, l.err.code = c :: rest → (c = 'R' ∨ c = 'L' ∨ c = 'V') → l.row.isSome = true)

omit [Uni] in
theorem wellFormed_issue {err : LintErr} {fig : Str} {row : Option Str} {ctx : List (Str × Json)} (hf : fig ≠ [])
    (h : err.needsRow = false ∨ row.isSome = true) : WellFormed (issue err fig row ctx) := by
  refine ⟨hf, ?_, ?_⟩
  · cases err <;> simp [issue, LintErr.text]
  · intro c rest hc hrlv
    rcases h with h | h
    · exfalso
      simp only [issue] at hc
      unfold LintErr.needsRow at h
      rw [hc] at h
      rcases hrlv with rfl | rfl | rfl <;> simp at h
    · exact h

theorem Trace.exn {env : Env} {p : Phase} {m : EntityMeta} {tbl : Node} {evs : List Ev} {s : End}
    (h : Trace env p m tbl evs s) (e : Exn) (c : Option Str) (hs : s = .raised e c) : RowExn e ∨ e = .runtimeError := by
  have hfail : ∀ (m : EntityMeta) e' cul, failEnd env m e' cul = .raised e c → e' = e := by
    intro m e' cul h
    unfold failEnd at h
    split at h
    · simp only [End.raised.injEq] at h; exact h.1
    · simp at h
  induction h generalizing c with
  | nil => simp at hs
  | raise m tbl e' h => simp only [End.raised.injEq] at hs; exact .inl (hs.1 ▸ h)
  | lint => simp at hs
  | nested m tbl key row td t evs s h1 h2 h3 h3' h4 ih => exact ih c hs hfail
  | app m tbl a b s h1 h2 ih1 ih2 => exact ih2 c hs hfail
  | skipped => simp at hs
  | mismatch => simp only [End.raised.injEq] at hs; exact .inr hs.1.symm
  | struct => simp at hs
  | value => simp at hs
  | split m tbl c' pre newId title row a b s h1 h2 h3 h4 h5 h6 h6' h7 h8 => exact absurd hs (h8 _ _)
  | splitFailed m tbl c' pre newId title row a b e' cul h1 h2 h3 h4 h5 h6 h6' h7 ih1 ih2 =>
    have := hfail _ _ _ hs
    subst this
    exact ih2 cul rfl (fun m e' cul h => by
      unfold failEnd at h
      split at h
      · simp only [End.raised.injEq] at h; exact h.1
      · simp at h)
  | failed m tbl evs e' cul h ih =>
    have := hfail _ _ _ hs
    subst this
    exact ih cul rfl (fun m e' cul h => by
      unfold failEnd at h
      split at h
      · simp only [End.raised.injEq] at h; exact h.1
      · simp at h)

/-- C30: every diagnostic is well formed. -/
theorem C30_diagnostics_wellformed (env : Env) (hE : EnvOk env) (root : Node) (l : LintEntry)
    (h : .lint l ∈ (parseDoc env root).evs) : WellFormed l := by
  rcases (docTrace_parseDoc hE root).figure_of _ h with ⟨t, ht, tr, title, fid, fe, s, a1, a2, a3, a4, a5, a6⟩ | ⟨t, ht, tr, title, j, -, -, -, h⟩
  · refine Trace.forall (P := fun m x => m.figId ≠ [] → ∀ l, x = .lint l → WellFormed l) ?_ ?_ ?_ ?_ ?_ ?_ ?_ a4 _ a5
      (figureId_ne a3) l rfl
    · rintro m x ⟨err, row, ctx, rfl, h1, -⟩ hm l hl
      simp only [Ev.lint.injEq] at hl
      exact hl ▸ wellFormed_issue hm h1
    · intro m hm l hl
      simp only [failLint, Ev.lint.injEq] at hl
      exact hl ▸ wellFormed_issue hm (.inl (by decide))
    · intro m ctx hm l hl
      simp only [Ev.lint.injEq] at hl
      exact hl ▸ wellFormed_issue hm (.inl (by decide))
    · intro m ty fs _ l hl; simp at hl
    · intro m fs _ l hl; simp at hl
    · intro m key x h hm; exact h (by simp [nestedMeta])
    · intro m c pre newId title x h1 h2 h hm; exact h (hE _ _ _ _ h1 h2).1
  · simp only [Ev.lint.injEq] at h
    exact h ▸ wellFormed_issue (by simp [figIdMissing]) (.inl (by decide))

/-- the messages of diagnostics are those of their codes -/
theorem diagnostics_text {env : Env} (hE : EnvOk env) {root : Node} {l : LintEntry} (h : .lint l ∈ (parseDoc env root).evs) : l.msg = l.err.text := by
  rcases (docTrace_parseDoc hE root).figure_of _ h with ⟨t, ht, tr, title, fid, fe, s, a1, a2, a3, a4, a5, a6⟩ | ⟨t, ht, tr, title, j, -, -, -, h⟩
  · refine Trace.forall (P := fun _ x => ∀ l, x = .lint l → l.msg = l.err.text) ?_ ?_ ?_ ?_ ?_ ?_ ?_ a4 _ a5 l rfl
    · rintro m x ⟨err, row, ctx, rfl, h1, -⟩ l hl
      simp only [Ev.lint.injEq] at hl
      exact hl ▸ rfl
    · intro m l hl
      simp only [failLint, Ev.lint.injEq] at hl
      exact hl ▸ rfl
    · intro m ctx l hl
      simp only [Ev.lint.injEq] at hl
      exact hl ▸ rfl
    · intro m ty fs l hl; simp at hl
    · intro m fs l hl; simp at hl
    · intro m key x h; exact h
    · intro m c pre newId title x h1 h2 h; exact h
  · simp only [Ev.lint.injEq] at h
    exact h ▸ rfl

/-- C30: the message and the code of a diagnostic tell the same: diagnostics of any two documents have the same message just if they have the
same code. -/
theorem C30_message_code (env env' : Env) (hE : EnvOk env) (hE' : EnvOk env') (root root' : Node) (l l' : LintEntry)
    (h : .lint l ∈ (parseDoc env root).evs) (h' : .lint l' ∈ (parseDoc env' root').evs) : l.msg = l'.msg ↔ l.err.code = l'.err.code := by
  rw [diagnostics_text hE h, diagnostics_text hE' h']
  cases l.err <;> cases l'.err <;> decide

/-- C30: no run ends with an assertion error, or with any exception but these four. -/
theorem C30_exceptions (env : Env) (hE : EnvOk env) (root : Node) (e : Exn) (h : (parseDoc env root).out = .error e) :
    e = .xpathNotFound ∨ e = .labelExtraction ∨ e = .valueError ∨ e = .runtimeError := by
  have key : ∀ (k : Nat) (ts : List Node) (evs : List Ev) (r : Except Exn Unit), DocTrace env k ts evs r → r = .error e →
      RowExn e ∨ e = .runtimeError := by
    intro k ts evs r h hr
    induction h with
    | nil => simp at hr
    | step k t ts evs s k' evs' r h1 h2 h3 ih => exact ih hr
    | stop k t ts evs e' c k' h1 =>
      simp only [Except.error.injEq] at hr
      subst hr
      cases h1 with
      | noRow => exact .inl (.inl rfl)
      | figure _ _ _ _ _ _ _ _ h => exact h.exn _ _ rfl
  rcases key _ _ _ _ (docTrace_parseDoc hE root) h with (h | h | h) | h
  · exact .inl h
  · exact .inr (.inl h)
  · exact .inr (.inr (.inl h))
  · exact .inr (.inr (.inr h))

/-! ### C31 -/

/-- what remains of a figure -/
theorem Trace.remains {env : Env} {m : EntityMeta} {tbl : Node} {evs : List Ev} {s : End} (hE : EnvOk env)
    (h : Trace env .fig m tbl evs s) (hs : ∀ e c, s ≠ .raised e c) :
    (∃ e ∈ entities evs, e.info = m) ∨ Reported .tblSkipped m.figId evs ∨ ∃ l ∈ reports evs, Family m.figId l.fig := by
  have hfail : ∀ (pre evs : List Ev) e cul, Trace env .rows m tbl evs (.raised e cul) →
      ∃ l ∈ reports (pre ++ (evs ++ failReport m cul)), Family m.figId l.fig := by
    intro pre evs e cul ht
    cases cul with
    | none =>
      refine ⟨issue .tblParseErr m.figId none (match m.title with | some t => [(c!"title", .str t)] | none => []), ?_, .refl _⟩
      refine mem_diagnostics.mpr ⟨List.mem_append_right _ (List.mem_append_right _ (List.mem_singleton.mpr rfl)), rfl⟩
    | some c =>
      obtain ⟨l, h1, h2, -⟩ := ht.report
      have hl : l ∈ reports evs := by rw [h1]; simp
      obtain ⟨h3, h4⟩ := mem_diagnostics.mp hl
      refine ⟨l, mem_diagnostics.mpr ⟨List.mem_append_right _ (List.mem_append_left _ h3), h4⟩, ?_⟩
      have key : ∀ {p : Phase} {m : EntityMeta} {tbl : Node} {evs : List Ev} {s : End}, Trace env p m tbl evs s → p = .rows →
          ∀ x ∈ evs, Family m.figId x.fig := by
        intro p m tbl evs s h
        induction h with
        | nil => simp
        | raise => simp
        | lint => intro _ x hx; simp only [List.mem_singleton] at hx; exact hx ▸ .refl _
        | nested m tbl key row td t evs s h1 h2 h3 h3' h4 ih =>
          intro _ x hx
          rcases h4.family hE x hx with h | h
          · exact .inr (Family.nested h)
          · exact absurd h (further_nested hE)
        | app m tbl a b s h1 h2 ih1 ih2 =>
          intro hp x hx
          rcases List.mem_append.mp hx with h | h
          · exact ih1 hp x h
          · exact ih2 hp x h
        | _ => intro hp; simp at hp
      exact key ht rfl _ h3
  generalize hp : Phase.fig = p at h
  cases h with
  | skipped _ _ =>
    exact .inr (.inl ⟨_, mem_diagnostics.mpr ⟨List.mem_append_right _ (List.mem_singleton.mpr rfl), rfl⟩, rfl⟩)
  | mismatch => exact absurd rfl (hs _ _)
  | struct _ _ c cols evs fs =>
    exact .inl ⟨_, mem_entities.mpr (List.mem_append_right _ (List.mem_append_right _ (List.mem_append_right _ (List.mem_singleton.mpr rfl)))), rfl⟩
  | value _ _ cols evs fs =>
    exact .inl ⟨_, mem_entities.mpr (List.mem_append_right _ (List.mem_append_right _ (List.mem_append_right _ (List.mem_singleton.mpr rfl)))), rfl⟩
  | split _ _ c pre newId title row a b _ h1 h2 h3 h4 h5 h6 =>
    obtain ⟨ty, fs, h6⟩ := h6
    exact .inl ⟨_, mem_entities.mpr (List.mem_append_left _ h6), rfl⟩
  | splitFailed _ _ c pre newId title row a b e cul h1 h2 h3 h4 h5 h6 =>
    obtain ⟨ty, fs, h6⟩ := h6
    exact .inl ⟨_, mem_entities.mpr (List.mem_append_left _ (List.mem_append_left _ h6)), rfl⟩
  | failed _ _ evs e cul h => exact .inr (.inr (hfail _ _ _ _ h))
  | _ => simp at hp

/-- C31: if a run is not aborted, every table whose first row contains 'Figure' leaves a trace. If its title has a figure id, there
is an entity with this id and title, or a T1007 on the figure, or a T1000 on it or a figure nested in it. Otherwise there is a
T1008 with the title. -/
theorem C31_nothing_lost (env : Env) (hE : EnvOk env) (root : Node) (hok : (parseDoc env root).out = .ok ()) (t tr : Node) (title : Str)
    (ht : t ∈ figures root) (htr : (unwrapTable t).nthChild tTr 1 = some tr) (htitle : figureTitle tr = some title) :
    match figureId title with
    | some fid =>
      (∃ e ∈ entities (parseDoc env root).evs, e.info = ⟨some title, fid, none⟩) ∨
      Reported .tblSkipped fid (parseDoc env root).evs ∨
      ∃ l ∈ reports (parseDoc env root).evs, l.fig = fid ∨ ∃ rest, l.fig = fid ++ '_' :: rest
    | none => ∃ l ∈ diagnostics .tblFigIdExtractErr (parseDoc env root).evs, l.ctx = [(c!"title", .str title)] := by
  have key : ∀ (k : Nat) (ts : List Node) (evs : List Ev) (r : Except Exn Unit), DocTrace env k ts evs r → r = .ok () → t ∈ ts →
      match figureId title with
      | some fid => (∃ e ∈ entities evs, e.info = ⟨some title, fid, none⟩) ∨ Reported .tblSkipped fid evs ∨
          ∃ l ∈ reports evs, l.fig = fid ∨ ∃ rest, l.fig = fid ++ '_' :: rest
      | none => ∃ l ∈ diagnostics .tblFigIdExtractErr evs, l.ctx = [(c!"title", .str title)] := by
    intro k ts evs r h hr ht
    have hmem : ∀ {c : LintErr} {l : LintEntry} {a b : List Ev}, l ∈ diagnostics c a ∨ l ∈ diagnostics c b → l ∈ diagnostics c (a ++ b) := by
      intro c l a b h
      rw [diagnostics_append]
      exact List.mem_append.mpr h
    induction h with
    | nil => simp at ht
    | step k t' ts evs s k' evs' r h1 h2 h3 ih =>
      rcases List.mem_cons.mp ht with rfl | ht
      · clear ih
        cases h1 with
        | noRow h => rw [htr] at h; simp at h
        | noTitle tr' h h' =>
          rw [htr] at h
          simp only [Option.some.injEq] at h
          subst h
          rw [htitle] at h'
          simp at h'
        | noId tr' title' h h' h'' =>
          rw [htr] at h
          simp only [Option.some.injEq] at h
          subst h
          rw [htitle] at h'
          simp only [Option.some.injEq] at h'
          subst h'
          rw [h'']
          exact ⟨_, hmem (.inl (mem_diagnostics.mpr ⟨List.mem_singleton.mpr rfl, rfl⟩)), rfl⟩
        | figure tr' title' fid _ _ h h' h'' h4 =>
          rw [htr] at h
          simp only [Option.some.injEq] at h
          subst h
          rw [htitle] at h'
          simp only [Option.some.injEq] at h'
          subst h'
          rw [h'']
          rcases h4.remains hE h2 with ⟨e, he, h⟩ | ⟨l, hl, h⟩ | ⟨l, hl, h⟩
          · exact .inl ⟨e, by rw [entities_append]; exact List.mem_append_left _ he, h⟩
          · exact .inr (.inl ⟨l, hmem (.inl hl), h⟩)
          · exact .inr (.inr ⟨l, hmem (.inl hl), h⟩)
      · have := ih hr ht
        revert this
        cases figureId title with
        | none => rintro ⟨l, hl, h⟩; exact ⟨l, hmem (.inr hl), h⟩
        | some fid =>
          rintro (⟨e, he, h⟩ | ⟨l, hl, h⟩ | ⟨l, hl, h⟩)
          · exact .inl ⟨e, by rw [entities_append]; exact List.mem_append_right _ he, h⟩
          · exact .inr (.inl ⟨l, hmem (.inr hl), h⟩)
          · exact .inr (.inr ⟨l, hmem (.inr hl), h⟩)
    | stop => simp at hr
  exact key _ _ _ _ (docTrace_parseDoc hE root) hok ht

/-! ### C32 -/

/-- C32: processing ends, for any nesting: once the recursion depth allowed is at least the number of nodes of the table, it makes
no difference how much more is allowed, and the recursion is never cut off. -/
theorem C32_terminates (env : Env) (hE : EnvOk env) (m : EntityMeta) (hm : MetaOk m) (tbl : Node) (n : Nat) (hn : tbl.size ≤ n) :
    parseFig env n m tbl = parseFigure env m tbl ∧ ∀ f, (parseFig env n m tbl f).out ≠ .error .recursionError := by
  refine ⟨parseFig_fuel env tbl.size n m tbl (Nat.le_refl _) hn, fun f h => ?_⟩
  rcases figOk_parseFig hE n m tbl hn hm f with ⟨h1, -⟩ | ⟨c, h1, -⟩ | ⟨e, c, h1, -, h2⟩
  · rw [h1] at h; simp at h
  · rw [h1] at h; simp at h
  · rw [h1] at h
    simp only [Except.error.injEq] at h
    subst h
    rcases h2.exn _ _ rfl with (h | h | h) | h <;> simp at h

/-! ### C33 -/

omit [Uni] in
theorem natDigitsRev_inj (f g n m : Nat) (hn : n < f) (hm : m < g) (h : natDigitsRev f n = natDigitsRev g m) : n = m := by
  have hc : ∀ a b : Nat, a < 10 → b < 10 → Char.ofNat (48 + a) = Char.ofNat (48 + b) → a = b := by
    intro a b ha hb
    have : ∀ a b : Fin 10, Char.ofNat (48 + a) = Char.ofNat (48 + b) → a = b := by decide
    intro h
    have := this ⟨a, ha⟩ ⟨b, hb⟩ h
    simpa using this
  induction f generalizing g n m with
  | zero => omega
  | succ f ih =>
    cases g with
    | zero => omega
    | succ g =>
      have hne : ∀ f n, n < f → natDigitsRev f n ≠ [] := by
        intro f n h
        cases f with
        | zero => omega
        | succ f => simp only [natDigitsRev]; split <;> simp
      simp only [natDigitsRev] at h
      split at h <;> split at h
      · simp only [List.cons.injEq, and_true] at h
        exact hc _ _ ‹_› ‹_› h
      · simp only [List.cons.injEq] at h
        exact absurd h.2.symm (hne _ _ (by omega))
      · simp only [List.cons.injEq] at h
        exact absurd h.2 (hne _ _ (by omega))
      · simp only [List.cons.injEq] at h
        have h1 := hc _ _ (by omega) (by omega) h.1
        have h2 := ih g (n / 10) (m / 10) (by omega) (by omega) h.2
        omega

/-- what stands for the id of the table number `k` without one -/
def placeholder (k : Nat) : Str := c!"FIG_ID_MISSING[" ++ natStr k ++ c!"]"

omit [Uni] in
/-- The placeholders are different from each other. -/
theorem C33_placeholders_distinct (i j : Nat) (h : placeholder i = placeholder j) : i = j := by
  unfold placeholder at h
  have h := List.append_cancel_right (List.append_cancel_left (List.append_assoc .. ▸ List.append_assoc .. ▸ h))
  unfold natStr at h
  exact natDigitsRev_inj _ _ _ _ (by omega) (by omega) (List.reverse_injective h)

/-- the T1008 for the titles without an id, numbered from `k` -/
def numbered (k : Nat) : List Str → List LintEntry
  | [] => []
  | title :: titles => issue .tblFigIdExtractErr (placeholder k) none [(c!"title", .str title)] :: numbered (k + 1) titles

/-- the titles of the tables with a title, but no figure id in it -/
def titlesWithoutId (ts : List Node) : List Str := ts.filterMap untitledId

/-- C33: the T1008 of a run which is not aborted are those for the titles without an id, in order, numbered from 0. Those of an
aborted run are the first of them. -/
theorem C33_numbering (env : Env) (hE : EnvOk env) (root : Node) :
    diagnostics .tblFigIdExtractErr (parseDoc env root).evs <+: numbered 0 (titlesWithoutId (figures root)) ∧
    ((parseDoc env root).out = .ok () →
      diagnostics .tblFigIdExtractErr (parseDoc env root).evs = numbered 0 (titlesWithoutId (figures root))) := by
  have hfig : ∀ {m tbl evs s}, Trace env .fig m tbl evs s → diagnostics .tblFigIdExtractErr evs = [] := by
    intro m tbl evs s h
    rw [List.eq_nil_iff_forall_not_mem]
    intro l hl
    obtain ⟨h1, h2⟩ := mem_diagnostics.mp hl
    refine Trace.forall (P := fun m x => ∀ l, x = .lint l → l.err ≠ .tblFigIdExtractErr) ?_ ?_ ?_ ?_ ?_ ?_ ?_ h _ h1 l rfl h2
    · rintro m x ⟨err, row, ctx, rfl, -, -, -, h⟩ l hl
      simp only [Ev.lint.injEq] at hl
      rw [← hl]
      exact h
    · intro m l hl
      simp only [failLint, Ev.lint.injEq] at hl
      rw [← hl]
      simp [issue]
    · intro m ctx l hl
      simp only [Ev.lint.injEq] at hl
      rw [← hl]
      simp [issue]
    · intro m ty fs l hl; simp at hl
    · intro m fs l hl; simp at hl
    · exact fun _ _ _ h => h
    · exact fun _ _ _ _ _ _ _ _ h => h
  have key : ∀ (k : Nat) (ts : List Node) (evs : List Ev) (r : Except Exn Unit), DocTrace env k ts evs r →
      diagnostics .tblFigIdExtractErr evs <+: numbered k (titlesWithoutId ts) ∧
      (r = .ok () → diagnostics .tblFigIdExtractErr evs = numbered k (titlesWithoutId ts)) := by
    intro k ts evs r h
    induction h with
    | nil => exact ⟨List.nil_prefix, fun _ => rfl⟩
    | step k t ts evs s k' evs' r h1 h2 h3 ih =>
      have hskip : untitledId t = none → titlesWithoutId (t :: ts) = titlesWithoutId ts := by
        intro h
        simp [titlesWithoutId, h]
      cases h1 with
      | noRow => exact absurd rfl (h2 _ _)
      | noTitle tr a1 a2 =>
        rw [hskip (by simp [untitledId, a1, a2])]
        exact ih
      | noId tr title a1 a2 a3 =>
        have : titlesWithoutId (t :: ts) = title :: titlesWithoutId ts := by
          simp [titlesWithoutId, untitledId, a1, a2, a3]
        rw [this, diagnostics_append, diagnostics_lint]
        simp only [issue, if_true, List.singleton_append, numbered, placeholder, figIdMissing]
        exact ⟨List.cons_prefix_cons.mpr ⟨rfl, ih.1⟩, fun h => by rw [ih.2 h]⟩
      | figure tr title fid _ _ a1 a2 a3 a4 =>
        rw [hskip (by simp [untitledId, a1, a2, a3]), diagnostics_append, hfig a4]
        exact ih
    | stop k t ts evs e c k' h1 =>
      refine ⟨?_, by simp⟩
      cases h1 with
      | noRow => exact List.nil_prefix
      | figure tr title fid _ _ a1 a2 a3 a4 => rw [hfig a4]; exact List.nil_prefix
  exact key _ _ _ _ (docTrace_parseDoc hE root)

/-! ### C37 -/

/-- the part of a figure id before the first '_', as used by the report (app.py:123, report_view.py:18) -/
def rootId (fig : Str) : Str := fig.takeWhile (fun c => c != '_')

omit [Uni] in
theorem rootId_family {fig x : Str} (h : '_' ∉ fig) (hx : Family fig x) : rootId x = fig := by
  have hall : ∀ c ∈ fig, (c != '_') = true := by
    intro c hc
    simp only [bne_iff_ne]
    rintro rfl
    exact h hc
  unfold rootId
  rcases hx with rfl | ⟨rest, rfl⟩
  · have := List.takeWhile_append_of_pos (l₂ := []) hall
    simpa using this
  · rw [List.takeWhile_append_of_pos hall]
    simp

/-- C37: the part of the id of an entity or diagnostic before the first '_' is the id in the title of a table of the document
(if that id has no underscore), or of the further figure in such a table, or a placeholder FIG_ID_MISSING. -/
theorem C37_root_figure (env : Env) (hE : EnvOk env) (root : Node) (x : Ev) (h : x ∈ (parseDoc env root).evs) :
    ∃ t ∈ figures root, ∃ tr title, (unwrapTable t).nthChild tTr 1 = some tr ∧ figureTitle tr = some title ∧
      match figureId title with
      | some fid => ('_' ∉ fid → rootId x.fig = fid ∨
          ∃ c pre newId, env.overrides.lookup fid = some (.struct c) ∧ c.handler = .split pre newId ∧
            ('_' ∉ newId → rootId x.fig = newId))
      | none => ∃ k, x.fig = figIdMissing k := by
  rcases (docTrace_parseDoc hE root).figure_of _ h with ⟨t, ht, tr, title, fid, fe, s, a1, a2, a3, a4, a5, a6⟩ | ⟨t, ht, tr, title, j, a1, a2, a3, h⟩
  · refine ⟨t, ht, tr, title, a1, a2, ?_⟩
    rw [a3]
    intro hu
    rcases a4.family hE x a5 with h | ⟨c, pre, newId, h1, h2, h3⟩
    · exact .inl (rootId_family hu h)
    · exact .inr ⟨c, pre, newId, h1, h2, fun hn => rootId_family hn h3⟩
  · refine ⟨t, ht, tr, title, a1, a2, ?_⟩
    rw [a3]
    exact ⟨j, by rw [h]; rfl⟩

/-! ### an example for all of these -/

section
open Sample

/-- figure 7: a bits table with a nested table of values -/
def goodFig : Node := figure c!"Figure 7: Command" [c!"Bits", c!"Description"]
  [[td c!"31:16", tdNest c!"Mode (MO): the mode" [c!"Value", c!"Definition"]
      [[td c!"0h", td c!"Alpha: a"], [td c!"1h", td c!"Beta: b"]]],
   [td c!"15:00", td c!"Kind (KI): the kind"]]
/-- figure 8: a bytes table with a nested table in which a cell lacks its paragraph -/
def badFig : Node := figure c!"Figure 8: Broken" [c!"Bytes", c!"Description"]
  [[td c!"0", tdNest c!"Inner (IN): x" [c!"Bytes", c!"Description"] [[td c!"1", tdBare c!"x"]]]]
def noIdFig : Node := figure c!"Figure : more" [] []
def oddFig : Node := figure c!"Figure 9: Odd" [c!"Foo"] [[td c!"1"]]
def mixedDoc : Node := doc [goodFig, badFig, noIdFig, oddFig, noIdFig]

/-- the id and parent of the entities and the id, code and row of the diagnostics, in order -/
def digest (evs : List Ev) : List (Str × Option Str × Option Str) := evs.map fun
  | .ent e => (e.info.figId, e.info.parent, none)
  | .lint l => (l.fig, some l.err.code, l.row)

/-- C24, C25, C26, C30, C31, C33, C37 with skip on error: two diagnostics have the same code, the others different ones -/
example : letI := Uni.ascii
    digest (parseDoc (envPlain true) mixedDoc).evs =
      [(c!"7_16", some c!"7", none), (c!"7", none, none), (c!"8_0", some c!"T1000", none),
       (c!"FIG_ID_MISSING[0]", some c!"T1008", none), (c!"9", some c!"T1007", none),
       (c!"FIG_ID_MISSING[1]", some c!"T1008", none)] ∧
    (parseDoc (envPlain true) mixedDoc).out.toOption = some () := by decide +kernel

/-- C27: the same document without it -/
example : letI := Uni.ascii
    digest (parseDoc (envPlain false) mixedDoc).evs =
      [(c!"7_16", some c!"7", none), (c!"7", none, none), (c!"8_0", some c!"T1000", none)] ∧
    (parseDoc (envPlain false) mixedDoc).out.toOption = none := by decide +kernel

/-- C28: a document processed without an exception -/
example : letI := Uni.ascii
    (parseDoc (envPlain false) (doc [goodFig, noIdFig, oddFig])).out.toOption = some () := by decide +kernel

/-- C23: the fields of the bits table come in reverse order of the rows -/
example : letI := Uni.ascii
    (entities (parseDoc (envPlain false) mixedDoc).evs).map (·.body) =
      [.values [⟨c!"0h", c!"ALPHA", some c!"a"⟩, ⟨c!"1h", c!"BETA", some c!"b"⟩],
       .struct .bits [⟨c!"ki", .int 0 15, some c!"the kind"⟩,
         ⟨c!"mo", .int 16 31, some c!"the modeValueDefinition0hAlpha: a1hBeta: b"⟩]] := by decide +kernel

/-- the hypothesis of `C26_isolation_partial` holds for this document -/
example : letI := Uni.ascii
    EnvOk (envPlain true) ∧ ∀ t ∈ figures mixedDoc, Processable (envPlain true) t := by
  let _ := Uni.ascii
  refine ⟨(envOk_all true).1, ?_⟩
  have h : ∀ t ∈ figures mixedDoc, ((unwrapTable t).nthChild tTr 1).isSome = true := by decide +kernel
  intro t ht
  obtain ⟨tr, htr⟩ := Option.isSome_iff_exists.mp (h t ht)
  refine ⟨tr, htr, ?_⟩
  rintro title fid - - ⟨c, hc, -⟩
  simp [envPlain] at hc

omit [Uni] in
/-- C26 fails without the hypothesis: one table without a row ends the run, in spite of skip on error, and the figure after it is lost. -/
theorem C26_abort_false : letI := Uni.ascii
    ∃ t, (parseDoc (envPlain true) (doc [t, goodFig])).out = .error .xpathNotFound ∧
      entities (parseDoc (envPlain true) (doc [t, goodFig])).evs = [] ∧
      entities (parseDoc (envPlain true) (doc [goodFig])).evs ≠ [] := by
  let _ := Uni.ascii
  have h : ∀ (x : Except Exn Unit), (match x with | .error .xpathNotFound => true | _ => false) = true → x = .error .xpathNotFound := by
    intro x hx
    split at hx
    · rfl
    · simp at hx
  exact ⟨.elem tTable [] [], h _ (by decide +kernel), by decide +kernel, by decide +kernel⟩

omit [Uni] in
/-- C26 fails without the hypothesis: so does a figure for which a certain extractor is required and which lacks its columns. -/
theorem C26_abort_override_false : letI := Uni.ascii
    ∃ t, (parseDoc (envNvm true) (doc [t, goodFig])).out = .error .runtimeError ∧
      entities (parseDoc (envNvm true) (doc [t, goodFig])).evs = [] ∧
      entities (parseDoc (envNvm true) (doc [goodFig])).evs ≠ [] := by
  let _ := Uni.ascii
  have h : ∀ (x : Except Exn Unit), (match x with | .error .runtimeError => true | _ => false) = true → x = .error .runtimeError := by
    intro x hx
    split at hx
    · rfl
    · simp at hx
  exact ⟨figure c!"Figure 23: Other" [c!"Value", c!"Description"] [], h _ (by decide +kernel), by decide +kernel, by decide +kernel⟩

end

end Spex
