import Verif.Lemmas.TraceUse
/-
C23, C24: the entities of a document, where they come from, and in which order.
-/
set_option autoImplicit false
namespace Spex
variable [Uni]

/-! ### Vocabulary -/

/-- The figures of a document, with their tables: tables with a title, tables in the cells of the rows of a figure, and the
rows which follow a certain row of a figure (those are figures of some documents whose tables are merged). -/
inductive FigureIn (env : Env) (root : Node) : EntityMeta → Node → Prop where
  | top (t tr : Node) (title fid : Str) : t ∈ figures root → (unwrapTable t).nthChild tTr 1 = some tr →
      figureTitle tr = some title → figureId title = some fid →
      FigureIn env root ⟨some title, fid, none⟩ (removeFirstTr (unwrapTable t))
  | nested (m : EntityMeta) (tbl : Node) (row : Row) (cell t : Node) (key : Str) : FigureIn env root m tbl →
      row ∈ (rowIter tbl).1 → cell ∈ row.node.childs tTd → t ∈ cell.childs tTable →
      FigureIn env root ⟨none, m.figId ++ '_' :: key, some m.figId⟩ t
  | further (m : EntityMeta) (tbl : Node) (row : Row) (c : StructCls) (pre newId : Str) (title : Option Str) :
      FigureIn env root m tbl → row ∈ (rowIter tbl).1 → env.overrides.lookup m.figId = some (.struct c) →
      c.handler = .split pre newId → FigureIn env root ⟨title, newId, none⟩ (.elem tTable [] row.following)

/-- how the body of an entity is read from its table -/
def BodyOf (env : Env) (m : EntityMeta) (tbl : Node) (evs : List Ev) : Body → Prop
  | .struct ty fs => ∃ c cols rowEvs, Selected env m tbl (.struct c) cols ∧ c.ty = ty ∧ rowEvs ⊆ evs ∧
      RowsGive (rowIter tbl).1 (fun pre r f => StructFrom m.figId cols (pre.any startsList) r.node rowEvs f) (StructSkip c.handler cols)
        (StructStop c.handler cols) (match ty with | .bytes => fs | .bits => fs.reverse)
  | .values fs => ∃ cols rowEvs, Selected env m tbl .value cols ∧ rowEvs ⊆ evs ∧
      RowsGive (rowIter tbl).1 (fun _ r f => ValueFrom env.labelOverrides m.figId cols r.node rowEvs f) (ValueSkip cols)
        (ValueStop cols) fs

theorem BodyOf.mono {env : Env} {m : EntityMeta} {tbl : Node} {evs evs' : List Ev} {b : Body} (h : BodyOf env m tbl evs b)
    (hs : evs ⊆ evs') : BodyOf env m tbl evs' b := by
  cases b with
  | struct ty fs =>
    obtain ⟨c, cols, re, h1, h2, h3, h4⟩ := h
    exact ⟨c, cols, re, h1, h2, h3.trans hs, h4⟩
  | values fs =>
    obtain ⟨cols, re, h1, h3, h4⟩ := h
    exact ⟨cols, re, h1, h3.trans hs, h4⟩

theorem Trace.bodies {env : Env} {root : Node} {p : Phase} {m : EntityMeta} {tbl : Node} {evs : List Ev} {s : End}
    (h : Trace env p m tbl evs s) (hf : FigureIn env root m tbl) (e : Entity) (he : .ent e ∈ evs) :
    ∃ tbl', FigureIn env root e.info tbl' ∧ BodyOf env e.info tbl' evs e.body := by
  have hup : ∀ {a evs : List Ev}, a ⊆ evs → (∃ tbl', FigureIn env root e.info tbl' ∧ BodyOf env e.info tbl' a e.body) →
      ∃ tbl', FigureIn env root e.info tbl' ∧ BodyOf env e.info tbl' evs e.body :=
    fun hs ⟨t, h1, h2⟩ => ⟨t, h1, h2.mono hs⟩
  have hhdr : ∀ {fig : Str} {tbl : Node}, Ev.ent e ∉ headerIssues fig tbl := by
    intro fig tbl h
    obtain ⟨_, _, _, h, -⟩ := headerIssues_own _ _ _ h
    simp at h
  have hrep : ∀ {m : EntityMeta} {cul : Option Str}, Ev.ent e ∉ failReport m cul := by
    intro m cul h
    cases cul <;> simp [failReport, failLint] at h
  induction h with
  | nil => simp at he
  | raise => simp at he
  | lint => simp at he
  | nested m tbl key row td t evs s h1 h2 h3 h3' h4 ih => exact ih (.nested m tbl row td t key hf h1 h2 h3) he
  | app m tbl a b s h1 h2 ih1 ih2 =>
    rcases List.mem_append.mp he with h | h
    · exact hup (by simp) (ih1 hf h)
    · exact hup (by simp) (ih2 hf h)
  | skipped m tbl =>
    rcases List.mem_append.mp he with h | h
    · exact absurd h hhdr
    · simp at h
  | mismatch m tbl => exact absurd he hhdr
  | struct m tbl c cols evs fs h1 h2 h3 ih =>
    simp only [List.mem_append, List.mem_singleton] at he
    rcases he with h | h | h | h
    · exact absurd h hhdr
    · exact hup (by intro x hx; simp [hx]) (ih hf h)
    · obtain ⟨_, _, _, h, -⟩ := structEvs_own _ _ _ h
      simp at h
    · simp only [Ev.ent.injEq] at h
      subst h
      refine ⟨tbl, hf, c, cols, evs, h1, rfl, by intro x hx; simp [hx], ?_⟩
      cases hty : c.ty <;> simpa [layoutOrder] using h3
  | value m tbl cols evs fs h1 h2 h3 ih =>
    simp only [List.mem_append, List.mem_singleton] at he
    rcases he with h | h | h | h
    · exact absurd h hhdr
    · exact hup (by intro x hx; simp [hx]) (ih hf h)
    · obtain ⟨_, _, _, h, -⟩ := valuesEvs_own _ _ _ h
      simp at h
    · simp only [Ev.ent.injEq] at h
      subst h
      exact ⟨tbl, hf, cols, evs, h1, by intro x hx; simp [hx], h3⟩
  | split m tbl c pre newId title row a b s h1 h2 h3 h4 h5 h6 h6' h7 h8 ih1 ih2 =>
    rcases List.mem_append.mp he with h | h
    · exact hup (by simp) (ih1 hf h)
    · exact hup (by simp) (ih2 (.further m tbl row c pre newId title hf h4 h1 h2) h)
  | splitFailed m tbl c pre newId title row a b e' cul h1 h2 h3 h4 h5 h6 h6' h7 ih1 ih2 =>
    simp only [List.mem_append] at he
    rcases he with (h | h) | h
    · exact hup (by intro x hx; simp [hx]) (ih1 hf h)
    · exact hup (by intro x hx; simp [hx]) (ih2 (.further m tbl row c pre newId title hf h4 h1 h2) h)
    · exact absurd h hrep
  | failed m tbl evs e' cul h ih =>
    simp only [List.mem_append] at he
    rcases he with h | h | h
    · exact absurd h hhdr
    · exact hup (by intro x hx; simp [hx]) (ih hf h)
    · exact absurd h hrep

/-- the traces of the figures of a document, for properties of single events -/
theorem DocTrace.figure_of {env : Env} {k : Nat} {ts : List Node} {evs : List Ev} {r : Except Exn Unit}
    (h : DocTrace env k ts evs r) (x : Ev) (hx : x ∈ evs) :
    (∃ t ∈ ts, ∃ tr title fid figEvs s, (unwrapTable t).nthChild tTr 1 = some tr ∧ figureTitle tr = some title ∧
      figureId title = some fid ∧ Trace env .fig ⟨some title, fid, none⟩ (removeFirstTr (unwrapTable t)) figEvs s ∧
      x ∈ figEvs ∧ figEvs ⊆ evs) ∨
    ∃ t ∈ ts, ∃ tr title j, (unwrapTable t).nthChild tTr 1 = some tr ∧ figureTitle tr = some title ∧ figureId title = none ∧
      x = .lint (issue .tblFigIdExtractErr (figIdMissing j) none [(c!"title", .str title)]) := by
  induction h with
  | nil => simp at hx
  | step k t ts evs s k' evs' r h1 h2 h3 ih =>
    rcases List.mem_append.mp hx with hx | hx
    · cases h1 with
      | noRow => simp at hx
      | noTitle => simp at hx
      | noId tr title a1 a2 a3 =>
        simp only [List.mem_singleton] at hx
        exact .inr ⟨t, List.mem_cons_self .., tr, title, k, a1, a2, a3, hx⟩
      | figure tr title fid _ _ a1 a2 a3 a4 =>
        exact .inl ⟨t, List.mem_cons_self .., tr, title, fid, _, _, a1, a2, a3, a4, hx, by simp⟩
    · rcases ih hx with ⟨t', ht, tr, title, fid, fe, s', b1, b2, b3, b4, b5, b6⟩ | ⟨t', ht, b⟩
      · exact .inl ⟨t', List.mem_cons_of_mem _ ht, tr, title, fid, fe, s', b1, b2, b3, b4, b5, fun y hy => by simp [b6 hy]⟩
      · exact .inr ⟨t', List.mem_cons_of_mem _ ht, b⟩
  | stop k t ts evs e c k' h1 =>
    cases h1 with
    | noRow => simp at hx
    | figure tr title fid _ _ a1 a2 a3 a4 =>
      exact .inl ⟨t, List.mem_cons_self .., tr, title, fid, _, _, a1, a2, a3, a4, hx, by simp⟩

/-! ### C23 -/

/-- C23: the fields of every entity of a document come, in order, from the rows of the table of its figure: in row order for
bytes and value figures, in reverse row order for bits figures. No row gives two fields, header rows give none, and a data row
without a field is one of the few kinds `StructSkip`, `ValueSkip`, or comes after a row which ends the table (`StructStop`,
`ValueStop`). -/
theorem C23_fields_from_rows (env : Env) (hE : EnvOk env) (root : Node) (e : Entity) (h : e ∈ entities (parseDoc env root).evs) :
    ∃ tbl, FigureIn env root e.info tbl ∧ BodyOf env e.info tbl (parseDoc env root).evs e.body := by
  have h := mem_entities.mp h
  rcases (docTrace_parseDoc hE root).figure_of _ h with ⟨t, ht, tr, title, fid, fe, s, a1, a2, a3, a4, a5, a6⟩ | ⟨t, ht, tr, title, j, -, -, -, h⟩
  · obtain ⟨tbl, h1, h2⟩ := a4.bodies (root := root) (.top t tr title fid ht a1 a2 a3) e a5
    exact ⟨tbl, h1, h2.mono a6⟩
  · simp at h

/-- C23: a bytes or bits figure never has more fields than its table has data rows. -/
theorem C23_field_count (env : Env) (hE : EnvOk env) (root : Node) (m : EntityMeta) (ty : StructTy) (fs : List StructField)
    (h : ⟨m, .struct ty fs⟩ ∈ entities (parseDoc env root).evs) :
    ∃ tbl, FigureIn env root m tbl ∧ fs.length ≤ ((rowIter tbl).1.filter (fun r => !containsTh r.node)).length := by
  obtain ⟨tbl, h1, c, cols, re, -, -, -, outs, rest, k1, k2, k3, -, -⟩ := C23_fields_from_rows env hE root _ h
  refine ⟨tbl, h1, ?_⟩
  have hlen : fs.length = (outs.filterMap (·.2)).length := by
    rw [← k2]
    cases ty <;> simp
  rw [k1, hlen, List.filter_append, List.length_append]
  have : ∀ o : Outcomes StructField, (∀ r f, (r, some f) ∈ o → containsTh r.node = false) →
      (o.filterMap (·.2)).length ≤ ((o.map (·.1)).filter (fun r => !containsTh r.node)).length := by
    intro o ho
    induction o with
    | nil => simp
    | cons x o ih =>
      obtain ⟨r, f⟩ := x
      have ih := ih (fun r f h => ho r f (List.mem_cons_of_mem _ h))
      cases f with
      | none =>
        simp only [List.filterMap_cons, List.map_cons, List.filter_cons]
        split
        · simp only [List.length_cons]; omega
        · exact ih
      | some f =>
        have := ho r f (List.mem_cons_self ..)
        simp only [List.filterMap_cons, List.map_cons, List.filter_cons, this, Bool.not_false, if_true, List.length_cons]
        omega
  have := this outs (fun r f h => by
    obtain ⟨a, b, hab⟩ := List.append_of_mem h
    exact (k3 a r f b hab).1)
  omega

/-! ### C24 -/

/-- entities linked to a parent -/
def Linked (e : Entity) : Prop := ∀ p, e.info.parent = some p → e.info.title = none ∧ ∃ key, e.info.figId = p ++ '_' :: key

omit [Uni] in
theorem entities_own {fig : Str} {evs : List Ev} (h : ∀ x ∈ evs, OwnLint fig x) : entities evs = [] := by
  rw [List.eq_nil_iff_forall_not_mem]
  intro e he
  obtain ⟨_, _, _, h, -⟩ := h _ (mem_entities.mp he)
  simp at h

omit [Uni] in
theorem entities_failReport (m : EntityMeta) (cul : Option Str) : entities (failReport m cul) = [] := by
  cases cul <;> rfl

/-- within the output of a figure the parent of every entity follows it, if it is not the figure itself -/
theorem Trace.parent_follows {env : Env} {p : Phase} {m : EntityMeta} {tbl : Node} {evs : List Ev} {s : End}
    (h : Trace env p m tbl evs s) (A B : List Entity) (e : Entity) (q : Str) (he : entities evs = A ++ e :: B)
    (hq : e.info.parent = some q) :
    (∃ e' ∈ B, e'.info.figId = q) ∨ s ≠ .done ∨ (match p with | .rows => q = m.figId | .fig => e.info = m) := by
  induction h generalizing A B with
  | nil => simp [entities] at he
  | raise => simp [entities] at he
  | lint => simp [entities] at he
  | nested m tbl key row td t evs s h1 h2 h3 h3' h4 ih =>
    rcases ih A B he with h | h | h
    · exact .inl h
    · exact .inr (.inl h)
    · simp only at h
      refine .inr (.inr ?_)
      rw [h] at hq
      simp only [nestedMeta, Option.some.injEq] at hq
      exact hq.symm
  | app m tbl a b s h1 h2 ih1 ih2 =>
    rw [entities_append] at he
    rcases List.append_eq_append_iff.mp he with ⟨C, k1, k2⟩ | ⟨C, k1, k2⟩
    · rcases ih2 C B k2 with h | h | h
      · exact .inl h
      · exact .inr (.inl h)
      · exact .inr (.inr h)
    · cases C with
      | nil =>
        simp only [List.nil_append] at k2
        rcases ih2 [] B (by simp [← k2]) with h | h | h
        · exact .inl h
        · exact .inr (.inl h)
        · exact .inr (.inr h)
      | cons x C =>
        simp only [List.cons_append, List.cons.injEq] at k2
        obtain ⟨rfl, k2⟩ := k2
        rcases ih1 A C k1 with ⟨e', h, h'⟩ | h | h
        · exact .inl ⟨e', by rw [k2]; exact List.mem_append_left _ h, h'⟩
        · simp at h
        · exact .inr (.inr h)
  | skipped m tbl =>
    rw [entities_append, entities_own (headerIssues_own _ _)] at he
    simp [entities] at he
  | mismatch m tbl =>
    rw [entities_own (headerIssues_own _ _)] at he
    simp at he
  | struct m tbl c cols evs fs h1 h2 h3 ih =>
    rw [entities_append, entities_append, entities_append, entities_own (headerIssues_own _ _), entities_own (structEvs_own _ _)] at he
    simp only [List.nil_append] at he
    rcases List.append_eq_append_iff.mp he with ⟨C, k1, k2⟩ | ⟨C, k1, k2⟩
    · cases C with
      | nil =>
        simp only [entities, List.filterMap_cons, List.filterMap_nil, List.nil_append, List.cons.injEq] at k2
        exact .inr (.inr (by simp [← k2.1]))
      | cons x C => simp [entities] at k2
    · cases C with
      | nil =>
        simp only [entities, List.filterMap_cons, List.filterMap_nil, List.nil_append, List.cons.injEq] at k2
        exact .inr (.inr (by simp [k2.1]))
      | cons x C =>
        simp only [List.cons_append, List.cons.injEq] at k2
        obtain ⟨rfl, k2⟩ := k2
        rcases ih A C k1 with ⟨e', h, h'⟩ | h | h
        · exact .inl ⟨e', by rw [k2]; exact List.mem_append_left _ h, h'⟩
        · simp at h
        · simp only at h
          exact .inl ⟨⟨m, .struct c.ty (layoutOrder c.ty fs)⟩, by rw [k2]; simp [entities], h.symm⟩
  | value m tbl cols evs fs h1 h2 h3 ih =>
    rw [entities_append, entities_append, entities_append, entities_own (headerIssues_own _ _), entities_own (valuesEvs_own _ _)] at he
    simp only [List.nil_append] at he
    rcases List.append_eq_append_iff.mp he with ⟨C, k1, k2⟩ | ⟨C, k1, k2⟩
    · cases C with
      | nil =>
        simp only [entities, List.filterMap_cons, List.filterMap_nil, List.nil_append, List.cons.injEq] at k2
        exact .inr (.inr (by simp [← k2.1]))
      | cons x C => simp [entities] at k2
    · cases C with
      | nil =>
        simp only [entities, List.filterMap_cons, List.filterMap_nil, List.nil_append, List.cons.injEq] at k2
        exact .inr (.inr (by simp [k2.1]))
      | cons x C =>
        simp only [List.cons_append, List.cons.injEq] at k2
        obtain ⟨rfl, k2⟩ := k2
        rcases ih A C k1 with ⟨e', h, h'⟩ | h | h
        · exact .inl ⟨e', by rw [k2]; exact List.mem_append_left _ h, h'⟩
        · simp at h
        · simp only at h
          exact .inl ⟨⟨m, .values fs⟩, by rw [k2]; simp [entities], h.symm⟩
  | split m tbl c pre newId title row a b s h1 h2 h3 h4 h5 h6 h6' h7 h8 ih1 ih2 =>
    rw [entities_append] at he
    have hr : ∀ A, entities b = A ++ e :: B → (∃ e' ∈ B, e'.info.figId = q) ∨ s ≠ .done := by
      intro A hA
      rcases ih2 A B hA with h | h | h
      · exact .inl h
      · exact .inr h
      · simp only at h
        rw [h] at hq
        simp at hq
    rcases List.append_eq_append_iff.mp he with ⟨C, k1, k2⟩ | ⟨C, k1, k2⟩
    · exact (hr C k2).imp id .inl
    · cases C with
      | nil => exact (hr [] (by simpa using k2.symm)).imp id .inl
      | cons x C =>
        simp only [List.cons_append, List.cons.injEq] at k2
        obtain ⟨rfl, k2⟩ := k2
        rcases ih1 A C k1 with ⟨e', h, h'⟩ | h | h
        · exact .inl ⟨e', by rw [k2]; exact List.mem_append_left _ h, h'⟩
        · simp at h
        · exact .inr (.inr h)
  | splitFailed m tbl c pre newId title row a b e' cul h1 h2 h3 h4 h5 h6 h6' h7 ih1 ih2 =>
    refine .inr (.inl ?_)
    unfold failEnd
    split <;> simp
  | failed m tbl evs e' cul h ih =>
    refine .inr (.inl ?_)
    unfold failEnd
    split <;> simp

/-! ### C25 -/

/-- the reports of failures -/
abbrev reports (evs : List Ev) : List LintEntry := diagnostics .tblParseErr evs

omit [Uni] in
theorem reports_own {fig : Str} {evs : List Ev} (h : ∀ x ∈ evs, OwnLint fig x) : reports evs = [] := by
  rw [List.eq_nil_iff_forall_not_mem]
  intro l hl
  obtain ⟨h1, h2⟩ := mem_diagnostics.mp hl
  obtain ⟨err, row, ctx, h, -, h3, -⟩ := h _ h1
  simp only [Ev.lint.injEq] at h
  rw [h] at h2
  exact h3 h2

/-- what is reported for an end -/
def ReportOk (evs : List Ev) : End → Prop
  | .done => reports evs = []
  | .raised _ none => reports evs = []
  | .swallowed c => ∃ l, reports evs = [l] ∧ l.fig = c ∧ evs.getLast? = some (.lint l)
  | .raised _ (some c) => ∃ l, reports evs = [l] ∧ l.fig = c ∧ evs.getLast? = some (.lint l)

omit [Uni] in
theorem reportOk_append {a b : List Ev} {s : End} (ha : reports a = []) (hb : ReportOk b s) : ReportOk (a ++ b) s := by
  have happ : reports (a ++ b) = reports b := by unfold reports at *; rw [diagnostics_append, ha, List.nil_append]
  have key : ∀ c, (∃ l, reports b = [l] ∧ l.fig = c ∧ b.getLast? = some (.lint l)) →
      ∃ l, reports (a ++ b) = [l] ∧ l.fig = c ∧ (a ++ b).getLast? = some (.lint l) := by
    rintro c ⟨l, h1, h2, h3⟩
    exact ⟨l, by rw [happ, h1], h2, by rw [List.getLast?_append, h3]; rfl⟩
  cases s with
  | done => exact happ.trans hb
  | swallowed c => exact key c hb
  | raised e c =>
    cases c with
    | none => exact happ.trans hb
    | some c => exact key c hb

omit [Uni] in
theorem reportOk_fail {env : Env} {m : EntityMeta} {evs : List Ev} {e : Exn} {cul : Option Str} (h : ReportOk evs (.raised e cul)) :
    ReportOk (evs ++ failReport m cul) (failEnd env m e cul) := by
  have key : ∃ l, reports (evs ++ failReport m cul) = [l] ∧ l.fig = cul.getD m.figId ∧
      (evs ++ failReport m cul).getLast? = some (.lint l) := by
    cases cul with
    | some c =>
      obtain ⟨l, h1, h2, h3⟩ := h
      exact ⟨l, by simpa [failReport] using h1, h2, by simpa [failReport] using h3⟩
    | none =>
      simp only [ReportOk, reports] at h
      refine ⟨issue .tblParseErr m.figId none (match m.title with | some t => [(c!"title", .str t)] | none => []), ?_, rfl, ?_⟩
      · unfold reports failReport failLint
        rw [diagnostics_append, h, diagnostics_lint]
        rfl
      · simp only [failReport, failLint, List.getLast?_append, List.getLast?_singleton, Option.some_or]
        rfl
  unfold failEnd
  split <;> exact key

theorem Trace.report {env : Env} {p : Phase} {m : EntityMeta} {tbl : Node} {evs : List Ev} {s : End}
    (h : Trace env p m tbl evs s) : ReportOk evs s := by
  induction h with
  | nil => rfl
  | raise => rfl
  | lint m tbl err key ctx h1 h2 h3 =>
    simp only [ReportOk, reports, diagnostics_lint, issue, if_neg h2]
  | nested m tbl key row td t evs s h1 h2 h3 h3' h4 ih => exact ih
  | app m tbl a b s h1 h2 ih1 ih2 => exact reportOk_append ih1 ih2
  | skipped m tbl =>
    exact reportOk_append (reports_own (headerIssues_own _ _)) (by simp [ReportOk, reports, diagnostics_lint, issue])
  | mismatch m tbl => exact reports_own (headerIssues_own _ _)
  | struct m tbl c cols evs fs h1 h2 h3 ih =>
    refine reportOk_append (reports_own (headerIssues_own _ _)) (reportOk_append ih (reportOk_append (reports_own (structEvs_own _ _)) ?_))
    rfl
  | value m tbl cols evs fs h1 h2 h3 ih =>
    refine reportOk_append (reports_own (headerIssues_own _ _)) (reportOk_append ih (reportOk_append (reports_own (valuesEvs_own _ _)) ?_))
    rfl
  | split m tbl c pre newId title row a b s h1 h2 h3 h4 h5 h6 h6' h7 h8 ih1 ih2 => exact reportOk_append ih1 ih2
  | splitFailed m tbl c pre newId title row a b e cul h1 h2 h3 h4 h5 h6 h6' h7 ih1 ih2 =>
    exact reportOk_fail (reportOk_append ih1 ih2)
  | failed m tbl evs e cul h ih =>
    exact reportOk_append (reports_own (headerIssues_own _ _)) (reportOk_fail ih)

/-- `l` is the report of a figure nested in a row of `tbl`, or of its further figure, processed by itself -/
inductive ReportOfInner (env : Env) (m : EntityMeta) (tbl : Node) (l : LintEntry) : Prop where
  | nested (row : Row) (cell t : Node) (key : Str) : row ∈ (rowIter tbl).1 → cell ∈ row.node.childs tTd → t ∈ cell.childs tTable →
      reports (parseFigure env ⟨none, m.figId ++ '_' :: key, some m.figId⟩ t false).evs = [l] → ReportOfInner env m tbl l
  | further (row : Row) (c : StructCls) (pre newId : Str) (title : Option Str) : row ∈ (rowIter tbl).1 →
      env.overrides.lookup m.figId = some (.struct c) → c.handler = .split pre newId →
      reports (parseFigure env ⟨title, newId, none⟩ (.elem tTable [] row.following) false).evs = [l] → ReportOfInner env m tbl l

theorem Trace.inner {env : Env} {p : Phase} {m : EntityMeta} {tbl : Node} {evs : List Ev} {s : End}
    (h : Trace env p m tbl evs s) (l : LintEntry) (hl : reports evs = [l]) :
    (p = .fig ∧ l.fig = m.figId) ∨ ReportOfInner env m tbl l := by
  have hcons : ∀ a b : List Ev, reports a = [] → reports (a ++ b) = [l] → reports b = [l] := by
    intro a b h1 h2
    unfold reports at *
    rwa [diagnostics_append, h1, List.nil_append] at h2
  have hfail : ∀ (m : EntityMeta) (tbl : Node) (a : List Ev) (cul : Option Str) e, ReportOk a (.raised e cul) →
      (reports a = [l] → ReportOfInner env m tbl l) → reports (a ++ failReport m cul) = [l] →
      l.fig = m.figId ∨ ReportOfInner env m tbl l := by
    intro m tbl a cul e ha hi hl
    cases cul with
    | none =>
      have := hcons _ _ ha hl
      simp only [failReport, failLint, reports, diagnostics_lint, issue, if_true, List.cons.injEq, and_true] at this
      exact .inl (by rw [← this])
    | some c => exact .inr (hi (by simpa [failReport] using hl))
  induction h with
  | nil => simp [reports, diagnostics] at hl
  | raise => simp [reports, diagnostics] at hl
  | lint m tbl err key ctx h1 h2 h3 =>
    simp only [reports, diagnostics_lint, issue, if_neg h2] at hl
    simp at hl
  | nested m tbl key row td t evs s h1 h2 h3 h3' h4 ih =>
    exact .inr (.nested row td t key h1 h2 h3 (by rw [h3'] at hl; exact hl))
  | app m tbl a b s h1 h2 ih1 ih2 =>
    exact (ih2 (hcons _ _ h1.report hl))
  | skipped m tbl =>
    have := hcons _ _ (reports_own (headerIssues_own _ _)) hl
    simp [reports, diagnostics_lint, issue] at this
  | mismatch m tbl => rw [reports_own (headerIssues_own _ _)] at hl; simp at hl
  | struct m tbl c cols evs fs h1 h2 h3 ih =>
    have := (Trace.struct m tbl c cols evs fs h1 h2 h3).report
    simp only [ReportOk] at this
    rw [this] at hl
    simp at hl
  | value m tbl cols evs fs h1 h2 h3 ih =>
    have := (Trace.value m tbl cols evs fs h1 h2 h3).report
    simp only [ReportOk] at this
    rw [this] at hl
    simp at hl
  | split m tbl c pre newId title row a b s h1 h2 h3 h4 h5 h6 h6' h7 h8 ih1 ih2 =>
    have := hcons _ _ h5.report hl
    rw [h6'] at this
    exact .inr (.further row c pre newId title h4 h1 h2 this)
  | splitFailed m tbl c pre newId title row a b e cul h1 h2 h3 h4 h5 h6 h6' h7 ih1 ih2 =>
    have := hfail m tbl (a ++ b) cul e (reportOk_append h5.report h7.report) (fun h => by
      have := hcons _ _ h5.report h
      rw [h6'] at this
      exact .further row c pre newId title h4 h1 h2 this) hl
    exact this.imp (fun h => ⟨rfl, h⟩) id
  | failed m tbl evs e cul h ih =>
    have := hcons _ _ (reports_own (headerIssues_own _ _)) hl
    have := hfail m tbl evs cul e h.report (fun h => by
      rcases ih h with ⟨h, -⟩ | h
      · simp at h
      · exact h) this
    exact this.imp (fun h => ⟨rfl, h⟩) id

/-- the extractor which a figure requires does not accept its columns -/
def Mismatch (env : Env) (m : EntityMeta) (tbl : Node) : Prop :=
  ∃ c, env.overrides.lookup m.figId = some c ∧ c.canApply (columnNames tbl) = none

theorem Trace.raised_none {env : Env} {m : EntityMeta} {tbl : Node} {evs : List Ev} {e : Exn}
    (h : Trace env .fig m tbl evs (.raised e none)) : Mismatch env m tbl ∧ e = .runtimeError ∧ evs = headerIssues m.figId tbl := by
  generalize hs : End.raised e none = s at h
  generalize hp : Phase.fig = p at h
  cases h with
  | mismatch m tbl c h1 h2 => simp only [End.raised.injEq, and_true] at hs; exact ⟨⟨c, h1, h2⟩, hs, rfl⟩
  | split m tbl c pre newId title row a b s h1 h2 h3 h4 h5 h6 h6' h7 h8 => exact absurd hs.symm (h8 _ _)
  | splitFailed => unfold failEnd at hs; split at hs <;> simp at hs
  | failed => unfold failEnd at hs; split at hs <;> simp at hs
  | _ => first | (simp at hp; done) | simp at hs

/-- C25: processing a figure, nested or not, gives at most one T1000, and then it is the last thing put out. It names the figure
itself, or it is what a figure nested in it (or its further figure) reports when processed by itself. An exception is always
reported, except if the extractor required for the figure does not accept its columns. -/
theorem C25_one_report (env : Env) (hE : EnvOk env) (m : EntityMeta) (hm : MetaOk m) (tbl : Node) :
    (reports (parseFigure env m tbl false).evs).length ≤ 1 ∧
    (∀ l, l ∈ reports (parseFigure env m tbl false).evs →
      (parseFigure env m tbl false).evs.getLast? = some (.lint l) ∧ (l.fig = m.figId ∨ ReportOfInner env m tbl l)) ∧
    (∀ e, (parseFigure env m tbl false).out = .error e →
      (reports (parseFigure env m tbl false).evs).length = 1 ∨ Mismatch env m tbl) := by
  obtain ⟨s, ht, hs⟩ : ∃ s, Trace env .fig m tbl (parseFigure env m tbl false).evs s ∧
      ∀ e, (parseFigure env m tbl false).out = .error e → ∃ c, s = .raised e c := by
    rcases figOk_parseFigure hE m tbl hm false with ⟨h1, h2, h3⟩ | ⟨c, h1, h2, h3⟩ | ⟨e, c, h1, h2, h3⟩
    · exact ⟨_, h3, fun e h => by rw [h1] at h; simp at h⟩
    · exact ⟨_, h3, fun e h => by rw [h1] at h; simp at h⟩
    · exact ⟨_, h3, fun e' h => by
        rw [h1] at h
        simp only [Except.error.injEq] at h
        exact ⟨c, by rw [h]⟩⟩
  have hr := ht.report
  have hin := ht.inner
  have h0 : reports (parseFigure env m tbl false).evs = [] ∨ ∃ l, reports (parseFigure env m tbl false).evs = [l] ∧
      (parseFigure env m tbl false).evs.getLast? = some (.lint l) := by
    cases s with
    | done => exact .inl hr
    | swallowed c => obtain ⟨l, h1, -, h2⟩ := hr; exact .inr ⟨l, h1, h2⟩
    | raised e c =>
      cases c with
      | none => exact .inl hr
      | some c => obtain ⟨l, h1, -, h2⟩ := hr; exact .inr ⟨l, h1, h2⟩
  refine ⟨?_, ?_, ?_⟩
  · rcases h0 with h | ⟨l, h, -⟩ <;> simp [h]
  · intro l hl
    rcases h0 with h | ⟨l', h, hlast⟩
    · simp [h] at hl
    · simp only [h, List.mem_singleton] at hl
      subst hl
      refine ⟨hlast, ?_⟩
      rcases hin l h with ⟨-, h⟩ | h
      · exact .inl h
      · exact .inr h
  · intro e he
    obtain ⟨c, rfl⟩ := hs e he
    cases c with
    | none => exact .inr ht.raised_none.1
    | some c => obtain ⟨l, h1, -⟩ := hr; exact .inl (by simp [h1])

/-! ### C24, continued -/

/-- C24: an entity with a parent has no title, and its id is the id of its parent, '_' and a key. The parent's entity follows, or
a failure is reported. -/
theorem C24_nested_linked (env : Env) (hE : EnvOk env) (root : Node) (A B : List Entity) (e : Entity) (q : Str)
    (he : entities (parseDoc env root).evs = A ++ e :: B) (hq : e.info.parent = some q) :
    e.info.title = none ∧ (∃ key, e.info.figId = q ++ '_' :: key) ∧
    ((∃ e' ∈ B, e'.info.figId = q) ∨ reports (parseDoc env root).evs ≠ []) := by
  have hmem : e ∈ entities (parseDoc env root).evs := by rw [he]; simp
  obtain ⟨tbl, hf, -⟩ := C23_fields_from_rows env hE root e hmem
  have hlink : e.info.title = none ∧ ∃ key, e.info.figId = q ++ '_' :: key := by
    generalize e.info = m at hf hq
    cases hf with
    | top => simp at hq
    | further => simp at hq
    | nested m tbl row cell t key => simp only [Option.some.injEq] at hq; exact ⟨rfl, key, by rw [hq]⟩
  refine ⟨hlink.1, hlink.2, ?_⟩
  have key : ∀ (k : Nat) (ts : List Node) (evs : List Ev) (r : Except Exn Unit), DocTrace env k ts evs r → ∀ A B,
      entities evs = A ++ e :: B → (∃ e' ∈ B, e'.info.figId = q) ∨ reports evs ≠ [] := by
    intro k ts evs r h
    have hne : ∀ {a b : List Ev}, reports a ≠ [] → reports (a ++ b) ≠ [] := by
      intro a b h
      unfold reports at *
      rw [diagnostics_append]
      simp [h]
    have htab : ∀ {k t evs s k'}, TableTrace env k t evs s k' → ∀ A B, entities evs = A ++ e :: B →
        (∃ e' ∈ B, e'.info.figId = q) ∨ reports evs ≠ [] := by
      intro k t evs s k' h A B hA
      cases h with
      | noRow => simp [entities] at hA
      | noTitle => simp [entities] at hA
      | noId => simp [entities] at hA
      | figure tr title fid _ _ a1 a2 a3 a4 =>
        rcases a4.parent_follows A B e q hA hq with h | h | h
        · exact .inl h
        · right
          have hr := a4.report
          cases s with
          | done => simp at h
          | swallowed c => obtain ⟨l, h1, -⟩ := hr; simp [h1]
          | raised x c =>
            cases c with
            | some c => obtain ⟨l, h1, -⟩ := hr; simp [h1]
            | none =>
              rw [a4.raised_none.2.2, entities_own (headerIssues_own _ _)] at hA
              simp at hA
        · simp only at h
          rw [h] at hq
          simp at hq
    induction h with
    | nil => intro A B h; simp [entities] at h
    | step k t ts evs s k' evs' r h1 h2 h3 ih =>
      intro A B hA
      rw [entities_append] at hA
      rcases List.append_eq_append_iff.mp hA with ⟨C, k1, k2⟩ | ⟨C, k1, k2⟩
      · exact (ih C B k2).imp id (fun h h' => h (by
          unfold reports at *
          rw [diagnostics_append] at h'
          exact (List.append_eq_nil_iff.mp h').2))
      · cases C with
        | nil =>
          exact (ih [] B (by simpa using k2.symm)).imp id (fun h h' => h (by
            unfold reports at *
            rw [diagnostics_append] at h'
            exact (List.append_eq_nil_iff.mp h').2))
        | cons x C =>
          simp only [List.cons_append, List.cons.injEq] at k2
          obtain ⟨rfl, k2⟩ := k2
          rcases htab h1 A C k1 with ⟨e', h, h'⟩ | h
          · exact .inl ⟨e', by rw [k2]; exact List.mem_append_left _ h, h'⟩
          · exact .inr (hne h)
    | stop k t ts evs x c k' h1 => exact htab h1
  exact key _ _ _ _ (docTrace_parseDoc hE root) A B he

/-- C24: what a figure puts out carries its own id, or this id followed by '_' and more, or such an id of its further figure.
If nothing fails and the figure is not skipped, its own entity comes after those of the figures nested in it, and after it
there are only those of its further figure. -/
theorem C24_own_last (env : Env) (hE : EnvOk env) (m : EntityMeta) (hm : MetaOk m) (tbl : Node) :
    (∀ x ∈ (parseFigure env m tbl false).evs, Family m.figId x.fig ∨ Further env m.figId x.fig) ∧
    ((parseFigure env m tbl false).out = .ok () → reports (parseFigure env m tbl false).evs = [] →
      ¬ Reported .tblSkipped m.figId (parseFigure env m tbl false).evs →
      ∃ A body B, entities (parseFigure env m tbl false).evs = A ++ ⟨m, body⟩ :: B ∧
        (∀ e ∈ A, ∃ rest, e.info.figId = m.figId ++ '_' :: rest) ∧ (∀ e ∈ B, Further env m.figId e.info.figId)) := by
  constructor
  · rcases figOk_parseFigure hE m tbl hm false with ⟨-, -, h⟩ | ⟨c, -, -, h⟩ | ⟨e, c, -, -, h⟩ <;> exact h.family hE
  · intro ho hrep hskip
    have hdone : Trace env .fig m tbl (parseFigure env m tbl false).evs .done := by
      rcases figOk_parseFigure hE m tbl hm false with ⟨-, -, h⟩ | ⟨c, -, -, h⟩ | ⟨e, c, h1, -, h⟩
      · exact h
      · obtain ⟨l, hl, -⟩ := h.report
        rw [hrep] at hl
        simp at hl
      · rw [ho] at h1; simp at h1
    clear ho
    generalize (parseFigure env m tbl false).evs = evs at *
    clear hrep
    generalize hs : End.done = s at hdone
    generalize hp : Phase.fig = p at hdone
    induction hdone with
    | skipped m tbl =>
      refine absurd ⟨_, mem_diagnostics.mpr ⟨List.mem_append_right _ (List.mem_singleton.mpr rfl), rfl⟩, rfl⟩ hskip
    | struct m tbl c cols evs fs h1 h2 h3 ih =>
      refine ⟨entities evs, .struct c.ty (layoutOrder c.ty fs), [], ?_, ?_, by simp⟩
      · rw [entities_append, entities_append, entities_append, entities_own (headerIssues_own _ _), entities_own (structEvs_own _ _)]
        rfl
      · exact fun e he => h2.rows_nested hE e (mem_entities.mp he)
    | value m tbl cols evs fs h1 h2 h3 ih =>
      refine ⟨entities evs, .values fs, [], ?_, ?_, by simp⟩
      · rw [entities_append, entities_append, entities_append, entities_own (headerIssues_own _ _), entities_own (valuesEvs_own _ _)]
        rfl
      · exact fun e he => h2.rows_nested hE e (mem_entities.mp he)
    | split m tbl c pre newId title row a b s h1 h2 h3 h4 h5 h6 h6' h7 h8 ih1 ih2 =>
      obtain ⟨A, body, B, k1, k2, k3⟩ := ih1 hm (fun ⟨l, h, h'⟩ => hskip ⟨l, by
        rw [diagnostics_append]; exact List.mem_append_left _ h, h'⟩) rfl rfl
      refine ⟨A, body, B ++ entities b, by rw [entities_append, k1]; simp, k2, ?_⟩
      intro e he
      rcases List.mem_append.mp he with h | h
      · exact k3 e h
      · rcases h7.family hE _ (mem_entities.mp h) with h | ⟨c', pre', newId', h3, -⟩
        · exact ⟨c, pre, newId, h1, h2, h⟩
        · rw [(hE _ _ _ _ h1 h2).2.2] at h3
          simp at h3
    | splitFailed => unfold failEnd at hs; split at hs <;> simp at hs
    | failed => unfold failEnd at hs; split at hs <;> simp at hs
    | mismatch => simp at hs
    | _ => simp at hp

end Spex
