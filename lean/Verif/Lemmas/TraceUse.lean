import Verif.Lemmas.Trace
import Verif.Props.Layout
/-
Consequences of the specification `Trace`.
-/
set_option autoImplicit false
namespace Spex
variable [Uni]

/-- the figure id of an event -/
def Ev.fig : Ev → Str
  | .ent e => e.info.figId
  | .lint l => l.fig

/-- `x` is the figure `fig` or nested in it, at any depth -/
def Family (fig x : Str) : Prop := x = fig ∨ ∃ rest, x = fig ++ '_' :: rest

/-- a diagnostic on the figure itself, other than T1000, T1007 and T1008 -/
def OwnLint (fig : Str) (x : Ev) : Prop :=
  ∃ err row ctx, x = .lint (issue err fig row ctx) ∧ (err.needsRow = false ∨ row.isSome = true) ∧
    err ≠ .tblParseErr ∧ err ≠ .tblSkipped ∧ err ≠ .tblFigIdExtractErr

theorem headerIssues_own (fig : Str) (tbl : Node) : ∀ x ∈ headerIssues fig tbl, OwnLint fig x := by
  intro x hx
  simp only [headerIssues, List.mem_map] at hx
  obtain ⟨c, -, rfl⟩ := hx
  exact ⟨_, _, _, rfl, .inl (by decide), by simp, by simp, by simp⟩

omit [Uni] in
theorem structEvs_own (fig : Str) (fs : List StructField) : ∀ x ∈ structEvs fig fs, OwnLint fig x := by
  have hl : ∀ (fs : List StructField) labels prev, ∀ x ∈ loopEvs fig labels prev fs, OwnLint fig x := by
    intro fs
    induction fs with
    | nil => intro labels prev x hx; simp [loopEvs] at hx
    | cons f fs ih =>
      intro labels prev x hx
      simp only [loopEvs, List.mem_append] at hx
      rcases hx with (hx | hx) | hx
      · unfold stepDup at hx
        split at hx
        · simp only [List.mem_singleton] at hx
          exact ⟨_, _, _, hx, .inr rfl, by simp, by simp, by simp⟩
        · simp at hx
      · unfold stepRange at hx
        repeat' split at hx
        all_goals first
          | (simp only [List.mem_singleton] at hx; exact ⟨_, _, _, hx, .inr rfl, by simp, by simp, by simp⟩)
          | simp at hx
      · exact ih _ _ x hx
  intro x hx
  unfold structEvs at hx
  split at hx
  · simp at hx
  · simp at hx
  · split at hx
    · simp only [List.mem_singleton] at hx
      exact ⟨_, _, _, hx, .inl (by decide), by simp, by simp, by simp⟩
    · exact hl _ _ _ x hx

omit [Uni] in
theorem valuesEvs_own (fig : Str) (fs : List ValueField) : ∀ x ∈ valuesEvs fig fs, OwnLint fig x := by
  have hl : ∀ (fs : List ValueField) labels values, ∀ x ∈ valueEvs fig labels values fs, OwnLint fig x := by
    intro fs
    induction fs with
    | nil => intro labels prev x hx; simp [valueEvs] at hx
    | cons f fs ih =>
      intro labels prev x hx
      simp only [valueEvs] at hx
      split at hx
      · rcases List.mem_append.mp hx with hx | hx
        · unfold stepValue at hx
          rcases List.mem_append.mp hx with hx | hx <;> split at hx
          all_goals first
            | (simp only [List.mem_singleton] at hx; exact ⟨_, _, _, hx, .inr rfl, by simp, by simp, by simp⟩)
            | simp at hx
        · exact ih _ _ x hx
      · exact ih _ _ x hx
  intro x hx
  unfold valuesEvs at hx
  split at hx
  · simp at hx
  · exact hl _ _ _ x hx

/-! ### an induction principle -/

/-- Properties of the events of a figure which hold for each event by itself. -/
theorem Trace.forall {env : Env} {P : EntityMeta → Ev → Prop}
    (hown : ∀ m x, OwnLint m.figId x → P m x)
    (hfail : ∀ m, P m (failLint m))
    (hskip : ∀ m ctx, P m (.lint (issue .tblSkipped m.figId none ctx)))
    (hstruct : ∀ m ty fs, P m (.ent ⟨m, .struct ty fs⟩))
    (hvalue : ∀ m fs, P m (.ent ⟨m, .values fs⟩))
    (hnested : ∀ m key x, P (nestedMeta m key) x → P m x)
    (hsplit : ∀ m c pre newId title x, env.overrides.lookup m.figId = some (.struct c) → c.handler = .split pre newId →
      P ⟨title, newId, none⟩ x → P m x)
    {p : Phase} {m : EntityMeta} {tbl : Node} {evs : List Ev} {s : End} (h : Trace env p m tbl evs s) : ∀ x ∈ evs, P m x := by
  have hrep : ∀ m cul, ∀ x ∈ failReport m cul, P m x := by
    intro m cul x hx
    cases cul with
    | none => simp only [failReport, List.mem_singleton] at hx; exact hx ▸ hfail m
    | some c => simp [failReport] at hx
  induction h with
  | nil => simp
  | raise => simp
  | lint m tbl err key ctx h1 h2 h3 =>
    intro x hx
    simp only [List.mem_singleton] at hx
    refine hown m x ⟨err, some key, ctx, hx, .inr rfl, h2, h3, ?_⟩
    rintro rfl
    simp [ownCodes] at h1
  | nested m tbl key row td t evs s h1 h2 h3 h3' h4 ih => exact fun x hx => hnested m key x (ih x hx)
  | app m tbl a b s h1 h2 ih1 ih2 =>
    intro x hx
    rcases List.mem_append.mp hx with h | h
    · exact ih1 x h
    · exact ih2 x h
  | skipped m tbl =>
    intro x hx
    rcases List.mem_append.mp hx with h | h
    · exact hown m x (headerIssues_own _ _ x h)
    · simp only [List.mem_singleton] at h
      exact h ▸ hskip m _
  | mismatch m tbl => exact fun x hx => hown m x (headerIssues_own _ _ x hx)
  | struct m tbl c cols evs fs h1 h2 h3 ih =>
    intro x hx
    simp only [List.mem_append, List.mem_singleton] at hx
    rcases hx with h | h | h | h
    · exact hown m x (headerIssues_own _ _ x h)
    · exact ih x h
    · exact hown m x (structEvs_own _ _ x h)
    · exact h ▸ hstruct m _ _
  | value m tbl cols evs fs h1 h2 h3 ih =>
    intro x hx
    simp only [List.mem_append, List.mem_singleton] at hx
    rcases hx with h | h | h | h
    · exact hown m x (headerIssues_own _ _ x h)
    · exact ih x h
    · exact hown m x (valuesEvs_own _ _ x h)
    · exact h ▸ hvalue m _
  | split m tbl c pre newId title row a b s h1 h2 h3 h4 h5 h6 h6' h7 h8 ih1 ih2 =>
    intro x hx
    rcases List.mem_append.mp hx with h | h
    · exact ih1 x h
    · exact hsplit m c pre newId title x h1 h2 (ih2 x h)
  | splitFailed m tbl c pre newId title row a b e cul h1 h2 h3 h4 h5 h6 h6' h7 ih1 ih2 =>
    intro x hx
    simp only [List.mem_append] at hx
    rcases hx with (h | h) | h
    · exact ih1 x h
    · exact hsplit m c pre newId title x h1 h2 (ih2 x h)
    · exact hrep _ _ x h
  | failed m tbl evs e cul h ih =>
    intro x hx
    simp only [List.mem_append] at hx
    rcases hx with h | h | h
    · exact hown m x (headerIssues_own _ _ x h)
    · exact ih x h
    · exact hrep _ _ x h

/-! ### ids -/

omit [Uni] in
theorem Family.refl (x : Str) : Family x x := .inl rfl

omit [Uni] in
theorem Family.nested {fig key x : Str} (h : Family (fig ++ '_' :: key) x) : ∃ rest, x = fig ++ '_' :: rest := by
  rcases h with rfl | ⟨rest, rfl⟩
  · exact ⟨key, rfl⟩
  · exact ⟨key ++ '_' :: rest, by simp⟩

/-- the id `x` belongs to a further figure of the figure `fig` -/
def Further (env : Env) (fig x : Str) : Prop :=
  ∃ c pre newId, env.overrides.lookup fig = some (.struct c) ∧ c.handler = .split pre newId ∧ Family newId x

omit [Uni] in
theorem further_nested {env : Env} (hE : EnvOk env) {fig key x : Str} : ¬ Further env (fig ++ '_' :: key) x := by
  rintro ⟨c, pre, newId, h1, h2, -⟩
  exact (hE _ _ _ _ h1 h2).2.1 (by simp)

theorem Trace.family {env : Env} (hE : EnvOk env) {p : Phase} {m : EntityMeta} {tbl : Node} {evs : List Ev} {s : End}
    (h : Trace env p m tbl evs s) : ∀ x ∈ evs, Family m.figId x.fig ∨ Further env m.figId x.fig := by
  refine Trace.forall (P := fun m x => Family m.figId x.fig ∨ Further env m.figId x.fig) ?_ ?_ ?_ ?_ ?_ ?_ ?_ h
  · rintro m x ⟨err, row, ctx, rfl, -⟩; exact .inl (.refl _)
  · intro m; exact .inl (.refl _)
  · intro m ctx; exact .inl (.refl _)
  · intro m ty fs; exact .inl (.refl _)
  · intro m fs; exact .inl (.refl _)
  · intro m key x hx
    rcases hx with h | h
    · exact .inl (.inr (Family.nested h))
    · exact absurd h (further_nested hE)
  · intro m c pre newId title x h1 h2 hx
    rcases hx with h | ⟨c', pre', newId', h3, -⟩
    · exact .inr ⟨c, pre, newId, h1, h2, h⟩
    · rw [(hE _ _ _ _ h1 h2).2.2] at h3
      simp at h3

/-- entities of rows belong to nested figures -/
theorem Trace.rows_nested {env : Env} (hE : EnvOk env) {m : EntityMeta} {tbl : Node} {evs : List Ev} {s : End}
    (h : Trace env .rows m tbl evs s) (e : Entity) (he : .ent e ∈ evs) : ∃ rest, e.info.figId = m.figId ++ '_' :: rest := by
  generalize hp : Phase.rows = p at h
  induction h with
  | nil => simp at he
  | raise => simp at he
  | lint => simp at he
  | nested m tbl key row td t evs s h1 h2 h3 h3' h4 ih =>
    rcases h4.family hE _ he with h | h
    · exact Family.nested h
    · exact absurd h (further_nested hE)
  | app m tbl a b s h1 h2 ih1 ih2 =>
    rcases List.mem_append.mp he with h | h
    · exact ih1 h hp
    · exact ih2 h hp
  | _ => simp at hp

omit [Uni] in
theorem append_ne_self {fig rest : Str} : fig ++ '_' :: rest ≠ fig := by
  intro h
  have := congrArg List.length h
  simp at this

end Spex
