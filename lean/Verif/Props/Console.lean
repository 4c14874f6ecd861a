import Verif.Lemmas.ConsoleTrail
import Verif.Props.ReadBack
import Verif.Props.Document
/-
# C84: what the program says on the console

The messages for the user (log/_log_config.py, `ULog`). They are the only place where a run which is aborted tells which figure failed.
-/
set_option autoImplicit false
namespace Spex

/-! ### Specification -/

/-- The way of an exception from the figure `x`, in which it was raised, outwards through the figures `path` to the figure `m`; `m` is the last of `path`, unless it
is `x` itself. -/
inductive Leads [Uni] (env : Env) : EntityMeta → List EntityMeta → EntityMeta → Prop where
  | self (m : EntityMeta) : Leads env m [] m
  | up (x : EntityMeta) (path : List EntityMeta) (m' m : EntityMeta) : Leads env x path m' → PartOf env m m' → Leads env x (path ++ [m]) m

/-- the messages of an exception on this way -/
def wayLines (x : EntityMeta) (path : List EntityMeta) : List Said := .failed x :: path.map .within

/-- the figure which a top level table is -/
def IsTop [Uni] (t : Node) (m : EntityMeta) : Prop :=
  ∃ tr title, (unwrapTable t).nthChild tTr 1 = some tr ∧ figureTitle tr = some title ∧ figureId title = some m.figId ∧ m.title = some title ∧ m.parent = none

/-- What may be said about a top level table. -/
inductive TableSays [Uni] (env : Env) (t : Node) : List Said → Prop where
  | nothing : TableSays env t []
  /-- it has no id -/
  | noId (tr : Node) (title : Str) : (unwrapTable t).nthChild tTr 1 = some tr → figureTitle tr = some title → figureId title = none →
      TableSays env t [.noId title]
  /-- it, or the figure made of its last rows, could not be processed -/
  | failed (m y x : EntityMeta) (path : List EntityMeta) : IsTop t m → (y = m ∨ PartOf env m y) → y.parent = none → Leads env x path y →
      TableSays env t (wayLines x path)

/-- the diagnostic which goes with a message -/
def Said.report : Said → Option (LintErr × Option Str × List (Str × Json))
  | .failed m => some (.tblParseErr, some m.figId, (m.title.map fun t => (c!"title", .str t)).toList)
  | .within _ => none
  | .noId t => some (.tblFigIdExtractErr, none, [(c!"title", .str t)])

/-- a diagnostic, as it is announced: T1000 and T1008, the latter without its made-up figure id -/
def announced (l : LintEntry) : Option (LintErr × Option Str × List (Str × Json)) :=
  if l.err = .tblParseErr then some (l.err, some l.fig, l.ctx)
  else if l.err = .tblFigIdExtractErr then some (l.err, none, l.ctx)
  else none

/-! ### Lemmas -/

def Mark.said? : Mark → Option Said
  | .said s => some s
  | .report _ => none
def Mark.report? : Mark → Option LintEntry
  | .said _ => none
  | .report l => some l

theorem saidOf_marks (evs : List Ev) : saidOf evs = (marks evs).filterMap Mark.said? := by
  induction evs with
  | nil => rfl
  | cons e evs ih =>
    rw [← List.singleton_append, saidOf_append, marks_append, List.filterMap_append, ih]
    congr 1
    cases h : e.said with
    | some s => simp [saidOf, marks, h, Ev.mark, Mark.said?]
    | none =>
      cases e with
      | ent e => rfl
      | lint l =>
        by_cases hl : l.err = .tblParseErr ∨ l.err = .tblFigIdExtractErr <;> simp [saidOf, marks, h, Ev.mark, Mark.said?, hl]

/-- T1000 and T1008 -/
def failures (evs : List Ev) : List LintEntry := evs.filterMap fun
  | .ent _ => none
  | .lint l => if l.err = .tblParseErr ∨ l.err = .tblFigIdExtractErr then some l else none

theorem failures_append (a b : List Ev) : failures (a ++ b) = failures a ++ failures b := List.filterMap_append ..

theorem failures_marks (evs : List Ev) : failures (quiet evs) = (marks evs).filterMap Mark.report? := by
  induction evs with
  | nil => rfl
  | cons e evs ih =>
    rw [← List.singleton_append, quiet_append, failures_append, marks_append, List.filterMap_append, ih]
    congr 1
    cases h : e.said with
    | some s => simp [quiet, h, failures, marks, Ev.mark, Mark.report?]
    | none =>
      cases e with
      | ent e => rfl
      | lint l =>
        by_cases hl : l.err = .tblParseErr ∨ l.err = .tblFigIdExtractErr <;> simp [quiet, h, failures, marks, Ev.mark, Mark.report?, hl]

section
variable [Uni]

theorem trail_leads {env : Env} {m : EntityMeta} {ms : List Mark} (h : Trail env m ms) :
    ∃ x path, Leads env x path m ∧ ms.filterMap Mark.said? = wayLines x path ∧ ms.filterMap Mark.report? = [failEntry x] := by
  induction h with
  | here m => exact ⟨m, [], .self m, rfl, rfl⟩
  | out m m' ms hin _ ih =>
    obtain ⟨x, path, h1, h2, h3⟩ := ih
    refine ⟨x, path ++ [m], .up x path m' m h1 hin, ?_, ?_⟩
    · rw [List.filterMap_append, h2]
      simp [wayLines, Mark.said?]
    · rw [List.filterMap_append, h3]
      simp [Mark.report?]

/-! ### C84: the document parser -/

/-- **C84** The document parser with the messages does the same as without them. -/
theorem C84_same_run (env : Env) (root : Node) :
    quiet (parseDocC env root).evs = (parseDoc env root).evs ∧ (parseDocC env root).out = (parseDoc env root).out :=
  ⟨(same_parseTables env 0 (figures root) false).1, (same_parseTables env 0 (figures root) false).2.2⟩

/-- **C84** The messages about a figure. Either there are none, and then no T1000, and it is processed to the end unless its table does not have the columns which an
override asks for. Or the figure `x` at which the exception was raised is named, then the figures around it, from the inside to the outside; the one T1000 is about `x`. If
the run is aborted then figures are not skipped, and the last figure named is the given one. -/
theorem C84_figure {env : Env} (hE : EnvOk env) (m : EntityMeta) (hf : m.figId ≠ []) (hm : m.parent = none) (tbl : Node) :
    (saidOf (parseFigureC env m tbl false).evs = [] ∧ reports (parseFigure env m tbl false).evs = [] ∧
      ((parseFigure env m tbl false).out = .ok () ∨ (parseFigure env m tbl false).out = .error .runtimeError ∧ Mismatch env m tbl)) ∨
    ∃ y x path, (y = m ∨ PartOf env m y) ∧ y.parent = none ∧ Leads env x path y ∧ saidOf (parseFigureC env m tbl false).evs = wayLines x path ∧
      reports (parseFigure env m tbl false).evs = [failEntry x] ∧
      ((parseFigure env m tbl false).out = .ok () ∧ env.skip = true ∨ (∃ e, (parseFigure env m tbl false).out = .error e) ∧ env.skip = false ∧ y = m) := by
  have hs := same_parseFig env tbl.size m tbl false
  have hr : ∀ evs : List Ev, reports evs = (failures evs).filter (fun l => l.err = .tblParseErr) := by
    intro evs
    induction evs with
    | nil => rfl
    | cons e evs ih =>
      rw [← List.singleton_append, failures_append, List.filter_append, ← ih, reports, diagnostics_append]
      congr 1
      cases e with
      | ent e => rfl
      | lint l =>
        by_cases h1 : l.err = .tblParseErr
        · simp [diagnostics, failures, h1]
        · by_cases h2 : l.err = .tblFigIdExtractErr <;> simp [diagnostics, failures, h1, h2]
  have hout : (parseFigure env m tbl false).out = (parseFigureC env m tbl false).out := hs.2.2.symm
  have hevs : (parseFigure env m tbl false).evs = quiet (parseFigureC env m tbl false).evs := hs.1.symm
  rw [hout, hevs, hr, failures_marks, saidOf_marks]
  rcases told_parseFigure hE m tbl ⟨hf, by simp [hm]⟩ false with ⟨h1, h2, h3⟩ | ⟨h1, h2, h3, y, h4, h5, h6⟩ | ⟨h1, h2, h3, h4⟩ | ⟨e, h1, h2, h3, h4⟩
  · rw [h3]
    exact .inl ⟨rfl, rfl, .inl h1⟩
  · obtain ⟨x, path, k1, k2, k3⟩ := trail_leads h6
    exact .inr ⟨y, x, path, h4, h5, k1, k2, by rw [k3]; rfl, .inl ⟨h1, h3⟩⟩
  · rw [h3]
    exact .inl ⟨rfl, rfl, .inr ⟨h1, h4⟩⟩
  · obtain ⟨x, path, k1, k2, k3⟩ := trail_leads h4
    refine .inr ⟨m, x, path, .inl rfl, hm, k1, k2, by rw [k3]; rfl, .inr ⟨⟨e, h1⟩, ?_, rfl⟩⟩
    rcases h3 with h3 | h3
    · rw [hm] at h3; cases h3
    · exact h3

/-- the diagnostics T1000 and T1008 are those which are announced -/
theorem report_fail (x : EntityMeta) (path : List EntityMeta) : [failEntry x].filterMap announced = (wayLines x path).filterMap Said.report := by
  have h : (path.map Said.within).filterMap Said.report = [] := by
    rw [List.filterMap_eq_nil_iff]
    intro s hs
    obtain ⟨y, -, rfl⟩ := List.mem_map.1 hs
    rfl
  obtain ⟨title, fig, parent⟩ := x
  rw [wayLines, List.filterMap_cons (f := Said.report), h]
  cases title <;> rfl

/-- What is known about the messages `ss` on the tables `ts`, of which `gs` are those about the single tables, and about the end of the run. -/
def SaysAll (env : Env) (ts : List Node) (gs : List (List Said)) (fs : List LintEntry) (out : Except Exn Unit) : Prop :=
  List.Forall₂ (TableSays env) (ts.take gs.length) gs ∧ fs.filterMap announced = gs.flatten.filterMap Said.report ∧
  match out with
  | .ok () => gs.length = ts.length ∧ (env.skip = false → ∀ x, Said.failed x ∉ gs.flatten)
  | .error e => ∃ (pre : List Node) (t : Node) (post : List Node) (gs' : List (List Said)) (g : List Said), ts = pre ++ t :: post ∧ gs = gs' ++ [g] ∧
      gs'.length = pre.length ∧
      ((unwrapTable t).nthChild tTr 1 = none ∧ e = .xpathNotFound ∧ g = [] ∨
        (∃ m, IsTop t m ∧ Mismatch env m (removeFirstTr (unwrapTable t)) ∧ e = .runtimeError ∧ g = []) ∨
        (∃ m x path, IsTop t m ∧ env.skip = false ∧ Leads env x path m ∧ g = wayLines x path))

theorem saysAll_cons {env : Env} {t : Node} {ts : List Node} {g : List Said} {gs : List (List Said)} {f fs : List LintEntry} {out : Except Exn Unit}
    (h1 : TableSays env t g) (h2 : f.filterMap announced = g.filterMap Said.report) (h3 : env.skip = false → ∀ x, Said.failed x ∉ g)
    (h : SaysAll env ts gs fs out) : SaysAll env (t :: ts) (g :: gs) (f ++ fs) out := by
  obtain ⟨k1, k2, k3⟩ := h
  refine ⟨.cons h1 k1, ?_, ?_⟩
  · rw [List.filterMap_append, h2, k2, List.flatten_cons, List.filterMap_append]
  · cases out with
    | ok u =>
      refine ⟨by simp [k3.1], fun hs x hx => ?_⟩
      rcases List.mem_append.1 (List.flatten_cons ▸ hx) with hx | hx
      · exact h3 hs x hx
      · exact k3.2 hs x hx
    | error e =>
      obtain ⟨pre, t', post, gs', g', j1, j2, j3, j4⟩ := k3
      exact ⟨t :: pre, t', post, g :: gs', g', by rw [j1]; rfl, by rw [j2]; rfl, by simp [j3], j4⟩

theorem says_tables {env : Env} (hE : EnvOk env) (ts : List Node) (k : Nat) (f : Bool) :
    ∃ gs, saidOf (parseTablesC env k ts f).evs = gs.flatten ∧
      SaysAll env ts gs (failures (quiet (parseTablesC env k ts f).evs)) (parseTablesC env k ts f).out := by
  induction ts generalizing k f with
  | nil => exact ⟨[], rfl, .nil, rfl, rfl, fun _ x hx => by simp at hx⟩
  | cons t ts ih =>
    simp only [parseTablesC]
    obtain h1 | ⟨tr, h1⟩ := Option.eq_none_or_eq_some ((unwrapTable t).nthChild tTr 1)
    · rw [h1]
      exact ⟨[[]], rfl, .cons .nothing .nil, rfl, [], t, ts, [], [], rfl, rfl, rfl, .inl ⟨h1, rfl, rfl⟩⟩
    rw [h1]
    simp only
    obtain h2 | ⟨title, h2⟩ := Option.eq_none_or_eq_some (figureTitle tr)
    · rw [h2]
      obtain ⟨gs, k1, k2⟩ := ih k f
      exact ⟨[] :: gs, k1, saysAll_cons (f := []) .nothing rfl (fun _ x hx => by simp at hx) k2⟩
    rw [h2]
    simp only
    obtain h3 | ⟨fid, h3⟩ := Option.eq_none_or_eq_some (figureId title)
    · rw [h3]
      obtain ⟨gs, k1, k2⟩ := ih (k + 1) f
      have hstep : (do M.say (.noId title); addIssue .tblFigIdExtractErr (figIdMissing k) none [(c!"title", .str title)]; parseTablesC env (k + 1) ts : M Unit) f =
          ⟨[(Said.noId title).ev] ++ ([.lint (issue .tblFigIdExtractErr (figIdMissing k) none [(c!"title", .str title)])] ++ (parseTablesC env (k + 1) ts f).evs),
            (parseTablesC env (k + 1) ts f).flag, (parseTablesC env (k + 1) ts f).out⟩ := by
        rw [addIssue_none (by simp [figIdMissing]) (by decide)]
        rfl
      have hn : ∀ e ∈ [Ev.lint (issue .tblFigIdExtractErr (figIdMissing k) none [(c!"title", .str title)])], NotSaid e := by
        intro e he
        rw [List.mem_singleton] at he
        subst he
        exact notSaid_issue (by decide) _ _ _
      simp only [hstep]
      refine ⟨[.noId title] :: gs, ?_, ?_⟩
      · rw [saidOf_append, saidOf_append, k1, saidOf_said, saidOf_of hn]
        rfl
      · rw [quiet_append, quiet_append, quiet_said, quiet_of hn, List.nil_append, failures_append]
        exact saysAll_cons (.noId tr title h1 h2 h3) rfl (fun _ x hx => by simp at hx) k2
    · rw [h3]
      simp only
      have htop : IsTop t ⟨some title, fid, none⟩ := ⟨tr, title, h1, h2, h3, rfl, rfl⟩
      have hmk := fun evs => failures_marks evs
      have hfl : ∀ f, parseFigureC env ⟨some title, fid, none⟩ (removeFirstTr (unwrapTable t)) f =
          parseFigureC env ⟨some title, fid, none⟩ (removeFirstTr (unwrapTable t)) false := by
        intro f
        unfold parseFigureC
        have := size_pos (removeFirstTr (unwrapTable t))
        cases h : (removeFirstTr (unwrapTable t)).size with
        | zero => omega
        | succ n => simp only [parseFigC, onParseFigC, M.bind_run, M.setFlag_run]
      rw [M.bind_run, hfl f]
      rcases told_parseFigure hE ⟨some title, fid, none⟩ (removeFirstTr (unwrapTable t)) ⟨figureId_ne h3, by simp⟩ false with
        ⟨j1, j2, j3⟩ | ⟨j1, j2, j3, y, j4, j5, j6⟩ | ⟨j1, j2, j3, j4⟩ | ⟨e, j1, j2, j3, j4⟩
      · simp only [j1]
        obtain ⟨gs, k1, k2⟩ := ih k (parseFigureC env ⟨some title, fid, none⟩ (removeFirstTr (unwrapTable t)) false).flag
        refine ⟨[] :: gs, ?_, ?_⟩
        · rw [saidOf_append, saidOf_marks, j3, k1]; rfl
        · rw [quiet_append, failures_append, hmk, j3]
          exact saysAll_cons (f := []) .nothing rfl (fun _ x hx => by simp at hx) k2
      · simp only [j1]
        obtain ⟨x, path, l1, l2, l3⟩ := trail_leads j6
        obtain ⟨gs, k1, k2⟩ := ih k (parseFigureC env ⟨some title, fid, none⟩ (removeFirstTr (unwrapTable t)) false).flag
        refine ⟨wayLines x path :: gs, ?_, ?_⟩
        · rw [saidOf_append, saidOf_marks, l2, k1]; rfl
        · rw [quiet_append, failures_append, hmk, l3]
          exact saysAll_cons (.failed _ y x path htop j4 j5 l1) (report_fail x path) (fun hs => by rw [j3] at hs; cases hs) k2
      · simp only [j1]
        refine ⟨[[]], ?_, .cons .nothing .nil, ?_, [], t, ts, [], [], rfl, rfl, rfl, .inr (.inl ⟨_, htop, j4, rfl, rfl⟩)⟩
        · rw [saidOf_marks, j3]; rfl
        · rw [hmk, j3]; rfl
      · simp only [j1]
        obtain ⟨x, path, l1, l2, l3⟩ := trail_leads j4
        have hs : env.skip = false := by rcases j3 with j3 | j3; · cases j3
                                         · exact j3
        refine ⟨[wayLines x path], ?_, .cons (.failed _ _ x path htop (.inl rfl) rfl l1) .nil, ?_, [], t, ts, [], wayLines x path, rfl, rfl, rfl,
          .inr (.inr ⟨_, x, path, htop, hs, l1, rfl⟩)⟩
        · rw [saidOf_marks, l2]; simp
        · rw [hmk, l3, report_fail x path]; simp

omit [Uni] in
theorem failures_announced (evs : List Ev) : (failures evs).filterMap announced = (allDiagnostics evs).filterMap announced := by
  induction evs with
  | nil => rfl
  | cons e evs ih =>
    have hd : allDiagnostics (e :: evs) = allDiagnostics [e] ++ allDiagnostics evs := by rw [← List.singleton_append]; exact List.filterMap_append ..
    rw [← List.singleton_append, failures_append, List.filterMap_append, ih, List.singleton_append, hd, List.filterMap_append]
    congr 1
    cases e with
    | ent e => rfl
    | lint l =>
      by_cases h1 : l.err = .tblParseErr
      · simp [allDiagnostics, failures, h1]
      · by_cases h2 : l.err = .tblFigIdExtractErr <;> simp [allDiagnostics, failures, announced, h1, h2]

/-- **C84** The messages of a run over a document: the tables are reached in document order, about each there are the messages which `TableSays` allows, and in the order
of the tables. Every T1000 and T1008 of the run has its message, with the same figure and the same title, every other message only says where the figure with T1000 is, and
their order is that of the diagnostics. A run to its end reaches all tables; if figures are not skipped then none of them failed. -/
theorem C84_document {env : Env} (hE : EnvOk env) (root : Node) : ∃ gs,
    saidOf (parseDocC env root).evs = gs.flatten ∧ List.Forall₂ (TableSays env) ((figures root).take gs.length) gs ∧
    (allDiagnostics (parseDoc env root).evs).filterMap announced = (saidOf (parseDocC env root).evs).filterMap Said.report ∧
    ((parseDoc env root).out = .ok () → gs.length = (figures root).length ∧
      (env.skip = false → ∀ x, Said.failed x ∉ saidOf (parseDocC env root).evs)) := by
  obtain ⟨h1, h2⟩ := C84_same_run env root
  obtain ⟨gs, k1, k2, k3, k4⟩ := says_tables hE (figures root) 0 false
  refine ⟨gs, k1, k2, ?_, fun ho => ?_⟩
  · rw [← h1, ← failures_announced]
    exact k3.trans (congrArg _ k1.symm)
  · rw [← h2] at ho
    have ho' : (parseTablesC env 0 (figures root) false).out = .ok () := ho
    rw [ho'] at k4
    exact ⟨k4.1, fun hs x => by rw [show saidOf (parseDocC env root).evs = gs.flatten from k1]; exact k4.2 hs x⟩

/-- **C84** A run which is aborted stops at a table `t`, and about the tables after it nothing is said. Either it has no row at all; or an override asks for
columns which it does not have; in both cases nothing is said about it. Or figures are not skipped and a figure `x` in it failed, and then the last messages name `x` and after it
the figures around it, up to that of `t`. -/
theorem C84_aborted_partial {env : Env} (hE : EnvOk env) (root : Node) (e : Exn) (h : (parseDoc env root).out = .error e) :
    ∃ (pre : List Node) (t : Node) (post : List Node) (gs : List (List Said)) (g : List Said), figures root = pre ++ t :: post ∧ List.Forall₂ (TableSays env) pre gs ∧
      saidOf (parseDocC env root).evs = gs.flatten ++ g ∧
      ((unwrapTable t).nthChild tTr 1 = none ∧ e = .xpathNotFound ∧ g = [] ∨
        (∃ m, IsTop t m ∧ Mismatch env m (removeFirstTr (unwrapTable t)) ∧ e = .runtimeError ∧ g = []) ∨
        (∃ m x path, IsTop t m ∧ env.skip = false ∧ Leads env x path m ∧ g = wayLines x path)) := by
  obtain ⟨gs, k1, k2, -, k4⟩ := says_tables hE (figures root) 0 false
  rw [← (C84_same_run env root).2] at h
  have ho : (parseTablesC env 0 (figures root) false).out = .error e := h
  rw [ho] at k4
  obtain ⟨pre, t, post, gs', g, j1, j2, j3, j4⟩ := k4
  refine ⟨pre, t, post, gs', g, j1, ?_, by rw [show saidOf (parseDocC env root).evs = gs.flatten from k1, j2]; simp, j4⟩
  rw [j1, j2, List.length_append, List.length_singleton] at k2
  have hk : (pre ++ t :: post).take (gs'.length + 1) = pre ++ [t] := by
    rw [j3, List.take_append, List.take_of_length_le (Nat.le_succ _)]
    simp
  rw [hk] at k2
  have k3 := List.forall₂_take pre.length k2
  rwa [List.take_left' rfl, List.take_left' j3] at k3

/-! ### C84: the whole program -/

/-- the inputs which are announced -/
def Line.input? : Line → Option FPath
  | .parsing s => some s
  | _ => none

/-- the messages with which the program ends -/
def Line.isEnd : Line → Bool
  | .refusedJson | .refusedInput _ | .aborted => true
  | _ => false

/-- the messages about one input: of the document parser, and the summary -/
def Line.isBody : Line → Bool
  | .doc _ | .summary .. => true
  | _ => false

omit [Uni] in
theorem body_lines {ls : List Line} (h : ∀ l ∈ ls, l.isBody = true) : ls.filterMap Line.input? = [] ∧ ∀ l ∈ ls, l.isEnd = false := by
  refine ⟨List.filterMap_eq_nil_iff.2 fun l hl => ?_, fun l hl => ?_⟩ <;> have := h l hl <;> cases l <;> first | rfl | cases this

theorem specLines_body (ig : List LintErr) (skip : Bool) (dst : FPath) (doc : Except Exn Node) : ∀ l ∈ specLines ig skip dst doc, l.isBody = true := by
  intro l hl
  unfold specLines at hl
  cases hd : htmlToSpecDoc doc with
  | error e => rw [hd] at hl; simp at hl
  | ok sdoc =>
    rw [hd] at hl
    rcases List.mem_append.1 hl with hl | hl
    · obtain ⟨s, -, rfl⟩ := List.mem_map.1 hl
      rfl
    · cases ho : (parseDocC (getParser sdoc.key sdoc.rev skip) sdoc.root).out with
      | error e => rw [ho] at hl; simp at hl
      | ok u =>
        rw [ho] at hl
        simp only at hl
        split at hl
        · simp at hl
        · rw [List.mem_singleton] at hl
          subst hl
          rfl

theorem runLines_body (t : Tools) (o : Opts) (w : Files) (s : FPath) : ∀ l ∈ runLines t o w s, l.isBody = true := by
  intro l hl
  unfold runLines at hl
  split at hl
  · cases hc : convertWord t w s with
    | error e => rw [hc] at hl; simp at hl
    | ok p => obtain ⟨h, c⟩ := p; rw [hc] at hl; exact specLines_body _ _ _ _ l hl
  · exact specLines_body _ _ _ _ l hl

/-- **C84** The whole program. The inputs are announced in the order in which they are given, each before the messages about it. With status 0 all of them have been
announced and there is no message of an end. With status 1, the only other one, the last message, and no other, says that the program ends: because of the input announced last. -/
theorem C84_program (t : Tools) (o : Opts) (w : Files) (specs : List FPath) :
    ((mainLoop t o w specs).2 = 0 ∧ (mainLines t o w specs).filterMap Line.input? = specs ∧ ∀ l ∈ mainLines t o w specs, l.isEnd = false) ∨
    ((mainLoop t o w specs).2 = 1 ∧ ∃ (before : List Line) (ss : List FPath) (s : FPath) (rest : List FPath) (body : List Line) (e : Line),
      specs = ss ++ s :: rest ∧ mainLines t o w specs = before ++ .parsing s :: (body ++ [e]) ∧ before.filterMap Line.input? = ss ∧
      (∀ l ∈ before, l.isEnd = false) ∧ (∀ l ∈ body, l.isBody = true) ∧
      (e = .refusedJson ∧ suffix s.name = c!".json" ∧ body = [] ∨ e = .refusedInput s ∧ suffix s.name ∉ [c!".json", c!".html", c!".docx"] ∧ body = [] ∨
        e = .aborted ∧ suffix s.name ∈ [c!".html", c!".docx"])) := by
  induction specs generalizing w with
  | nil => exact .inl ⟨rfl, rfl, fun l hl => by simp [mainLines] at hl⟩
  | cons s rest ih =>
    simp only [mainLoop, mainLines]
    by_cases h1 : suffix s.name = c!".json"
    · rw [if_pos h1, if_pos h1]
      exact .inr ⟨rfl, [], [], s, rest, [], .refusedJson, rfl, rfl, rfl, fun _ h => by simp at h, fun _ h => by simp at h, .inl ⟨rfl, h1, rfl⟩⟩
    rw [if_neg h1, if_neg h1]
    by_cases h2 : [c!".html", c!".docx"].contains (suffix s.name) = true
    · rw [if_neg (by rw [h2]; simp), if_neg (by rw [h2]; simp)]
      have h2' : suffix s.name ∈ [c!".html", c!".docx"] := by simpa using h2
      have hb := runLines_body t o w s
      cases hr : runSpec t o w s with
      | mk w' out =>
        cases out with
        | error e => exact .inr ⟨rfl, [], [], s, rest, runLines t o w s, .aborted, rfl, rfl, rfl, fun _ h => by simp at h, hb, .inr (.inr ⟨rfl, h2'⟩)⟩
        | ok dst =>
          simp only
          by_cases h3 : (o.validate && !validateJson w' dst) = true
          · rw [if_pos h3, if_pos h3]
            exact .inr ⟨rfl, [], [], s, rest, runLines t o w s, .aborted, rfl, rfl, rfl, fun _ h => by simp at h, hb, .inr (.inr ⟨rfl, h2'⟩)⟩
          rw [if_neg h3, if_neg h3]
          obtain ⟨b1, b2⟩ := body_lines hb
          rcases ih w' with ⟨k1, k2, k3⟩ | ⟨k1, before, ss, s', rest', body, e, k2, k3, k4, k5, k6, k7⟩
          · refine .inl ⟨k1, ?_, ?_⟩
            · rw [List.filterMap_cons_some (f := Line.input?) (b := s) rfl, List.filterMap_append, b1, k2]; rfl
            · intro l hl
              rcases List.mem_cons.1 hl with rfl | hl
              · rfl
              rcases List.mem_append.1 hl with hl | hl
              · exact b2 l hl
              · exact k3 l hl
          · refine .inr ⟨k1, .parsing s :: (runLines t o w s ++ before), s :: ss, s', rest', body, e, by rw [k2]; rfl, ?_, ?_, ?_, k6, k7⟩
            · rw [k3]; simp
            · rw [List.filterMap_cons_some (f := Line.input?) (b := s) rfl, List.filterMap_append, b1, k4]; rfl
            · intro l hl
              rcases List.mem_cons.1 hl with rfl | hl
              · rfl
              rcases List.mem_append.1 hl with hl | hl
              · exact b2 l hl
              · exact k5 l hl
    · rw [if_pos h2, if_pos h2]
      refine .inr ⟨rfl, [], [], s, rest, [], .refusedInput s, rfl, rfl, rfl, fun _ h => by simp at h, fun _ h => by simp at h, .inr (.inl ⟨rfl, ?_, rfl⟩)⟩
      intro hm
      rcases List.mem_cons.1 hm with hm | hm
      · exact h1 hm
      · exact h2 (by simpa using hm)

/-- what the messages about one input are, if its model file is made -/
def Counted (o : Opts) (w' : Files) (dst : FPath) (ls : List Line) : Prop :=
  ∃ (text : Str) (model : ModelFile) (ss : List Said), w' dst = some text ∧ (readJson text).bind readModel = some model ∧
    ls = ss.map Line.doc ++ (if model.lint = [] then [] else [.summary model.lint.length dst]) ∧
    model.lint.filterMap announced = (ss.filterMap Said.report).filter (fun r => ∀ c ∈ o.ignore, r.1.code ≠ c.code)

omit [Uni] in
theorem reported_eq (ig : List LintErr) (evs : List Ev) :
    reportedLint ig evs = (allDiagnostics evs).filter (fun l => ∀ c ∈ ig, l.err.code ≠ c.code) := by
  unfold reportedLint
  change List.filter _ (allDiagnostics _) = _
  apply List.filter_congr
  intro l _
  rw [Bool.eq_iff_iff]
  simp only [Bool.not_eq_true', List.contains_eq_mem, decide_eq_false_iff_not, List.mem_map, not_exists, not_and, ne_eq, decide_eq_true_eq]
  exact ⟨fun h c hc he => h c hc he.symm, fun h c hc he => h c hc he.symm⟩

omit [Uni] in
theorem announced_filter (ig : List LintErr) (ls : List LintEntry) :
    (ls.filter (fun l => ∀ c ∈ ig, l.err.code ≠ c.code)).filterMap announced = (ls.filterMap announced).filter (fun r => ∀ c ∈ ig, r.1.code ≠ c.code) := by
  induction ls with
  | nil => rfl
  | cons l ls ih =>
    have ha : ∀ r, announced l = some r → r.1 = l.err := by
      intro r hr
      unfold announced at hr
      split at hr
      · cases hr; rfl
      · split at hr
        · cases hr; rfl
        · cases hr
    by_cases hk : ∀ c ∈ ig, l.err.code ≠ c.code
    · rw [List.filter_cons_of_pos (by simpa using hk)]
      cases hr : announced l with
      | none => rw [List.filterMap_cons_none hr, List.filterMap_cons_none hr, ih]
      | some r =>
        rw [List.filterMap_cons_some hr, List.filterMap_cons_some hr, List.filter_cons_of_pos (by rw [ha r hr]; simpa using hk), ih]
    · rw [List.filter_cons_of_neg (by simpa using hk)]
      cases hr : announced l with
      | none => rw [List.filterMap_cons_none hr, ih]
      | some r => rw [List.filterMap_cons_some hr, List.filter_cons_of_neg (by rw [ha r hr]; simpa using hk), ih]

theorem specLines_ok (o : Opts) (dst : FPath) (doc : Except Exn Node) (h : (parseSpec o.ignore o.skip false none doc).2.2 = .returned) :
    ∃ (model : ModelFile) (ss : List Said), (readJson (parseSpec o.ignore o.skip false none doc).2.1.file.content).bind readModel = some model ∧
      specLines o.ignore o.skip dst doc = ss.map Line.doc ++ (if model.lint = [] then [] else [.summary model.lint.length dst]) ∧
      model.lint.filterMap announced = (ss.filterMap Said.report).filter (fun r => ∀ c ∈ o.ignore, r.1.code ≠ c.code) := by
  obtain ⟨root, key, rev, h1, h2, h3, h4⟩ := C79_read_back o doc h
  rw [h4]
  cases hd : htmlToSpecDoc doc with
  | error e =>
    rw [parseSpec, specSteps_err _ _ _ hd] at h
    cases h
  | ok sdoc =>
    obtain ⟨k1, k2⟩ := htmlToSpecDoc_ok hd
    rw [h1] at k1
    injection k1 with k1
    subst k1
    obtain ⟨e1, e2⟩ := k2.unique h2
    obtain ⟨j1, j2⟩ := C84_same_run (getParser key rev o.skip) sdoc.root
    obtain ⟨gs, -, -, j3, -⟩ := C84_document (envOk_getParser key rev o.skip) sdoc.root
    refine ⟨_, saidOf (parseDocC (getParser key rev o.skip) sdoc.root).evs, rfl, ?_, ?_⟩
    · unfold specLines
      rw [hd]
      simp only
      rw [e1, e2, j2]
      rw [show (parseDoc (getParser key rev o.skip) sdoc.root).out = .ok () from h3]
      simp only
      rw [j1, reported_eq]
      simp only [List.length_eq_zero_iff]
      rfl
    · rw [announced_filter]
      exact congrArg _ j3

theorem specLines_err (o : Opts) (dst : FPath) (doc : Except Exn Node) (h : (parseSpec o.ignore o.skip false none doc).2.2 ≠ .returned) :
    ∃ ss : List Said, specLines o.ignore o.skip dst doc = ss.map Line.doc := by
  unfold specLines
  cases hd : htmlToSpecDoc doc with
  | error e => exact ⟨[], rfl⟩
  | ok sdoc =>
    simp only
    rw [(C84_same_run (getParser sdoc.key sdoc.rev o.skip) sdoc.root).2]
    cases ho : (parseDoc (getParser sdoc.key sdoc.rev o.skip) sdoc.root).out with
    | error e => exact ⟨_, List.append_nil _⟩
    | ok u =>
      refine absurd ?_ h
      rw [parseSpec, specSteps_ok _ _ _ hd, show (runOf o.skip sdoc.root sdoc.key sdoc.rev).out = .ok u from ho]

theorem counted_json (t : Tools) (o : Opts) (w : Files) (s : FPath) :
    (∀ w' dst, runJson t o w s = (w', .ok dst) → Counted o w' dst (jsonLines t o w s)) ∧
    (∀ w' e, runJson t o w s = (w', .error e) → ∃ ss : List Said, jsonLines t o w s = ss.map Line.doc) := by
  unfold runJson jsonLines
  simp only
  generalize readHtml t (w.set ⟨o.out, baseName s.name ++ c!".json"⟩ []) s = doc
  constructor
  · intro w' dst h
    rw [Prod.mk.injEq] at h
    obtain ⟨rfl, h⟩ := h
    cases hr : (parseSpec o.ignore o.skip false none doc).2.2 with
    | returned =>
      rw [hr] at h
      injection h with h
      subst h
      obtain ⟨model, ss, k1, k2, k3⟩ := specLines_ok o ⟨o.out, baseName s.name ++ c!".json"⟩ doc hr
      exact ⟨_, model, ss, Files.set_self, k1, k2, k3⟩
    | raised e => rw [hr] at h; cases h
    | closed => rw [hr] at h; cases h
  · intro w' e h
    rw [Prod.mk.injEq] at h
    obtain ⟨-, h⟩ := h
    refine specLines_err o _ doc fun hr => ?_
    rw [hr] at h
    cases h

/-- **C84** The messages about one input. If its model file is made then the summary gives the number of the diagnostics in this file and its path, and is left
out if there are none; and the diagnostics T1000 and T1008 in the file are those of the messages before it, but for the codes which are ignored. If not then there is no
summary. -/
theorem C84_summary (t : Tools) (o : Opts) (w : Files) (s : FPath) :
    (∀ w' dst, runSpec t o w s = (w', .ok dst) → Counted o w' dst (runLines t o w s)) ∧
    (∀ w' e, runSpec t o w s = (w', .error e) → ∃ ss : List Said, runLines t o w s = ss.map Line.doc) := by
  unfold runSpec runLines
  by_cases h : suffix s.name = c!".docx"
  · rw [if_pos h, if_pos h]
    cases hc : convertWord t w s with
    | error e => exact ⟨fun w' dst hr => (by cases hr), fun w' e _ => ⟨[], rfl⟩⟩
    | ok p => obtain ⟨hh, c⟩ := p; exact counted_json t o _ _
  · rw [if_neg h, if_neg h]
    exact counted_json t o w s

end

/-! ### Examples -/

/-- a document with a figure which cannot be processed, because of a table in one of its rows, and figures without id: with and without skipping -/
example : letI := Uni.ascii
    EnvOk (envNvm true) ∧
    saidOf (parseDocC (envNvm true) mixedDoc).evs = [.failed ⟨none, c!"8_0", some c!"8"⟩, .within ⟨some c!"Figure 8: Broken", c!"8", none⟩,
      .noId c!"Figure : more", .noId c!"Figure : more"] ∧
    (parseDoc (envNvm true) mixedDoc).out.isOk = true ∧
    saidOf (parseDocC (envNvm false) mixedDoc).evs = [.failed ⟨none, c!"8_0", some c!"8"⟩, .within ⟨some c!"Figure 8: Broken", c!"8", none⟩] ∧
    (parseDoc (envNvm false) mixedDoc).out.isOk = false := by
  let _ := Uni.ascii
  exact ⟨envOk_getParser c!"nvm express® nvm command set specification" c!"1.0c" true, by decide +kernel, by decide +kernel, by decide +kernel, by decide +kernel⟩

/-- the way which these messages show -/
example : letI := Uni.ascii
    Leads (envNvm true) ⟨none, c!"8_0", some c!"8"⟩ [⟨some c!"Figure 8: Broken", c!"8", none⟩] ⟨some c!"Figure 8: Broken", c!"8", none⟩ ∧
    IsTop badFig ⟨some c!"Figure 8: Broken", c!"8", none⟩ := by
  let _ := Uni.ascii
  refine ⟨.up _ [] _ _ (.self _) (.nested c!"0"), ?_⟩
  have h : (((unwrapTable badFig).nthChild tTr 1).bind figureTitle) = some c!"Figure 8: Broken" := by decide +kernel
  cases hr : (unwrapTable badFig).nthChild tTr 1 with
  | none => rw [hr] at h; cases h
  | some tr =>
    rw [hr] at h
    exact ⟨tr, _, hr, h, by decide +kernel, rfl, rfl⟩

/-- two HTML models: one with diagnostics, and one which asks for another table than it has -/
def sayingTools : Tools where
  docx _ _ := .error .runtimeError
  xml text := if text = c!"A" then .ok (headedDoc c!"One" c!"1.0" [goodFig, badFig, oddFig])
    else .ok (headedDoc c!"NVM Express® NVM Command Set Specification" c!"1.0c" [Sample.figure c!"Figure 23: Other" [c!"Value", c!"Description"] []])

def sayingFiles : Files := fun p =>
  if p = ⟨c!"/d", c!"a.html"⟩ then some c!"A" else if p = ⟨c!"/d", c!"b.html"⟩ then some c!"B" else none

/-- what is said when the first of two inputs has diagnostics and the second one is refused -/
example : letI := Uni.ascii
    mainLines sayingTools ⟨c!"/o", true, [.tblFieldGap], true⟩ sayingFiles [⟨c!"/d", c!"a.html"⟩, ⟨c!"/d", c!"a.json"⟩, ⟨c!"/d", c!"b.html"⟩] =
      [.parsing ⟨c!"/d", c!"a.html"⟩, .doc (.failed ⟨none, c!"8_0", some c!"8"⟩), .doc (.within ⟨some c!"Figure 8: Broken", c!"8", none⟩),
        .summary 2 ⟨c!"/o", c!"a.json"⟩, .parsing ⟨c!"/d", c!"a.json"⟩, .refusedJson] ∧
    (mainLoop sayingTools ⟨c!"/o", true, [.tblFieldGap], true⟩ sayingFiles [⟨c!"/d", c!"a.html"⟩, ⟨c!"/d", c!"a.json"⟩, ⟨c!"/d", c!"b.html"⟩]).2 = 1 := by
  decide +kernel

/-- What is missing in `C84_aborted_partial`: the program ends with the advice to look at the messages above for the figures which cause errors, and there is none: the
figure which stops the run is not named. -/
theorem C84_unnamed_false : letI := Uni.ascii
    ∃ (t : Tools) (w : Files) (s : FPath), (mainLoop t ⟨c!"/o", true, [], false⟩ w [s]).2 = 1 ∧
      mainLines t ⟨c!"/o", true, [], false⟩ w [s] = [.parsing s, .aborted] ∧ (w s).isSome := by
  let _ := Uni.ascii
  exact ⟨sayingTools, sayingFiles, ⟨c!"/d", c!"b.html"⟩, by decide +kernel, by decide +kernel, by decide +kernel⟩

end Spex
