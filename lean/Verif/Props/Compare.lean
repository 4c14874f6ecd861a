import Verif.Props.ReadBack
/-
C88: two revisions of a specification are compared by their JSON files.
-/
set_option autoImplicit false
namespace Spex
variable [Uni]

/-! ### vocabulary -/

/-- how many of the tables are figures without an id -/
def noIds (ts : List Node) : Nat := (ts.filter (fun t => (untitledId t).isSome)).length

/-- the entities made of tables, by themselves -/
def tablesEntities (env : Env) (ts : List Node) : List Entity := entities (parseDoc env (docOf ts)).evs

/-- the diagnostics without T1008, whose placeholder counts figures from the start of the document -/
def plainLint (ls : List LintEntry) : List LintEntry := ls.filter (fun l => l.err != .tblFigIdExtractErr)

/-- the diagnostics which are not ignored -/
def keptLint (ignore : List LintErr) (ls : List LintEntry) : List LintEntry := ls.filter (fun l => ∀ c ∈ ignore, l.err.code ≠ c.code)

/-- the diagnostics on tables, by themselves -/
def tablesLint (env : Env) (ignore : List LintErr) (ts : List Node) : List LintEntry :=
  plainLint (keptLint ignore (allDiagnostics (parseDoc env (docOf ts)).evs))

/-! ### proof -/

theorem parseTables_append {env : Env} {A B : List Node} {k : Nat} (h : (parseTables env k (A ++ B) false).out = .ok ()) :
    (parseTables env k A false).out = .ok () ∧ (parseTables env (k + noIds A) B false).out = .ok () ∧
    (parseTables env k (A ++ B) false).evs = (parseTables env k A false).evs ++ (parseTables env (k + noIds A) B false).evs := by
  induction A generalizing k with
  | nil => exact ⟨rfl, h, rfl⟩
  | cons t A ih =>
    rw [List.cons_append] at h ⊢
    obtain ⟨e1, e2⟩ := parseTables_cons env t (A ++ B) k
    obtain ⟨f1, f2⟩ := parseTables_cons env t A k
    rw [e2] at h
    rw [e1, f1, f2]
    cases ho : (runTable env k t).out with
    | error e => rw [ho] at h; cases h
    | ok u =>
      rw [ho] at h
      simp only at h ⊢
      have hk : (if (untitledId t).isSome then k + 1 else k) + noIds A = k + noIds (t :: A) := by
        unfold noIds
        rw [List.filter_cons]
        split <;> (simp; try omega)
      obtain ⟨i1, i2, i3⟩ := ih h
      rw [hk] at i2 i3
      exact ⟨i1, i2, by rw [i3, List.append_assoc]⟩

theorem parseTables_number {env : Env} (ts : List Node) (k j : Nat) :
    exceptT1008 (parseTables env k ts false).evs = exceptT1008 (parseTables env j ts false).evs := by
  induction ts generalizing k j with
  | nil => rfl
  | cons t ts ih =>
    obtain ⟨n1, n2, -⟩ := runTable_number env k j t
    rw [(parseTables_cons env t ts k).1, (parseTables_cons env t ts j).1, exceptT1008_append, exceptT1008_append, n1, n2]
    congr 1
    cases (runTable env j t).out with
    | error e => rfl
    | ok u => exact ih _ _

omit [Uni] in
theorem allDiagnostics_exceptT1008 (evs : List Ev) : allDiagnostics (exceptT1008 evs) = plainLint (allDiagnostics evs) := by
  induction evs with
  | nil => rfl
  | cons x xs ih =>
    cases x with
    | ent e => simpa [exceptT1008, allDiagnostics] using ih
    | lint l =>
      simp only [exceptT1008, allDiagnostics, plainLint, List.filter_cons, List.filterMap_cons] at ih ⊢
      split <;> simp_all

omit [Uni] in
theorem plain_kept (ignore : List LintErr) (ls : List LintEntry) : plainLint (keptLint ignore ls) = keptLint ignore (plainLint ls) := by
  unfold plainLint keptLint
  rw [List.filter_filter, List.filter_filter]
  congr 1
  funext l
  exact Bool.and_comm _ _

/-- tables within a document -/
theorem tables_within {env : Env} {ts : List Node} (hts : ∀ t ∈ ts, t.hasTag tTable = true) (ignore : List LintErr) (k : Nat) :
    entities (parseTables env k ts false).evs = tablesEntities env ts ∧
    plainLint (keptLint ignore (allDiagnostics (parseTables env k ts false).evs)) = tablesLint env ignore ts := by
  have h : parseDoc env (docOf ts) = parseTables env 0 ts false := by unfold parseDoc; rw [figures_docOf hts]
  unfold tablesEntities tablesLint
  rw [h]
  constructor
  · rw [← entities_exceptT1008, parseTables_number ts k 0, entities_exceptT1008]
  · rw [plain_kept, plain_kept, ← allDiagnostics_exceptT1008, parseTables_number ts k 0, allDiagnostics_exceptT1008]

/-- C88: two pages of the same specification, treated alike, have the same tables but for some in the middle, and both are converted. The two JSON files
then differ in nothing but the entities and diagnostics of these tables (and the numbers in T1008, which stay as they are if the tables have as many figures without ids). -/
theorem C88_local_partial (o : Opts) (root root' : Node) (key rev rev' : Str) (h1 : Stated root key rev) (h1' : Stated root' key rev')
    (hsame : getParser key rev o.skip = getParser key rev' o.skip)
    (h2 : (parseSpec o.ignore o.skip false none (.ok root)).2.2 = .returned)
    (h2' : (parseSpec o.ignore o.skip false none (.ok root')).2.2 = .returned)
    (A X X' B : List Node) (h3 : figures root = A ++ X ++ B) (h3' : figures root' = A ++ X' ++ B) :
    ∃ M M', (readJson (parseSpec o.ignore o.skip false none (.ok root)).2.1.file.content).bind readModel = some M ∧
      (readJson (parseSpec o.ignore o.skip false none (.ok root')).2.1.file.content).bind readModel = some M' ∧
      (let env := getParser key rev o.skip
      M.entities = tablesEntities env A ++ tablesEntities env X ++ tablesEntities env B ∧
      M'.entities = tablesEntities env A ++ tablesEntities env X' ++ tablesEntities env B ∧
      plainLint M.lint = tablesLint env o.ignore A ++ tablesLint env o.ignore X ++ tablesLint env o.ignore B ∧
      plainLint M'.lint = tablesLint env o.ignore A ++ tablesLint env o.ignore X' ++ tablesLint env o.ignore B ∧
      (noIds X = noIds X' → ∃ a x x' b, M.lint = a ++ x ++ b ∧ M'.lint = a ++ x' ++ b ∧
        plainLint a = tablesLint env o.ignore A ∧ plainLint x = tablesLint env o.ignore X ∧ plainLint x' = tablesLint env o.ignore X' ∧
        plainLint b = tablesLint env o.ignore B)) := by
  have stated : ∀ {root : Node} {k r k' r' : Str}, Stated root k r → Stated root k' r' → k = k' ∧ r = r' := by
    rintro root k r k' r' ⟨a, b, a1, a2, rfl, rfl⟩ ⟨c, d, b1, b2, rfl, rfl⟩
    rw [a1, Option.some.injEq] at b1
    rw [a2, Option.some.injEq] at b2
    rw [b1, b2]
    exact ⟨rfl, rfl⟩
  have one : ∀ (root : Node) (rev : Str) (X : List Node), Stated root key rev → (parseSpec o.ignore o.skip false none (.ok root)).2.2 = .returned →
      figures root = A ++ X ++ B → ∃ M, (readJson (parseSpec o.ignore o.skip false none (.ok root)).2.1.file.content).bind readModel = some M ∧
        (let env := getParser key rev o.skip
        M.entities = tablesEntities env A ++ tablesEntities env X ++ tablesEntities env B ∧
        M.lint = keptLint o.ignore (allDiagnostics (parseTables env 0 A false).evs) ++
          keptLint o.ignore (allDiagnostics (parseTables env (noIds A) X false).evs) ++
          keptLint o.ignore (allDiagnostics (parseTables env (noIds A + noIds X) B false).evs)) := by
    intro root rev X h1 h2 h3
    obtain ⟨root0, key0, rev0, e, s, hout, hread⟩ := C79_read_back o (.ok root) h2
    simp only [Except.ok.injEq] at e
    subst e
    obtain ⟨rfl, rfl⟩ := stated h1 s
    refine ⟨_, hread, ?_⟩
    have htab : ∀ t ∈ A ++ X ++ B, t.hasTag tTable = true := fun t ht => figures_table (h3 ▸ ht)
    simp only
    unfold runOf parseDoc at hout ⊢
    rw [h3] at hout ⊢
    obtain ⟨o1, o2, o3⟩ := parseTables_append hout
    obtain ⟨p1, p2, p3⟩ := parseTables_append o1
    rw [o3, p3]
    simp only [Nat.zero_add]
    have hn : noIds (A ++ X) = noIds A + noIds X := by unfold noIds; simp
    rw [hn]
    constructor
    · rw [entities_append, entities_append, (tables_within (fun t ht => htab t (by simp [ht])) [] _).1,
        (tables_within (fun t ht => htab t (by simp [ht])) [] _).1, (tables_within (fun t ht => htab t (by simp [ht])) [] _).1]
    · unfold keptLint allDiagnostics
      rw [List.filterMap_append, List.filterMap_append, List.filter_append, List.filter_append]
  obtain ⟨M, e1, e2, e3⟩ := one root rev X h1 h2 h3
  obtain ⟨M', f1, f2, f3⟩ := one root' rev' X' h1' h2' h3'
  rw [← hsame] at f2 f3
  have htab : ∀ t ∈ A ++ X ++ B, t.hasTag tTable = true := fun t ht => figures_table (h3 ▸ ht)
  have htab' : ∀ t ∈ A ++ X' ++ B, t.hasTag tTable = true := fun t ht => figures_table (h3' ▸ ht)
  have lA := fun k => (tables_within (env := getParser key rev o.skip) (ts := A) (fun t ht => htab t (by simp [ht])) o.ignore k).2
  have lB := fun k => (tables_within (env := getParser key rev o.skip) (ts := B) (fun t ht => htab t (by simp [ht])) o.ignore k).2
  have lX := fun k => (tables_within (env := getParser key rev o.skip) (ts := X) (fun t ht => htab t (by simp [ht])) o.ignore k).2
  have lX' := fun k => (tables_within (env := getParser key rev o.skip) (ts := X') (fun t ht => htab' t (by simp [ht])) o.ignore k).2
  have papp : ∀ a b, plainLint (a ++ b) = plainLint a ++ plainLint b := fun a b => by unfold plainLint; exact List.filter_append ..
  refine ⟨M, M', e1, f1, e2, f2, ?_, ?_, fun hn => ⟨_, _, _, _, e3, ?_, lA _, lX _, lX' (noIds A), lB _⟩⟩
  · rw [e3, papp, papp, lA, lX, lB]
  · rw [f3, papp, papp, lA, lX', lB]
  · rw [f3, hn]

end Spex

namespace Spex
open Sample

/-! ### examples -/

/-- the revision B has another figure 8, and a further table behind it -/
def revisionA : Node := headedDoc c!"Big" c!"1.0a" [goodFig, figure c!"Figure 8: Kind" [c!"Bytes", c!"Description"] [[td c!"0", td c!"Eta (ET): e"]], noIdFig, oddFig]
def revisionB : Node := headedDoc c!"Big" c!"1.0b"
  [goodFig, figure c!"Figure 8: Kind" [c!"Bytes", c!"Description"] [[td c!"0", td c!"Theta (TH): e"]],
    figure c!"Figure 8a: More" [c!"Bytes", c!"Description"] [[td c!"1:0", td c!"Iota (IO): i"]], noIdFig, oddFig]

set_option synthInstance.maxHeartbeats 200000 in
set_option synthInstance.maxSize 2000 in
/-- C88_local_partial: its hypotheses, and the two files -/
example : letI := Uni.ascii
    Stated revisionA c!"big" c!"1.0a" ∧ Stated revisionB c!"big" c!"1.0b" ∧
    getParser c!"big" c!"1.0a" false = getParser c!"big" c!"1.0b" false ∧
    (parseSpec [] false false none (.ok revisionA)).2.2 = .returned ∧ (parseSpec [] false false none (.ok revisionB)).2.2 = .returned ∧
    figures revisionA = [goodFig] ++ [figure c!"Figure 8: Kind" [c!"Bytes", c!"Description"] [[td c!"0", td c!"Eta (ET): e"]]] ++ [noIdFig, oddFig] ∧
    (((readJson (parseSpec [] false false none (.ok revisionA)).2.1.file.content).bind readModel).map
      fun m => (m.lint.map fun l => (l.err, l.fig), m.entities.map fun e => e.info.figId)) =
      some ([(.tblFigIdExtractErr, c!"FIG_ID_MISSING[0]"), (.tblSkipped, c!"9")], [c!"7_16", c!"7", c!"8"]) ∧
    (((readJson (parseSpec [] false false none (.ok revisionB)).2.1.file.content).bind readModel).map
      fun m => (m.lint.map fun l => (l.err, l.fig), m.entities.map fun e => e.info.figId)) =
      some ([(.tblFigIdExtractErr, c!"FIG_ID_MISSING[0]"), (.tblSkipped, c!"9")], [c!"7_16", c!"7", c!"8", c!"8a"]) := by
  let _ := Uni.ascii
  refine ⟨⟨c!"Big", c!"1.0a", by decide +kernel, by decide +kernel, by decide +kernel, by decide +kernel⟩,
    ⟨c!"Big", c!"1.0b", by decide +kernel, by decide +kernel, by decide +kernel, by decide +kernel⟩, rfl, by decide +kernel, by decide +kernel, rfl,
    by decide +kernel, by decide +kernel⟩

/-- the table which the parser of one revision has a label for -/
def zonedPage (rev : Str) : Node := headedDoc c!"NVM Express® Zoned Namespace Command Set Specification" rev
  [figure c!"Figure 37: Zone" [c!"Value", c!"Description"] [[td c!"0", td c!"Zone Thing: x"]]]

/-- C88 as a whole does not hold: the same table gives other labels in the one revision of a specification which has labels of its own. -/
theorem C88_revision_false : letI := Uni.ascii
    ∃ page : Str → Node, figures (page c!"1.1c") = figures (page c!"1.1d") ∧
      (((readJson (parseSpec [] false false none (.ok (page c!"1.1c"))).2.1.file.content).bind readModel).map fun m => m.entities.map Entity.body) =
        some [.values [⟨c!"0", c!"zt", some c!"x"⟩]] ∧
      (((readJson (parseSpec [] false false none (.ok (page c!"1.1d"))).2.1.file.content).bind readModel).map fun m => m.entities.map Entity.body) =
        some [.values [⟨c!"0", c!"ZONE_THING", some c!"x"⟩]] := by
  refine ⟨zonedPage, rfl, ?_, ?_⟩ <;> decide +kernel

end Spex
