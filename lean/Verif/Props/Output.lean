import Verif.Model.Output
import Verif.Props.Document
import Verif.Props.JsonText
/-
C29, C35, C38: the file written by a run, in success, in failure, and if its consumer stops early; progress reports.
-/
set_option autoImplicit false
namespace Spex
variable [Uni]

/-! ### Vocabulary -/

/-- the title and revision which a document states, lower-case -/
def Stated (root : Node) (key rev : Str) : Prop :=
  ∃ k r, (((root.childs c!"head").flatMap (·.childs c!"meta")).findSome? (·.attr? c!"data-spec")) = some k ∧
    (((root.childs c!"head").flatMap (·.childs c!"meta")).findSome? (·.attr? c!"data-revision")) = some r ∧
    key = lower k ∧ rev = lower r

/-- the metadata known when the document has been opened -/
def openedInfo (key rev : Str) : List (Str × Json) :=
  [(c!"specification", .str key), (c!"revision", .str rev), (c!"format version", .num 1), (c!"spex version", .str c!"v0.7")]

/-- a model file -/
def modelJson (info : List (Str × Json)) (ents : List Json) : Json :=
  .obj [(c!"meta", .obj info), (c!"entities", .arr ents)]

/-- all diagnostics, in order -/
def allDiagnostics (evs : List Ev) : List LintEntry := evs.filterMap fun
  | .ent _ => none
  | .lint l => some l

/-- a run of the document parser for a stated title and revision -/
def runOf (skip : Bool) (root : Node) (key rev : Str) : Res Unit := parseDoc (getParser key rev skip) root

/-! ### Lemmas -/

theorem htmlToSpecDoc_ok {doc : Except Exn Node} {sdoc : SpecDoc} (h : htmlToSpecDoc doc = .ok sdoc) :
    doc = .ok sdoc.root ∧ Stated sdoc.root sdoc.key sdoc.rev := by
  unfold htmlToSpecDoc at h
  cases doc with
  | error e => simp at h
  | ok root =>
    simp only [metaAttr] at h
    obtain h1 | ⟨k, h1⟩ := Option.eq_none_or_eq_some
      (((root.childs c!"head").flatMap (·.childs c!"meta")).findSome? (·.attr? c!"data-spec"))
    · rw [h1] at h; simp at h
    obtain h2 | ⟨r, h2⟩ := Option.eq_none_or_eq_some
      (((root.childs c!"head").flatMap (·.childs c!"meta")).findSome? (·.attr? c!"data-revision"))
    · rw [h1, h2] at h; simp at h
    rw [h1, h2] at h
    simp only [Except.ok.injEq] at h
    subst h
    exact ⟨rfl, k, r, h1, h2, rfl, rfl⟩

omit [Uni] in
theorem steps_append (w : WriterSt) (a b : List Step) : w.steps (a ++ b) = (w.steps a).steps b := List.foldl_append ..

omit [Uni] in
theorem steps_file (w : WriterSt) (ss : List Step) : (w.steps ss).file = w.file := by
  induction ss generalizing w with
  | nil => rfl
  | cons s ss ih => rw [WriterSt.steps, List.foldl_cons]; exact (ih _).trans (by cases s <;> rfl)

omit [Uni] in
theorem steps_entities (w : WriterSt) (p : Bool) (n i : Nat) (es : List Entity) :
    w.steps (entitySteps p n i es) = { w with doc := ⟨w.doc.info, w.doc.entities ++ es.map Entity.toJson⟩ } := by
  induction es generalizing w i with
  | nil => simp [entitySteps, WriterSt.steps]
  | cons e es ih =>
    rw [entitySteps, steps_append]
    have h0 : w.steps (if p then [.progress ⟨c!"json", i, n⟩] else []) = w := by split <;> rfl
    rw [h0, WriterSt.steps, List.foldl_cons]
    refine (ih _ (i + 1)).trans ?_
    simp [WriterSt.step, S2Model.writeEntity]

omit [Uni] in
theorem progressOf_append (a b : List Step) : progressOf (a ++ b) = progressOf a ++ progressOf b := List.filterMap_append ..

omit [Uni] in
theorem progressOf_entities (p : Bool) (n i : Nat) (es : List Entity) :
    progressOf (entitySteps p n i es) = if p then (List.range es.length).map (fun j => ⟨c!"json", i + j, n⟩) else [] := by
  induction es generalizing i with
  | nil => cases p <;> rfl
  | cons e es ih =>
    rw [entitySteps, progressOf_append]
    have : progressOf (.entity e.toJson :: entitySteps p n (i + 1) es) = progressOf (entitySteps p n (i + 1) es) := rfl
    rw [this, ih]
    cases p with
    | false => rfl
    | true =>
      simp only [if_true, List.length_cons]
      rw [List.range_succ_eq_map, List.map_cons, List.map_map]
      simp only [progressOf, List.filterMap_cons, List.filterMap_nil, List.singleton_append, Nat.add_zero]
      congr 2
      funext j
      simp only [Function.comp]
      congr 1
      omega

/-- the steps which open a document -/
def openSteps (key rev : Str) : List Step :=
  [.info c!"specification" (.str key), .info c!"revision" (.str rev), .info c!"format version" (.num 1),
   .info c!"spex version" (.str spexVersion)]

omit [Uni] in
theorem steps_open (key rev : Str) : (WriterSt.init.steps (openSteps key rev)) = ⟨⟨openedInfo key rev, []⟩, ⟨[], true⟩⟩ := by
  rfl

/-- the steps of a document which can be opened -/
theorem specSteps_ok (ign : List LintErr) (skip p : Bool) {doc : Except Exn Node} {sdoc : SpecDoc} (h : htmlToSpecDoc doc = .ok sdoc) :
    specSteps ign skip p doc =
      (openSteps sdoc.key sdoc.rev ++ entitySteps p (numFigures sdoc.root) 0 (entities (runOf skip sdoc.root sdoc.key sdoc.rev).evs) ++
        (match (runOf skip sdoc.root sdoc.key sdoc.rev).out with
          | .error _ => []
          | .ok () => [.info c!"lint" (.arr ((reportedLint ign (runOf skip sdoc.root sdoc.key sdoc.rev).evs).map LintEntry.toJson))]),
       (runOf skip sdoc.root sdoc.key sdoc.rev).out) := by
  rw [specSteps, h]
  simp only
  change (match (runOf skip sdoc.root sdoc.key sdoc.rev).out with | .error e => _ | .ok () => _) = _
  have he : entitiesOf (parseDoc (getParser sdoc.key sdoc.rev skip) sdoc.root).evs = entities (runOf skip sdoc.root sdoc.key sdoc.rev).evs := rfl
  rw [he]
  cases hr : (runOf skip sdoc.root sdoc.key sdoc.rev).out with
  | error e => simp [openSteps]
  | ok a => simp [openSteps, runOf]

theorem specSteps_err (ign : List LintErr) (skip p : Bool) {doc : Except Exn Node} {e : Exn} (h : htmlToSpecDoc doc = .error e) :
    specSteps ign skip p doc = ([], .error e) := by
  rw [specSteps, h]

omit [Uni] in
theorem exit_file (w : WriterSt) (h : w.file.isOpen = true) : w.exit.file = ⟨jsonDump 0 w.doc.toJson, false⟩ := by
  rw [WriterSt.exit, if_pos h]

omit [Uni] in
/-- **C35** Until the run ends, in whatever way, the output file is empty: no reader sees a part of a model. -/
theorem C35_empty_until_end (ss : List Step) : (WriterSt.init.steps ss).file.content = [] := by rw [steps_file]; rfl

/-- **C35** After a successful run the file is closed and its text is the JSON text of the title, the revision, the versions, all
allDiagnostics (here none are ignored) and all entities, in order. -/
theorem C35_success (skip p : Bool) (doc : Except Exn Node) (h : (parseSpec [] skip p none doc).2.2 = .returned) :
    ∃ root key rev, doc = .ok root ∧ Stated root key rev ∧ (runOf skip root key rev).out = .ok () ∧
      (parseSpec [] skip p none doc).2.1.file.isOpen = false ∧
      readJson (parseSpec [] skip p none doc).2.1.file.content =
        some (modelJson (openedInfo key rev ++ [(c!"lint", .arr ((allDiagnostics (runOf skip root key rev).evs).map LintEntry.toJson))])
          ((entities (runOf skip root key rev).evs).map Entity.toJson)) := by
  cases hd : htmlToSpecDoc doc with
  | error e => rw [parseSpec, specSteps_err [] skip p hd] at h; simp at h
  | ok sdoc =>
    obtain ⟨h1, h2⟩ := htmlToSpecDoc_ok hd
    refine ⟨sdoc.root, sdoc.key, sdoc.rev, h1, h2, ?_⟩
    rw [parseSpec, specSteps_ok [] skip p hd] at h ⊢
    simp only at h ⊢
    cases hr : (runOf skip sdoc.root sdoc.key sdoc.rev).out with
    | error e => rw [hr] at h; simp at h
    | ok a =>
      simp only
      rw [exit_file _ (by rw [steps_file]; rfl)]
      refine ⟨trivial, rfl, ?_⟩
      simp only
      rw [C61_roundtrip, steps_append, steps_append, steps_open, steps_entities]
      have : reportedLint [] (runOf skip sdoc.root sdoc.key sdoc.rev).evs = allDiagnostics (runOf skip sdoc.root sdoc.key sdoc.rev).evs := by
        unfold reportedLint
        rw [List.filter_eq_self.2 (by intro l _; rfl)]
        rfl
      rw [this]
      rfl

/-- **C35** After a run which fails the file is closed as well. If the document could not be opened it holds no metadata and no
entities; otherwise the title, the revision and the versions, no list of diagnostics, and all entities which were produced before
the failure. -/
theorem C35_failure (ign : List LintErr) (skip p : Bool) (doc : Except Exn Node) (e : Exn)
    (h : (parseSpec ign skip p none doc).2.2 = .raised e) :
    (parseSpec ign skip p none doc).2.1.file.isOpen = false ∧
    ((readJson (parseSpec ign skip p none doc).2.1.file.content = some (modelJson [] []) ∧
        ¬ ∃ root key rev, doc = .ok root ∧ Stated root key rev) ∨
      ∃ root key rev, doc = .ok root ∧ Stated root key rev ∧ (runOf skip root key rev).out = .error e ∧
        readJson (parseSpec ign skip p none doc).2.1.file.content =
          some (modelJson (openedInfo key rev) ((entities (runOf skip root key rev).evs).map Entity.toJson))) := by
  cases hd : htmlToSpecDoc doc with
  | error e' =>
    rw [parseSpec, specSteps_err ign skip p hd]
    simp only
    rw [exit_file _ rfl]
    refine ⟨rfl, .inl ⟨C61_roundtrip _, ?_⟩⟩
    rintro ⟨root, key, rev, rfl, k, r, h1, h2, -⟩
    rw [htmlToSpecDoc] at hd
    simp only [metaAttr, h1, h2] at hd
    simp at hd
  | ok sdoc =>
    obtain ⟨h1, h2⟩ := htmlToSpecDoc_ok hd
    rw [parseSpec, specSteps_ok ign skip p hd] at h ⊢
    simp only at h ⊢
    rw [exit_file _ (by rw [steps_file]; rfl)]
    refine ⟨rfl, .inr ⟨sdoc.root, sdoc.key, sdoc.rev, h1, h2, ?_⟩⟩
    cases hr : (runOf skip sdoc.root sdoc.key sdoc.rev).out with
    | ok a => rw [hr] at h; simp at h
    | error e' =>
      rw [hr] at h
      simp only [RunEnd.raised.injEq] at h
      subst h
      refine ⟨rfl, ?_⟩
      simp only
      rw [C61_roundtrip, steps_append, steps_append, steps_open, steps_entities]
      rfl

omit [Uni] in
theorem untilReport_entities (n total : Nat) (hn : 1 ≤ n) (i : Nat) (es : List Entity) (tail : List Step) (h : n ≤ es.length) :
    untilReport n (entitySteps true total i es ++ tail) =
      entitySteps true total i (es.take (n - 1)) ++ [.progress ⟨c!"json", i + (n - 1), total⟩] := by
  induction es generalizing n i with
  | nil => simp at h; omega
  | cons e es ih =>
    by_cases h1 : n = 1
    · subst h1
      simp [entitySteps, untilReport]
    · obtain ⟨m, rfl⟩ : ∃ m, n = m + 2 := ⟨n - 2, by omega⟩
      simp only [List.length_cons] at h
      have := ih (m + 1) (by omega) (i + 1) (by omega)
      have e1 : ∀ q ss, untilReport (m + 2) (.progress q :: ss) = .progress q :: untilReport (m + 1) ss := fun _ _ => rfl
      have e2 : ∀ x ss, untilReport (m + 1) (.entity x :: ss) = .entity x :: untilReport (m + 1) ss := by intro x ss; cases m <;> rfl
      rw [entitySteps, if_pos rfl, List.singleton_append, List.cons_append, List.cons_append, e1, e2, this,
        show m + 2 - 1 = m + 1 by omega, List.take_succ_cons, entitySteps, if_pos rfl]
      simp [show i + 1 + m = i + (m + 1) by omega]

omit [Uni] in
theorem untilReport_open (n : Nat) (key rev : Str) (ss : List Step) :
    untilReport n (openSteps key rev ++ ss) = openSteps key rev ++ untilReport n ss := by
  simp [openSteps, untilReport]

/-- **C35** If the consumer of the progress reports stops at its `n`-th report, the file is closed and holds the metadata known by
then and the entities before the one announced by that report. -/
theorem C35_stopped (ign : List LintErr) (skip p : Bool) (n : Nat) (doc : Except Exn Node)
    (h : (parseSpec ign skip p (some n) doc).2.2 = .closed) :
    ∃ root key rev, doc = .ok root ∧ Stated root key rev ∧ 1 ≤ n ∧ n ≤ (entities (runOf skip root key rev).evs).length ∧
      (parseSpec ign skip p (some n) doc).1.length = n ∧
      (parseSpec ign skip p (some n) doc).2.1.file.isOpen = false ∧
      readJson (parseSpec ign skip p (some n) doc).2.1.file.content =
        some (modelJson (openedInfo key rev) (((entities (runOf skip root key rev).evs).take (n - 1)).map Entity.toJson)) := by
  cases hd : htmlToSpecDoc doc with
  | error e =>
    rw [parseSpec, specSteps_err ign skip p hd] at h
    have : ¬ (1 ≤ n ∧ n ≤ (progressOf []).length) := by simp [progressOf]; omega
    simp only [this, if_false] at h
    simp at h
  | ok sdoc =>
    obtain ⟨h1, h2⟩ := htmlToSpecDoc_ok hd
    rw [parseSpec, specSteps_ok ign skip p hd] at h ⊢
    simp only at h ⊢
    have hlint : ∀ o : Except Exn Unit, progressOf (match o with
          | .error _ => []
          | .ok () => [.info c!"lint" (.arr ((reportedLint ign (runOf skip sdoc.root sdoc.key sdoc.rev).evs).map LintEntry.toJson))]) = [] := by
      intro o; cases o <;> rfl
    by_cases hc : 1 ≤ n ∧ n ≤ (progressOf (openSteps sdoc.key sdoc.rev ++
        entitySteps p (numFigures sdoc.root) 0 (entities (runOf skip sdoc.root sdoc.key sdoc.rev).evs) ++
        (match (runOf skip sdoc.root sdoc.key sdoc.rev).out with
          | .error _ => []
          | .ok () => [.info c!"lint" (.arr ((reportedLint ign (runOf skip sdoc.root sdoc.key sdoc.rev).evs).map LintEntry.toJson))]))).length
    · rw [if_pos hc]
      rw [progressOf_append, progressOf_append, hlint, List.append_nil, progressOf_entities] at hc
      cases p with
      | false => simp [progressOf, openSteps] at hc; omega
      | true =>
        have hn : n ≤ (entities (runOf skip sdoc.root sdoc.key sdoc.rev).evs).length := by
          simpa [progressOf, openSteps] using hc.2
        refine ⟨sdoc.root, sdoc.key, sdoc.rev, h1, h2, hc.1, hn, ?_⟩
        rw [List.append_assoc, untilReport_open, untilReport_entities n _ hc.1 _ _ _ hn, ← List.append_assoc]
        refine ⟨?_, ?_⟩
        · rw [progressOf_append, progressOf_append, progressOf_entities]
          have e1 : progressOf (openSteps sdoc.key sdoc.rev) = [] := rfl
          have e2 : ∀ q, progressOf [Step.progress q] = [q] := fun _ => rfl
          rw [e1, e2, if_pos rfl]
          simp only [List.nil_append, List.length_append, List.length_map, List.length_range, List.length_take, List.length_singleton]
          omega
        · rw [exit_file _ (by rw [steps_file]; rfl)]
          refine ⟨rfl, ?_⟩
          simp only
          rw [C61_roundtrip, steps_append, steps_append, steps_open, steps_entities]
          rfl
    · rw [if_neg hc] at h
      cases hr : (runOf skip sdoc.root sdoc.key sdoc.rev).out <;> rw [hr] at h <;> simp at h

/-- **C29** Ignoring codes does not change the reports and the outcome. The file is the same text, or the run was successful and
the file is the one of a run which ignores nothing, without the diagnostics which have one of the codes. -/
theorem C29_ignore_only_hides (ign : List LintErr) (skip p : Bool) (close : Option Nat) (doc : Except Exn Node) :
    (parseSpec ign skip p close doc).1 = (parseSpec [] skip p close doc).1 ∧
    (parseSpec ign skip p close doc).2.2 = (parseSpec [] skip p close doc).2.2 ∧
    (((parseSpec [] skip p close doc).2.2 ≠ .returned ∧
        (parseSpec ign skip p close doc).2.1.file = (parseSpec [] skip p close doc).2.1.file) ∨
      ∃ info ents, ∃ ls : List LintEntry,
        readJson (parseSpec [] skip p close doc).2.1.file.content =
          some (modelJson (info ++ [(c!"lint", .arr (ls.map LintEntry.toJson))]) ents) ∧
        readJson (parseSpec ign skip p close doc).2.1.file.content =
          some (modelJson (info ++ [(c!"lint", .arr ((ls.filter fun l => ∀ c ∈ ign, l.err.code ≠ c.code).map LintEntry.toJson))]) ents)) := by
  cases hd : htmlToSpecDoc doc with
  | error e =>
    have hx : parseSpec ign skip p close doc = parseSpec [] skip p close doc := by
      rw [parseSpec, parseSpec, specSteps_err ign skip p hd, specSteps_err [] skip p hd]
    rw [hx]
    refine ⟨rfl, rfl, .inl ⟨?_, rfl⟩⟩
    rw [parseSpec, specSteps_err [] skip p hd]
    have : progressOf [] = [] := rfl
    cases close with
    | none => simp
    | some n =>
      have : ¬ (1 ≤ n ∧ n ≤ (progressOf []).length) := by simp [progressOf]; omega
      simp [this]
  | ok sdoc =>
    generalize hR : runOf skip sdoc.root sdoc.key sdoc.rev = R
    have hs : ∀ ig, specSteps ig skip p doc = (openSteps sdoc.key sdoc.rev ++ entitySteps p (numFigures sdoc.root) 0 (entities R.evs) ++
        (match R.out with
          | .error _ => []
          | .ok () => [.info c!"lint" (.arr ((reportedLint ig R.evs).map LintEntry.toJson))]), R.out) := by
      intro ig; rw [specSteps_ok ig skip p hd, hR]
    cases hr : R.out with
    | error e =>
      have hx : parseSpec ign skip p close doc = parseSpec [] skip p close doc := by
        rw [parseSpec, parseSpec, hs, hs, hr]
      rw [hx]
      refine ⟨rfl, rfl, .inl ⟨?_, rfl⟩⟩
      rw [parseSpec, hs, hr]
      cases close with
      | none => simp
      | some n => simp only; split <;> simp
    | ok a =>
      have hr1 : ∀ ig, progressOf (openSteps sdoc.key sdoc.rev ++ entitySteps p (numFigures sdoc.root) 0 (entities R.evs) ++
          [.info c!"lint" (.arr ((reportedLint ig R.evs).map LintEntry.toJson))]) =
          progressOf (openSteps sdoc.key sdoc.rev ++ entitySteps p (numFigures sdoc.root) 0 (entities R.evs)) := by
        intro ig
        rw [progressOf_append]; exact List.append_nil _
      have hfull : ∀ ig, readJson (WriterSt.init.steps (openSteps sdoc.key sdoc.rev ++ entitySteps p (numFigures sdoc.root) 0 (entities R.evs) ++
          [.info c!"lint" (.arr ((reportedLint ig R.evs).map LintEntry.toJson))])).exit.file.content =
          some (modelJson (openedInfo sdoc.key sdoc.rev ++ [(c!"lint", .arr ((reportedLint ig R.evs).map LintEntry.toJson))])
            ((entities R.evs).map Entity.toJson)) := by
        intro ig
        rw [exit_file _ (by rw [steps_file]; rfl)]
        simp only
        rw [C61_roundtrip, steps_append, steps_append, steps_open, steps_entities]
        rfl
      have hfilter : reportedLint ign R.evs = (reportedLint [] R.evs).filter fun l => ∀ c ∈ ign, l.err.code ≠ c.code := by
        unfold reportedLint
        rw [List.filter_filter]
        apply List.filter_congr
        intro l _
        simp only [List.map_nil, List.contains_nil, Bool.not_false, Bool.and_true]
        rw [Bool.eq_iff_iff]
        simp only [Bool.not_eq_true', List.contains_eq_mem, decide_eq_false_iff_not, List.mem_map, not_exists, not_and, ne_eq,
          decide_eq_true_eq]
        exact ⟨fun h c hc he => h c hc he.symm, fun h c hc he => h c hc he.symm⟩
      have hopen : (parseSpec ign skip p close doc).1 = (parseSpec [] skip p close doc).1 ∧
          (parseSpec ign skip p close doc).2.2 = (parseSpec [] skip p close doc).2.2 ∧
          (((parseSpec [] skip p close doc).2.2 = .closed ∧
              (parseSpec ign skip p close doc).2.1 = (parseSpec [] skip p close doc).2.1) ∨
            ∀ ig, (parseSpec ig skip p close doc).2.1 = (WriterSt.init.steps (openSteps sdoc.key sdoc.rev ++
              entitySteps p (numFigures sdoc.root) 0 (entities R.evs) ++
              [.info c!"lint" (.arr ((reportedLint ig R.evs).map LintEntry.toJson))])).exit) := by
        simp only [parseSpec, hs, hr, hr1]
        cases close with
        | none => exact ⟨rfl, rfl, .inr fun _ => rfl⟩
        | some n =>
          simp only
          by_cases hc : 1 ≤ n ∧ n ≤ (progressOf (openSteps sdoc.key sdoc.rev ++ entitySteps p (numFigures sdoc.root) 0 (entities R.evs))).length
          · simp only [if_pos hc]
            have : ∀ ig, untilReport n (openSteps sdoc.key sdoc.rev ++ entitySteps p (numFigures sdoc.root) 0 (entities R.evs) ++
                [.info c!"lint" (.arr ((reportedLint ig R.evs).map LintEntry.toJson))]) =
                openSteps sdoc.key sdoc.rev ++ (entitySteps true (numFigures sdoc.root) 0 ((entities R.evs).take (n - 1)) ++
                  [.progress ⟨c!"json", 0 + (n - 1), numFigures sdoc.root⟩]) := by
              intro ig
              rw [progressOf_append, progressOf_entities] at hc
              cases p with
              | false => simp [progressOf, openSteps] at hc; omega
              | true =>
                have hn : n ≤ (entities R.evs).length := by simpa [progressOf, openSteps] using hc.2
                rw [List.append_assoc, untilReport_open, untilReport_entities n _ hc.1 _ _ _ hn]
            simp only [this]
            exact ⟨trivial, trivial, .inl ⟨trivial, trivial⟩⟩
          · simp only [if_neg hc]
            exact ⟨trivial, trivial, .inr fun _ => trivial⟩
      refine ⟨hopen.1, hopen.2.1, ?_⟩
      rcases hopen.2.2 with ⟨h1, h2⟩ | h
      · exact .inl ⟨by rw [h1]; simp, by rw [h2]⟩
      · refine .inr ⟨openedInfo sdoc.key sdoc.rev, (entities R.evs).map Entity.toJson, reportedLint [] R.evs, ?_, ?_⟩
        · rw [h, hfull]
        · rw [h, hfull, hfilter]

/-! ### C38 -/

/-- **C38** The progress reports of a complete run count 0, 1, 2, ... without gaps, one for each entity, and all announce the
number of tables of the document. -/
theorem C38_counting (ign : List LintErr) (skip : Bool) (root : Node) (key rev : Str) (h : Stated root key rev) :
    (parseSpec ign skip true none (.ok root)).1 =
      (List.range (entities (runOf skip root key rev).evs).length).map (fun i => ⟨c!"json", i, (figures root).length⟩) := by
  obtain ⟨k, r, h1, h2, rfl, rfl⟩ := h
  have hd : htmlToSpecDoc (.ok root) = .ok ⟨root, lower k, lower r⟩ := by
    rw [htmlToSpecDoc]; simp only [metaAttr, h1, h2]
  rw [parseSpec, specSteps_ok ign skip true hd]
  simp only
  rw [progressOf_append, progressOf_append, progressOf_entities]
  have e1 : progressOf (openSteps (lower k) (lower r)) = [] := rfl
  rw [e1, List.nil_append]
  cases (runOf skip root (lower k) (lower r)).out <;> simp [progressOf, numFigures]

/-- **C38** Without progress reports being asked for there are none. -/
theorem C38_silent (ign : List LintErr) (skip : Bool) (doc : Except Exn Node) : (parseSpec ign skip false none doc).1 = [] := by
  cases hd : htmlToSpecDoc doc with
  | error e => rw [parseSpec, specSteps_err ign skip false hd]; rfl
  | ok sdoc =>
    rw [parseSpec, specSteps_ok ign skip false hd]
    simp only
    rw [progressOf_append, progressOf_append, progressOf_entities]
    cases (runOf skip sdoc.root sdoc.key sdoc.rev).out <;> rfl

/-- entities of rows have a parent -/
theorem Trace.rows_parent {env : Env} {m : EntityMeta} {tbl : Node} {evs : List Ev} {s : End} (hE : EnvOk env)
    (h : Trace env .rows m tbl evs s) (e : Entity) (he : .ent e ∈ evs) : e.info.parent ≠ none := by
  have key : ∀ {p m tbl evs s}, Trace env p m tbl evs s → m.parent ≠ none → '_' ∈ m.figId → ∀ x ∈ evs, ∀ e, x = .ent e →
      e.info.parent ≠ none := by
    intro p m tbl evs s h
    refine fun a b => Trace.forall (P := fun m x => m.parent ≠ none → '_' ∈ m.figId → ∀ e, x = .ent e → e.info.parent ≠ none)
      ?_ ?_ ?_ ?_ ?_ ?_ ?_ h |> fun k x hx => k x hx a b
    · rintro m x ⟨err, row, ctx, rfl, -⟩ _ _ e he; simp at he
    · intro m _ _ e he; simp [failLint] at he
    · intro m ctx _ _ e he; simp at he
    · intro m ty fs hm _ e he; simp only [Ev.ent.injEq] at he; rw [← he]; exact hm
    · intro m fs hm _ e he; simp only [Ev.ent.injEq] at he; rw [← he]; exact hm
    · intro m k x hx _ _ e he; exact hx (by simp [nestedMeta]) (by simp [nestedMeta]) e he
    · intro m c pre newId title x h1 h2 _ _ hm; exact absurd hm (hE _ _ _ _ h1 h2).2.1
  generalize hp : Phase.rows = p at h
  induction h with
  | nil => simp at he
  | raise => simp at he
  | lint => simp at he
  | nested m tbl k row td t evs s h1 h2 h3 h3' h4 ih => exact key h4 (by simp [nestedMeta]) (by simp [nestedMeta]) _ he e rfl
  | app m tbl a b s h1 h2 ih1 ih2 =>
    rcases List.mem_append.mp he with h | h
    · exact ih1 h hp
    · exact ih2 h hp
  | _ => simp at hp

omit [Uni] in
theorem entities_nil {a : List Ev} (h : ∀ x ∈ a, ∃ l, x = .lint l) : entities a = [] := by
  rw [entities, List.filterMap_eq_nil_iff]
  intro x hx
  obtain ⟨l, rfl⟩ := h x hx
  rfl

/-- the entities which are not nested -/
def topEntities (evs : List Ev) : List Entity := (entities evs).filter (fun e => e.info.parent.isNone)

omit [Uni] in
theorem topEntities_append (a b : List Ev) : topEntities (a ++ b) = topEntities a ++ topEntities b := by
  rw [topEntities, entities_append, List.filter_append]; rfl

omit [Uni] in
theorem topEntities_lint {a : List Ev} (h : ∀ x ∈ a, ∃ l, x = .lint l) : topEntities a = [] := by rw [topEntities, entities_nil h]; rfl

/-- no figure of the document is split -/
def NoSplit (env : Env) : Prop := ∀ k c pre newId, env.overrides.lookup k = some (.struct c) → c.handler ≠ .split pre newId

theorem Trace.top_le {env : Env} (hE : EnvOk env) (hN : NoSplit env) {m : EntityMeta} {tbl : Node} {evs : List Ev} {s : End}
    (h : Trace env .fig m tbl evs s) : (topEntities evs).length ≤ 1 := by
  have own : ∀ {fig a}, (∀ x ∈ a, OwnLint fig x) → topEntities a = [] := by
    intro fig a h
    refine topEntities_lint fun x hx => ?_
    obtain ⟨err, row, ctx, rfl, -⟩ := h x hx
    exact ⟨_, rfl⟩
  have rows : ∀ {evs s}, Trace env .rows m tbl evs s → topEntities evs = [] := by
    intro evs s h
    rw [topEntities, List.filter_eq_nil_iff]
    intro e he
    have : Ev.ent e ∈ evs := by
      obtain ⟨x, hx, hxe⟩ := List.mem_filterMap.1 he
      cases x with
      | ent e' => simp only [Option.some.injEq] at hxe; subst hxe; exact hx
      | lint l => simp at hxe
    simpa using h.rows_parent hE e this
  have rep : ∀ c, topEntities (failReport m c) = [] := by
    intro c; cases c <;> rfl
  cases h with
  | skipped _ _ => rw [topEntities_append, own (headerIssues_own _ _)]; simp [topEntities, entities]
  | mismatch => rw [own (headerIssues_own _ _)]; simp
  | struct _ _ c cols evs fs h1 h2 h3 =>
    rw [topEntities_append, topEntities_append, topEntities_append, own (headerIssues_own _ _), rows h2, own (structEvs_own _ _)]
    exact (List.length_filter_le _ _)
  | value _ _ cols evs fs h1 h2 h3 =>
    rw [topEntities_append, topEntities_append, topEntities_append, own (headerIssues_own _ _), rows h2, own (valuesEvs_own _ _)]
    exact (List.length_filter_le _ _)
  | split _ _ c pre newId title row a b s h1 h2 => exact absurd h2 (hN _ _ _ _ h1)
  | splitFailed _ _ c pre newId title row a b e cul h1 h2 => exact absurd h2 (hN _ _ _ _ h1)
  | failed _ _ evs e cul h =>
    rw [topEntities_append, topEntities_append, own (headerIssues_own _ _), rows h, rep]; simp

theorem DocTrace.top_le {env : Env} (hE : EnvOk env) (hN : NoSplit env) {k : Nat} {ts : List Node} {evs : List Ev} {r : Except Exn Unit}
    (h : DocTrace env k ts evs r) : (topEntities evs).length ≤ ts.length := by
  have tbl : ∀ {k t evs s k'}, TableTrace env k t evs s k' → (topEntities evs).length ≤ 1 := by
    intro k t evs s k' h
    cases h with
    | noRow => simp [topEntities, entities]
    | noTitle => simp [topEntities, entities]
    | noId => simp [topEntities, entities]
    | figure tr title fid evs s h1 h2 h3 h4 => exact h4.top_le hE hN
  induction h with
  | nil => simp [topEntities, entities]
  | step k t ts evs s k' evs' r h1 h2 h3 ih =>
    rw [topEntities_append, List.length_append, List.length_cons]
    have := tbl h1
    omega
  | stop k t ts evs e c k' h1 =>
    rw [List.length_cons]
    have := tbl h1
    omega

/-- **C38, partial** The numbers of the reports stay below the total announced if no entity of the document is nested and no
figure of the document is split. Missing: documents with nested figures, for which it is false (`C38_bound_false`). -/
theorem C38_bound_partial (ign : List LintErr) (skip : Bool) (root : Node) (key rev : Str)
    (h : Stated root key rev) (hN : NoSplit (getParser key rev skip))
    (hnest : ∀ e ∈ entities (runOf skip root key rev).evs, e.info.parent = none) :
    ∀ q ∈ (parseSpec ign skip true none (.ok root)).1, q.index < q.total := by
  rw [C38_counting ign skip root key rev h]
  intro q hq
  obtain ⟨i, hi, rfl⟩ := List.mem_map.1 hq
  rw [List.mem_range] at hi
  have hle := (docTrace_parseDoc (envOk_getParser key rev skip) root).top_le (envOk_getParser key rev skip) hN
  have : topEntities (runOf skip root key rev).evs = entities (runOf skip root key rev).evs := by
    rw [topEntities, List.filter_eq_self]
    intro e he
    rw [hnest e he]; rfl
  change (topEntities (runOf skip root key rev).evs).length ≤ _ at hle
  rw [this] at hle
  simp only
  omega

/-! ### Examples -/

section
open Sample

/-- a document with a head -/
def headedDoc (key rev : Str) (tbls : List Node) : Node :=
  .elem c!"html" [] [.elem c!"head" [] [.elem c!"meta" [(c!"charset", c!"utf-8")] [],
    .elem c!"meta" [(c!"data-spec", key), (c!"data-revision", rev)] []], .elem c!"body" [] tbls]

/-- the JSON texts, to be compared -/
def written (r : List Progress × WriterSt × RunEnd) : Str × Bool := (r.2.1.file.content, r.2.1.file.isOpen)

example : letI := Uni.ascii
    Stated (headedDoc c!"Big" c!"1.0A" [goodFig]) c!"big" c!"1.0a" := by
  let _ := Uni.ascii
  exact ⟨c!"Big", c!"1.0A", by decide +kernel, by decide +kernel, by decide +kernel, by decide +kernel⟩

/-- C35: a successful run; C29: with an ignored code -/
example : letI := Uni.ascii
    written (parseSpec [] false true none (.ok (headedDoc c!"Big" c!"1.0A" [oddFig]))) =
      (jsonDump 0 (modelJson (openedInfo c!"big" c!"1.0a" ++ [(c!"lint", .arr [.obj [(c!"code", .str c!"T1007"),
        (c!"msg", .str c!"table skipped"), (c!"fig", .str c!"9"),
        (c!"context", .obj [(c!"columns", .arr [.str c!"foo"])])]])]) []), false) ∧
    written (parseSpec [.tblFieldGap, .tblSkipped] false true none (.ok (headedDoc c!"Big" c!"1.0A" [oddFig]))) =
      (jsonDump 0 (modelJson (openedInfo c!"big" c!"1.0a" ++ [(c!"lint", .arr [])]) []), false) := by decide +kernel

/-- C35: a run which fails after two entities, and one stopped at its second report -/
example : letI := Uni.ascii
    ((parseSpec [] false true none (.ok (headedDoc c!"Big" c!"1.0A" [goodFig, badFig]))).2.2 = .raised .xpathNotFound) ∧
    ((parseSpec [] false true (some 2) (.ok (headedDoc c!"Big" c!"1.0A" [goodFig, badFig]))).2.2 = .closed) ∧
    ((parseSpec [] false true none (.ok (doc [goodFig]))).2.2 = .raised .runtimeError) := by decide +kernel

omit [Uni] in
/-- C38 fails for nested figures: a document with a single table, whose second report has the number 1. -/
theorem C38_bound_false : letI := Uni.ascii
    (parseSpec [] false true none (.ok (headedDoc c!"Big" c!"1.0A" [goodFig]))).1 = [⟨c!"json", 0, 1⟩, ⟨c!"json", 1, 1⟩] := by
  decide +kernel

/-- figure 7 without nesting -/
def flatFig : Node := figure c!"Figure 7: Command" [c!"Bits", c!"Description"] [[td c!"15:00", td c!"Kind (KI): the kind"]]

/-- the hypotheses of `C38_bound_partial` for a document with two tables -/
example : letI := Uni.ascii
    NoSplit (getParser c!"big" c!"1.0a" false) ∧
    (∀ e ∈ entities (runOf false (headedDoc c!"Big" c!"1.0A" [flatFig, flatFig]) c!"big" c!"1.0a").evs, e.info.parent = none) ∧
    (entities (runOf false (headedDoc c!"Big" c!"1.0A" [flatFig, flatFig]) c!"big" c!"1.0a").evs).length = 2 := by
  let _ := Uni.ascii
  refine ⟨?_, by decide +kernel, by decide +kernel⟩
  have : getParser c!"big" c!"1.0a" false = envPlain false := by
    have h : quirksMap.lookup (c!"big", c!"1.0a") = none := by decide +kernel
    rw [getParser, h]
  rw [this]
  intro k c pre newId h
  simp [envPlain] at h

end

end Spex
