import Verif.Model.Cli
import Verif.Props.Output
import Mathlib.Data.List.Forall2
import Mathlib.Data.List.TakeWhile
/-
C52, C53, C54: the command line.
-/
set_option autoImplicit false
namespace Spex
variable [Uni]

/-! ### C53 -/

/-- the code `c`, with letters of any case, between blanks -/
def Names (part : Str) (c : LintErr) : Prop :=
  ∃ l core r, part = l ++ core ++ r ∧ (∀ x ∈ l, isSpace x = true) ∧ (∀ x ∈ r, isSpace x = true) ∧ upper core = c.code

omit [Uni] in
theorem splitOn_ne_nil (sep : Char) (s : Str) : splitOn sep s ≠ [] := by
  induction s with
  | nil => simp [splitOn]
  | cons c s ih =>
    rw [splitOn]
    split
    · simp
    · split <;> simp

omit [Uni] in
theorem splitOn_join (sep : Char) (s : Str) : [sep].intercalate (splitOn sep s) = s := by
  induction s with
  | nil => rfl
  | cons c s ih =>
    rw [splitOn]
    split
    · rename_i h
      cases hs : splitOn sep s with
      | nil => exact absurd hs (splitOn_ne_nil sep s)
      | cons w ws => rw [hs] at ih; simp [List.intercalate_cons_cons, ih, h]
    · cases hs : splitOn sep s with
      | nil => exact absurd hs (splitOn_ne_nil sep s)
      | cons w ws =>
        rw [hs] at ih
        simp only
        rw [← ih]
        cases ws <;> simp [List.intercalate_cons_cons]

omit [Uni] in
theorem splitOn_no_sep (sep : Char) (s : Str) : ∀ p ∈ splitOn sep s, sep ∉ p := by
  induction s with
  | nil => simp [splitOn]
  | cons c s ih =>
    rw [splitOn]
    split
    · intro p hp
      rcases List.mem_cons.1 hp with rfl | hp
      · simp
      · exact ih p hp
    · rename_i hc
      cases hs : splitOn sep s with
      | nil => exact absurd hs (splitOn_ne_nil sep s)
      | cons w ws =>
        rw [hs] at ih
        intro p hp
        rcases List.mem_cons.1 hp with rfl | hp
        · intro hm
          rcases List.mem_cons.1 hm with rfl | hm
          · exact hc rfl
          · exact ih w (by simp) hm
        · exact ih p (by simp [hp])

omit [Uni] in
theorem splitOn_plain (sep : Char) (p : Str) (h : sep ∉ p) : splitOn sep p = [p] := by
  induction p with
  | nil => rfl
  | cons c p ih =>
    simp only [List.mem_cons, not_or] at h
    rw [splitOn, if_neg (fun x => h.1 x.symm), ih h.2]

omit [Uni] in
theorem splitOn_prefix (sep : Char) (p s : Str) (h : sep ∉ p) : splitOn sep (p ++ sep :: s) = p :: splitOn sep s := by
  induction p with
  | nil => simp [splitOn]
  | cons c p ih =>
    simp only [List.mem_cons, not_or] at h
    rw [List.cons_append, splitOn, if_neg (fun x => h.1 x.symm), ih h.2]

omit [Uni] in
theorem splitOn_unique (sep : Char) (ps : List Str) (h : ps ≠ []) (hn : ∀ p ∈ ps, sep ∉ p) :
    splitOn sep ([sep].intercalate ps) = ps := by
  induction ps with
  | nil => exact absurd rfl h
  | cons p ps ih =>
    cases ps with
    | nil => simpa using splitOn_plain sep p (hn p (by simp))
    | cons q qs =>
      rw [List.intercalate_cons_cons, List.append_assoc, List.singleton_append, splitOn_prefix sep p _ (hn p (by simp)),
        ih (by simp) (fun x hx => hn x (by simp [hx]))]

omit [Uni] in
theorem strip_parts (s : Str) : ∃ l r, s = l ++ strip s ++ r ∧ (∀ x ∈ l, isSpace x = true) ∧ (∀ x ∈ r, isSpace x = true) := by
  refine ⟨s.takeWhile isSpace, (((s.dropWhile isSpace).reverse).takeWhile isSpace).reverse, ?_, ?_, ?_⟩
  · unfold strip stripBy rstripBy lstripBy
    rw [List.append_assoc, ← List.reverse_append, List.takeWhile_append_dropWhile, List.reverse_reverse,
      List.takeWhile_append_dropWhile]
  · intro x hx; exact (List.mem_takeWhile_imp hx)
  · intro x hx; exact (List.mem_takeWhile_imp (List.mem_reverse.1 hx))

omit [Uni] in
theorem strip_eq (l core r : Str) (hl : ∀ x ∈ l, isSpace x = true) (hr : ∀ x ∈ r, isSpace x = true)
    (hc : ∀ x ∈ core, isSpace x = false) (hne : core ≠ []) : strip (l ++ core ++ r) = core := by
  obtain ⟨a, core', rfl⟩ := List.exists_cons_of_ne_nil hne
  have ha := hc a (by simp)
  unfold strip stripBy rstripBy lstripBy
  rw [List.append_assoc, List.dropWhile_append_of_pos hl, List.cons_append, List.dropWhile_cons_of_neg (by simp [ha]),
    ← List.cons_append, List.reverse_append, List.dropWhile_append_of_pos (fun x hx => hr x (List.mem_reverse.1 hx))]
  rw [show ((a :: core').reverse.dropWhile isSpace) = (a :: core').reverse from ?_, List.reverse_reverse]
  cases h : (a :: core').reverse with
  | nil => rfl
  | cons b bs =>
    have : b ∈ a :: core' := List.mem_reverse.1 (by rw [h]; simp)
    rw [List.dropWhile_cons_of_neg (by simp [hc b this])]

omit [Uni] in
theorem codeOf_ok (s : Str) (c : LintErr) : codeOf s = .ok c ↔ s = c.code := by
  unfold codeOf
  constructor
  · intro h
    split at h
    · rename_i e he
      injection h with h; subst h
      have := List.find?_some he
      simpa using (of_decide_eq_true this).symm
    · simp at h
  · rintro rfl
    cases c <;> rfl

omit [Uni] in
theorem codeOf_error (s : Str) (e : Exn) (h : codeOf s = .error e) : e = .keyError ∧ ∀ c : LintErr, s ≠ c.code := by
  refine ⟨?_, fun c hc => ?_⟩
  · unfold codeOf at h
    split at h
    · simp at h
    · injection h with h; exact h.symm
  · rw [(codeOf_ok s c).2 hc] at h; simp at h

omit [Uni] in
theorem code_space (c : LintErr) : ∀ x ∈ c.code, isSpace x = false := by cases c <;> decide +kernel
omit [Uni] in
theorem code_ne (c : LintErr) : c.code ≠ [] := by cases c <;> simp [LintErr.code]

theorem names_iff (p : Str) (c : LintErr) : upper (strip p) = c.code ↔ Names p c := by
  constructor
  · intro h
    obtain ⟨l, r, h1, h2, h3⟩ := strip_parts p
    exact ⟨l, strip p, r, h1, h2, h3, h⟩
  · rintro ⟨l, core, r, rfl, hl, hr, h⟩
    rw [strip_eq l core r hl hr ?_ ?_, h]
    · intro x hx
      by_contra hs
      have hs : isSpace x = true := by simpa using hs
      have hx' : x ∈ upper core := by
        exact List.mem_flatMap.2 ⟨x, hx, by rw [Uni.upper_space x hs]; simp⟩
      rw [h] at hx'
      rw [code_space c x hx'] at hs
      simp at hs
    · rintro rfl; exact code_ne c h.symm

/-- the codes in a comma separated list, in letters of any case and between any blanks -/
def Codes (arg : Str) (cs : List LintErr) : Prop :=
  ∃ parts : List Str, parts ≠ [] ∧ (∀ p ∈ parts, ',' ∉ p) ∧ arg = [','].intercalate parts ∧ List.Forall₂ Names parts cs

/-- the codes which are not to be reported: those listed with `--lint-ignore`, none without this option -/
inductive Ignores : Option Str → List LintErr → Prop where
  | none : Ignores none []
  | some {arg : Str} {cs : List LintErr} (h : Codes arg cs) : Ignores (some arg) cs

/-- **C53** An argument is accepted iff it is a comma separated list of codes, in letters of any case and between any blanks;
then the codes are obtained in order, none left out. -/
theorem C53_accepted (arg : Str) (cs : List LintErr) :
    argLintcode arg = .ok cs ↔ Codes arg cs := by
  have hc : ∀ (ps : List Str) (cs : List LintErr), codesOf ps = .ok cs ↔ List.Forall₂ Names ps cs := by
    intro ps
    induction ps with
    | nil => intro cs; cases cs <;> simp [codesOf]
    | cons p ps ih =>
      intro cs
      rw [codesOf]
      cases h : codeOf (upper (strip p)) with
      | error e =>
        constructor
        · intro h; simp at h
        · intro hf
          cases hf with
          | cons h1 h2 => exact absurd ((names_iff _ _).2 h1) ((codeOf_error _ _ h).2 _)
      | ok c =>
        have hn := (names_iff p c).1 ((codeOf_ok _ _).1 h)
        cases h2 : codesOf ps with
        | error e =>
          constructor
          · intro h; simp at h
          · intro hf
            cases hf with
            | cons h1 h3 => rw [(ih _).2 h3] at h2; simp at h2
        | ok cs' =>
          have := (ih cs').1 h2
          constructor
          · intro h; injection h with h; subst h; exact .cons hn this
          · intro hf
            cases hf with
            | cons h1 h3 =>
              rename_i c' cs''
              have e1 := (codeOf_ok _ _).2 ((names_iff _ _).2 h1)
              have e2 := (ih _).2 h3
              rw [h] at e1; rw [h2] at e2
              injection e1 with e1; injection e2 with e2
              rw [e1, e2]
  rw [argLintcode, hc]
  constructor
  · intro h
    exact ⟨_, splitOn_ne_nil _ _, splitOn_no_sep _ _, (splitOn_join _ _).symm, h⟩
  · rintro ⟨parts, h1, h2, rfl, h3⟩
    rwa [splitOn_unique _ _ h1 h2]

theorem ignores_iff (o : Option Str) (cs : List LintErr) : lintArg o = .ok cs ↔ Ignores o cs := by
  cases o with
  | none =>
    constructor
    · intro h; simp only [lintArg, Except.ok.injEq] at h; subst h; exact .none
    · intro h; cases h; rfl
  | some s =>
    constructor
    · intro h; exact .some ((C53_accepted s cs).1 h)
    · intro h; cases h with | some h => exact (C53_accepted s cs).2 h

/-- **C53** An argument which is not accepted raises a KeyError. -/
theorem C53_refused (arg : Str) (e : Exn) (h : argLintcode arg = .error e) : e = .keyError := by
  rw [argLintcode] at h
  generalize splitOn ',' arg = ps at h
  induction ps with
  | nil => simp [codesOf] at h
  | cons p ps ih =>
    rw [codesOf] at h
    cases h1 : codeOf (upper (strip p)) with
    | error e' => rw [h1] at h; injection h with h; subst h; exact (codeOf_error _ _ h1).1
    | ok c =>
      rw [h1] at h
      cases h2 : codesOf ps with
      | error e' => rw [h2] at h; injection h with h; subst h; exact ih h2
      | ok cs => rw [h2] at h; simp at h

/-! ### File names -/

omit [Uni] in
theorem cutDot_some {s a b : Str} (h : cutDot s = some (a, b)) : s = a ++ '.' :: b ∧ '.' ∉ a := by
  induction s generalizing a with
  | nil => simp [cutDot] at h
  | cons c s ih =>
    rw [cutDot] at h
    split at h
    · rename_i hc
      simp only [Option.some.injEq, Prod.mk.injEq] at h
      obtain ⟨rfl, rfl⟩ := h
      simp [hc]
    · rename_i hc
      cases hs : cutDot s with
      | none => rw [hs] at h; simp at h
      | some q =>
        rw [hs] at h
        simp only [Option.map_some, Option.some.injEq, Prod.mk.injEq] at h
        obtain ⟨rfl, rfl⟩ := h
        obtain ⟨h1, h2⟩ := ih (a := q.1) (by rw [hs])
        refine ⟨by rw [h1]; rfl, ?_⟩
        simp only [List.mem_cons, not_or]
        exact ⟨fun e => hc e.symm, h2⟩

omit [Uni] in
theorem cutDot_append (a b : Str) (h : '.' ∉ a) : cutDot (a ++ '.' :: b) = some (a, b) := by
  induction a with
  | nil => simp [cutDot]
  | cons c a ih =>
    simp only [List.mem_cons, not_or] at h
    rw [List.cons_append, cutDot, if_neg (fun e => h.1 e.symm), ih h.2]
    rfl

omit [Uni] in
theorem suffix_of (stem ext : Str) (h1 : stem ≠ []) (h2 : ext ≠ []) (h3 : '.' ∉ ext) : suffix (stem ++ '.' :: ext) = '.' :: ext := by
  have : (stem ++ '.' :: ext).reverse = ext.reverse ++ '.' :: stem.reverse := by simp
  rw [suffix, this, cutDot_append _ _ (by simpa using h3)]
  simp [h1, h2]

omit [Uni] in
theorem suffix_inv (name ext : Str) (h : suffix name = '.' :: ext) : ∃ stem, stem ≠ [] ∧ name = stem ++ '.' :: ext := by
  rw [suffix] at h
  split at h
  · rename_i e r hc
    split at h
    · simp at h
    · rename_i hn
      simp only [not_or] at hn
      obtain ⟨h1, -⟩ := cutDot_some hc
      injection h with _ h
      refine ⟨r.reverse, by simpa using hn.2, ?_⟩
      have := congrArg List.reverse h1
      rw [List.reverse_reverse] at this
      rw [this, ← h]; simp
  · simp at h

omit [Uni] in
theorem baseName_of (stem ext : Str) (h1 : stem ≠ []) (h2 : ext ≠ []) (h3 : '.' ∉ ext) : baseName (stem ++ '.' :: ext) = stem := by
  rw [baseName, suffix_of stem ext h1 h2 h3, if_neg (by simp)]
  simp

/-! ### C52: specification -/

/-- `j` is the complete model of the document `root`: title, revision, versions, the diagnostics without the ignored ones, and all
entities -/
def IsModel (o : Opts) (root : Node) (j : Json) : Prop :=
  ∃ key rev, Stated root key rev ∧ (runOf o.skip root key rev).out = .ok () ∧
    j = modelJson (openedInfo key rev ++ [(c!"lint", .arr (((allDiagnostics (runOf o.skip root key rev).evs).filter
        (fun l => ∀ c ∈ o.ignore, l.err.code ≠ c.code)).map LintEntry.toJson))])
      ((entities (runOf o.skip root key rev).evs).map Entity.toJson)

/-- The document which the input `s` holds, directly or converted from a Word document; with the HTML and CSS text made from it. -/
inductive Source (t : Tools) (w : Files) (s : FPath) : Str → Node → Option (Str × Str) → Prop
  | html {stem text : Str} {root : Node} : stem ≠ [] → s.name = stem ++ c!".html" → w s = some text → t.xml text = .ok root →
      Source t w s stem root none
  | docx {stem bytes h c : Str} {root : Node} : stem ≠ [] → s.name = stem ++ c!".docx" → w s = some bytes → t.docx stem bytes = .ok (h, c) →
      t.xml h = .ok root → Source t w s stem root (some (h, c))

/-- the files after the texts made from a Word document are written -/
def Files.addHtml (w : Files) (o : Opts) (stem : Str) : Option (Str × Str) → Files
  | none => w
  | some (h, c) => (w.set ⟨o.out, stem ++ c!".html"⟩ h).set ⟨o.out, stem ++ c!".css"⟩ c

/-- The input `s` is processed without error, and validated if this is asked for; the files are then `w'`. -/
def Processed (t : Tools) (o : Opts) (w : Files) (s : FPath) (w' : Files) : Prop :=
  ∃ stem root hc j, Source t w s stem root hc ∧ IsModel o root j ∧ (o.validate = true → stage2Schema.valid j = true) ∧
    w' = (w.addHtml o stem hc).set ⟨o.out, stem ++ c!".json"⟩ (jsonDump 0 j)

/-- all inputs are processed without error, one after the other -/
inductive AllDone (t : Tools) (o : Opts) : Files → List FPath → Files → Prop
  | nil {w : Files} : AllDone t o w [] w
  | cons {w w1 w' : Files} {s : FPath} {ss : List FPath} : Processed t o w s w1 → AllDone t o w1 ss w' → AllDone t o w (s :: ss) w'

/-- the files which processing `s` may write -/
def Outputs (o : Opts) (s p : FPath) : Prop :=
  ∃ stem, stem ≠ [] ∧
    ((s.name = stem ++ c!".html" ∧ p = ⟨o.out, stem ++ c!".json"⟩) ∨
     (s.name = stem ++ c!".docx" ∧
       (p = ⟨o.out, stem ++ c!".html"⟩ ∨ p = ⟨o.out, stem ++ c!".css"⟩ ∨ p = ⟨o.out, stem ++ c!".json"⟩)))

/-! ### C52: proofs -/

theorem Stated.unique {root : Node} {k r k' r' : Str} (h : Stated root k r) (h' : Stated root k' r') : k = k' ∧ r = r' := by
  obtain ⟨a, b, h1, h2, rfl, rfl⟩ := h
  obtain ⟨a', b', h3, h4, rfl, rfl⟩ := h'
  rw [h1] at h3; rw [h2] at h4
  injection h3 with h3; injection h4 with h4
  rw [h3, h4]; exact ⟨rfl, rfl⟩

theorem IsModel.unique {o : Opts} {root : Node} {j j' : Json} (h : IsModel o root j) (h' : IsModel o root j') : j = j' := by
  obtain ⟨k, r, h1, -, rfl⟩ := h
  obtain ⟨k', r', h2, -, rfl⟩ := h'
  obtain ⟨rfl, rfl⟩ := h1.unique h2
  rfl

/-- a run of the second stage -/
theorem run_cases (o : Opts) (doc : Except Exn Node) :
    (∃ root j, doc = .ok root ∧ IsModel o root j ∧ (parseSpec o.ignore o.skip false none doc).2.2 = .returned ∧
      (parseSpec o.ignore o.skip false none doc).2.1.file.content = jsonDump 0 j) ∨
    ((¬ ∃ root j, doc = .ok root ∧ IsModel o root j) ∧ ∃ e, (parseSpec o.ignore o.skip false none doc).2.2 = .raised e) := by
  cases hd : htmlToSpecDoc doc with
  | error e =>
    right
    refine ⟨?_, e, by rw [parseSpec, specSteps_err _ _ _ hd]⟩
    rintro ⟨root, j, rfl, key, rev, ⟨k, r, h1, h2, -⟩, -⟩
    rw [htmlToSpecDoc] at hd
    simp only [metaAttr, h1, h2] at hd
    simp at hd
  | ok sdoc =>
    obtain ⟨h1, h2⟩ := htmlToSpecDoc_ok hd
    rw [parseSpec, specSteps_ok _ _ _ hd]
    simp only
    cases hr : (runOf o.skip sdoc.root sdoc.key sdoc.rev).out with
    | error e =>
      right
      refine ⟨?_, e, rfl⟩
      rintro ⟨root, j, h3, key, rev, h4, h5, -⟩
      rw [h1] at h3; injection h3 with h3; subst h3
      obtain ⟨rfl, rfl⟩ := h2.unique h4
      rw [hr] at h5; simp at h5
    | ok a =>
      left
      refine ⟨sdoc.root, _, h1, ⟨sdoc.key, sdoc.rev, h2, hr, rfl⟩, rfl, ?_⟩
      simp only
      rw [exit_file _ (by rw [steps_file]; rfl), steps_append, steps_append, steps_open, steps_entities]
      have : reportedLint o.ignore (runOf o.skip sdoc.root sdoc.key sdoc.rev).evs =
          (allDiagnostics (runOf o.skip sdoc.root sdoc.key sdoc.rev).evs).filter (fun l => ∀ c ∈ o.ignore, l.err.code ≠ c.code) := by
        unfold reportedLint
        change List.filter _ (allDiagnostics _) = _
        apply List.filter_congr
        intro l _
        rw [Bool.eq_iff_iff]
        simp only [Bool.not_eq_true', List.contains_eq_mem, decide_eq_false_iff_not, List.mem_map, not_exists, not_and, ne_eq,
          decide_eq_true_eq]
        exact ⟨fun h c hc he => h c hc he.symm, fun h c hc he => h c hc he.symm⟩
      rw [this]
      rfl

omit [Uni] in
theorem Files.set_set (w : Files) (p : FPath) (a b : Str) : (w.set p a).set p b = w.set p b := by
  funext q; simp only [Files.set]; split <;> rfl

omit [Uni] in
theorem Files.set_ne {w : Files} {p q : FPath} {a : Str} (h : q ≠ p) : (w.set p a) q = w q := by
  simp [Files.set, h]

omit [Uni] in
theorem Files.set_self {w : Files} {p : FPath} {a : Str} : (w.set p a) p = some a := by
  simp [Files.set]

omit [Uni] in
theorem ext_ne {a b : Str} {x y : Char} {s t : Str} (h : x ≠ y) : a ++ (s ++ [x]) ≠ b ++ (t ++ [y]) := by
  intro e
  have := congrArg List.getLast? e
  simp at this
  exact h this

/-- the second stage, at a document whose file is not its own output -/
theorem runJson_cases (t : Tools) (o : Opts) (w : Files) (s : FPath) (dst : FPath) (hd : dst = ⟨o.out, baseName s.name ++ c!".json"⟩)
    (hs : s ≠ dst) :
    (∃ text root j, w s = some text ∧ t.xml text = .ok root ∧ IsModel o root j ∧
      runJson t o w s = (w.set dst (jsonDump 0 j), .ok dst)) ∨
    ((¬ ∃ text root j, w s = some text ∧ t.xml text = .ok root ∧ IsModel o root j) ∧
      ∃ x e, runJson t o w s = (w.set dst x, .error e)) := by
  have hr : readHtml t (w.set dst []) s = readHtml t w s := by rw [readHtml, readHtml, Files.set_ne hs]
  rcases run_cases o (readHtml t w s) with ⟨root, j, h1, h2, h3, h4⟩ | ⟨h1, e, h2⟩
  · left
    rw [readHtml] at h1
    cases hw : w s with
    | none => rw [hw] at h1; simp at h1
    | some text =>
      rw [hw] at h1
      refine ⟨text, root, j, rfl, h1, h2, ?_⟩
      rw [runJson, ← hd, hr, h3, h4, Files.set_set]
  · right
    refine ⟨?_, ?_⟩
    · rintro ⟨text, root, j, h3, h4, h5⟩
      exact h1 ⟨root, j, by rw [readHtml, h3]; exact h4, h5⟩
    · refine ⟨(parseSpec o.ignore o.skip false none (readHtml t w s)).2.1.file.content, e, ?_⟩
      rw [runJson, ← hd, hr, h2, Files.set_set]

omit [Uni] in
theorem validateJson_dump (w : Files) (p : FPath) (j : Json) : validateJson (w.set p (jsonDump 0 j)) p = stage2Schema.valid j := by
  rw [validateJson, Files.set_self]
  simp only
  rw [C61_roundtrip]

omit [Uni] in
theorem names_disjoint {stem stem' : Str} : stem ++ c!".html" ≠ stem' ++ c!".docx" := ext_ne (s := c!".htm") (t := c!".doc") (by decide)

/-- one turn of the loop -/
theorem step_cases (t : Tools) (o : Opts) (w : Files) (s : FPath) :
    (∃ w', Processed t o w s w' ∧ ∀ ss, mainLoop t o w (s :: ss) = mainLoop t o w' ss) ∨
    ((¬ ∃ w', Processed t o w s w') ∧
      ∃ w', (∀ p, w' p ≠ w p → Outputs o s p) ∧ ∀ ss, mainLoop t o w (s :: ss) = (w', 1)) := by
  -- after the run
  have fin : ∀ (stem : Str) (root : Node) (hc : Option (Str × Str)) (j : Json), Source t w s stem root hc → IsModel o root j →
      (∀ root' hc' stem' , Source t w s stem' root' hc' → root' = root ∧ hc' = hc ∧ stem' = stem) →
      runSpec t o w s = ((w.addHtml o stem hc).set ⟨o.out, stem ++ c!".json"⟩ (jsonDump 0 j), .ok ⟨o.out, stem ++ c!".json"⟩) →
      (∃ w', Processed t o w s w' ∧ ∀ ss, mainLoop t o w (s :: ss) = mainLoop t o w' ss) ∨
      ((¬ ∃ w', Processed t o w s w') ∧
        ∃ w', (∀ p, w' p ≠ w p → Outputs o s p) ∧ ∀ ss, mainLoop t o w (s :: ss) = (w', 1)) := by
    intro stem root hc j hs hm hu hr
    have hsuf : suffix s.name ≠ c!".json" ∧ ¬ ¬ [c!".html", c!".docx"].contains (suffix s.name) := by
      cases hs with
      | html h1 h2 => rw [h2]; have := suffix_of stem c!"html" h1 (by decide) (by decide); rw [this]; decide
      | docx h1 h2 => rw [h2]; have := suffix_of stem c!"docx" h1 (by decide) (by decide); rw [this]; decide
    have hl : ∀ ss, mainLoop t o w (s :: ss) =
        if o.validate && !stage2Schema.valid j then ((w.addHtml o stem hc).set ⟨o.out, stem ++ c!".json"⟩ (jsonDump 0 j), 1)
        else mainLoop t o ((w.addHtml o stem hc).set ⟨o.out, stem ++ c!".json"⟩ (jsonDump 0 j)) ss := by
      intro ss
      rw [mainLoop, if_neg hsuf.1, if_neg hsuf.2, hr]
      simp only
      rw [validateJson_dump]
    by_cases hv : o.validate = true ∧ stage2Schema.valid j = false
    · right
      refine ⟨?_, _, ?_, fun ss => (hl ss).trans (if_pos (by simp [hv]))⟩
      · rintro ⟨w', stem', root', hc', j', h1, h2, h3, -⟩
        obtain ⟨rfl, -, -⟩ := hu _ _ _ h1
        rw [h2.unique hm, hv.2] at h3
        exact absurd (h3 hv.1) (by simp)
      · intro p hp
        cases hs with
        | html h1 h2 =>
          refine ⟨stem, h1, .inl ⟨h2, ?_⟩⟩
          by_contra hne
          exact hp (by rw [Files.set_ne hne]; rfl)
        | docx h1 h2 =>
          refine ⟨stem, h1, .inr ⟨h2, ?_⟩⟩
          by_contra hne
          simp only [not_or] at hne
          exact hp (by rw [Files.set_ne hne.2.2, Files.addHtml, Files.set_ne hne.2.1, Files.set_ne hne.1])
    · left
      refine ⟨_, ⟨stem, root, hc, j, hs, hm, ?_, rfl⟩, fun ss => (hl ss).trans (if_neg ?_)⟩
      · intro h; by_contra h2; exact hv ⟨h, by simpa using h2⟩
      · intro h; simp at h; exact hv h
  by_cases hh : suffix s.name = c!".html"
  · obtain ⟨stem, h1, h2⟩ := suffix_inv _ _ hh
    have hb : baseName s.name = stem := by rw [h2]; exact baseName_of stem c!"html" h1 (by decide) (by decide)
    have hrun : runSpec t o w s = runJson t o w s := by rw [runSpec, if_neg (by rw [hh]; decide)]
    have hne : s ≠ ⟨o.out, stem ++ c!".json"⟩ := by
      intro h
      have := congrArg FPath.name h
      rw [h2] at this
      exact ext_ne (s := c!".htm") (t := c!".jso") (by decide) this
    rcases runJson_cases t o w s ⟨o.out, stem ++ c!".json"⟩ (by rw [hb]) hne with ⟨text, root, j, h3, h4, h5, h6⟩ | ⟨h3, x, e, h4⟩
    · refine fin stem root none j (.html h1 h2 h3 h4) h5 ?_ (hrun.trans h6)
      intro root' hc' stem' hs
      cases hs with
      | html a1 a2 a3 a4 =>
        rw [h3] at a3; injection a3 with a3; subst a3
        rw [h4] at a4; injection a4 with a4
        exact ⟨a4.symm, rfl, List.append_cancel_right (a2.symm.trans h2)⟩
      | docx a1 a2 => exact absurd (h2.symm.trans a2) names_disjoint
    · right
      refine ⟨?_, w.set ⟨o.out, stem ++ c!".json"⟩ x, ?_, ?_⟩
      · rintro ⟨w', stem', root', hc', j', hs, hm, -⟩
        cases hs with
        | html a1 a2 a3 a4 => exact h3 ⟨_, _, _, a3, a4, hm⟩
        | docx a1 a2 => exact absurd (h2.symm.trans a2) names_disjoint
      · intro p hp
        refine ⟨stem, h1, .inl ⟨h2, ?_⟩⟩
        by_contra hne
        exact hp (Files.set_ne hne)
      · intro ss
        rw [mainLoop, if_neg (by rw [hh]; decide), if_neg (by rw [hh]; decide), hrun, h4]
  · by_cases hx : suffix s.name = c!".docx"
    · obtain ⟨stem, h1, h2⟩ := suffix_inv _ _ hx
      have hb : baseName s.name = stem := by rw [h2]; exact baseName_of stem c!"docx" h1 (by decide) (by decide)
      have hbad : ∀ w', (∀ p, w' p ≠ w p → p = ⟨o.out, stem ++ c!".html"⟩ ∨ p = ⟨o.out, stem ++ c!".css"⟩ ∨ p = ⟨o.out, stem ++ c!".json"⟩) →
          (∃ e, runSpec t o w s = (w', .error e)) → (¬ ∃ w', Processed t o w s w') →
          ((¬ ∃ w', Processed t o w s w') ∧ ∃ w', (∀ p, w' p ≠ w p → Outputs o s p) ∧ ∀ ss, mainLoop t o w (s :: ss) = (w', 1)) := by
        rintro w' hw ⟨e, he⟩ hp
        refine ⟨hp, w', fun p hp => ⟨stem, h1, .inr ⟨h2, hw p hp⟩⟩, ?_⟩
        intro ss
        rw [mainLoop, if_neg (by rw [hx]; decide), if_neg (by rw [hx]; decide), he]
      cases hc : convertWord t w s with
      | error e =>
        right
        refine hbad ((w.set ⟨o.out, stem ++ c!".html"⟩ []).set ⟨o.out, stem ++ c!".css"⟩ []) ?_ ⟨e, ?_⟩ ?_
        · intro p hp
          by_contra hne
          simp only [not_or] at hne
          exact hp (by rw [Files.set_ne hne.2.1, Files.set_ne hne.1])
        · rw [runSpec, if_pos hx, hc, hb]
        · rintro ⟨w', stem', root', hc', j', hs, hm, -⟩
          cases hs with
          | html a1 a2 => exact absurd (a2.symm.trans h2) names_disjoint
          | docx a1 a2 a3 a4 =>
            have hs : stem' = stem := List.append_cancel_right (a2.symm.trans h2)
            rw [convertWord, a3] at hc; simp only at hc; rw [hb, ← hs, a4] at hc; simp at hc
      | ok q =>
        obtain ⟨h, c⟩ := q
        have hw : ∃ bytes, w s = some bytes ∧ t.docx stem bytes = .ok (h, c) := by
          rw [convertWord] at hc
          cases hw : w s with
          | none => rw [hw] at hc; simp at hc
          | some b => rw [hw, hb] at hc; exact ⟨b, rfl, hc⟩
        obtain ⟨bytes, hw, hd⟩ := hw
        have hrun : runSpec t o w s = runJson t o (w.addHtml o stem (some (h, c))) ⟨o.out, stem ++ c!".html"⟩ := by
          rw [runSpec, if_pos hx, hc, hb]; rfl
        have hb' : baseName (stem ++ c!".html") = stem := baseName_of stem c!"html" h1 (by decide) (by decide)
        have hread : (w.addHtml o stem (some (h, c))) ⟨o.out, stem ++ c!".html"⟩ = some h := by
          rw [Files.addHtml, Files.set_ne, Files.set_self]
          intro e
          exact ext_ne (s := c!".htm") (t := c!".cs") (by decide) (congrArg FPath.name e)
        have hsrc : ∀ {stem' : Str} {root' : Node} {hc'}, Source t w s stem' root' hc' →
            hc' = some (h, c) ∧ stem' = stem ∧ t.xml h = .ok root' := by
          intro stem' root' hc' hs
          cases hs with
          | html a1 a2 => exact absurd (a2.symm.trans h2) names_disjoint
          | docx a1 a2 a3 a4 a5 =>
            rw [hw] at a3; injection a3 with a3; subst a3
            have hs : stem' = stem := List.append_cancel_right (a2.symm.trans h2)
            rw [hs, hd] at a4; injection a4 with a4
            injection a4 with a6 a7; subst a6; subst a7
            exact ⟨rfl, List.append_cancel_right (a2.symm.trans h2), a5⟩
        rcases runJson_cases t o (w.addHtml o stem (some (h, c))) ⟨o.out, stem ++ c!".html"⟩ ⟨o.out, stem ++ c!".json"⟩ (by rw [hb'])
          (by intro e; exact ext_ne (s := c!".htm") (t := c!".jso") (by decide) (congrArg FPath.name e)) with
          ⟨text, root, j, h3, h4, h5, h6⟩ | ⟨h3, x, e, h4⟩
        · rw [hread] at h3; injection h3 with h3; subst h3
          refine fin stem root (some (h, c)) j (.docx h1 h2 hw hd h4) h5 ?_ (hrun.trans h6)
          intro root' hc' stem' hs
          obtain ⟨b1, b2, b3⟩ := hsrc hs
          rw [h4] at b3; injection b3 with b3
          exact ⟨b3.symm, b1, b2⟩
        · right
          refine hbad _ ?_ ⟨e, hrun.trans h4⟩ ?_
          · intro p hp
            by_contra hne
            simp only [not_or] at hne
            exact hp (by rw [Files.set_ne hne.2.2, Files.addHtml, Files.set_ne hne.2.1, Files.set_ne hne.1])
          · rintro ⟨w', stem', root', hc', j', hs, hm, -⟩
            exact h3 ⟨h, root', j', hread, (hsrc hs).2.2, hm⟩
    · right
      refine ⟨?_, w, fun p hp => absurd rfl hp, ?_⟩
      · rintro ⟨w', stem', root', hc', j', hs, hm, -⟩
        cases hs with
        | html a1 a2 => exact hh (by rw [a2]; exact suffix_of stem' c!"html" a1 (by decide) (by decide))
        | docx a1 a2 => exact hx (by rw [a2]; exact suffix_of stem' c!"docx" a1 (by decide) (by decide))
      · intro ss
        rw [mainLoop]
        split
        · rfl
        · rw [if_pos]
          simp only [List.contains_cons, List.contains_nil, Bool.or_false, Bool.or_eq_true, beq_iff_eq, not_or]
          exact ⟨hh, hx⟩

omit [Uni] in
theorem Source.unique {t : Tools} {w : Files} {s : FPath} {stem stem' : Str} {root root' : Node} {hc hc' : Option (Str × Str)}
    (h : Source t w s stem root hc) (h' : Source t w s stem' root' hc') : stem = stem' ∧ root = root' ∧ hc = hc' := by
  cases h with
  | html a1 a2 a3 a4 =>
    cases h' with
    | html b1 b2 b3 b4 =>
      rw [a3] at b3; injection b3 with b3; subst b3
      rw [a4] at b4; injection b4 with b4
      exact ⟨List.append_cancel_right (a2.symm.trans b2), b4, rfl⟩
    | docx b1 b2 => exact absurd (a2.symm.trans b2) names_disjoint
  | docx a1 a2 a3 a4 a5 =>
    cases h' with
    | html b1 b2 => exact absurd (b2.symm.trans a2) names_disjoint
    | docx b1 b2 b3 b4 b5 =>
      rw [a3] at b3; injection b3 with b3; subst b3
      have hs : stem = stem' := List.append_cancel_right (a2.symm.trans b2)
      rw [← hs, a4] at b4; injection b4 with b4
      injection b4 with b6 b7; subst b6; subst b7
      rw [a5] at b5; injection b5 with b5
      exact ⟨List.append_cancel_right (a2.symm.trans b2), b5, rfl⟩

theorem Processed.unique {t : Tools} {o : Opts} {w w1 w2 : Files} {s : FPath} (h1 : Processed t o w s w1) (h2 : Processed t o w s w2) :
    w1 = w2 := by
  obtain ⟨stem, root, hc, j, a1, a2, -, rfl⟩ := h1
  obtain ⟨stem', root', hc', j', b1, b2, -, rfl⟩ := h2
  obtain ⟨rfl, rfl, rfl⟩ := a1.unique b1
  rw [a2.unique b2]

theorem mainLoop_done {t : Tools} {o : Opts} {w w' : Files} {ss : List FPath} (h : AllDone t o w ss w') : mainLoop t o w ss = (w', 0) := by
  induction h with
  | nil => rfl
  | @cons w w1 w' s ss h1 _ ih =>
    rcases step_cases t o w s with ⟨w2, h2, h3⟩ | ⟨h2, -⟩
    · rw [h3, h2.unique h1, ih]
    · exact absurd ⟨_, h1⟩ h2

theorem mainLoop_cases (t : Tools) (o : Opts) (w : Files) (ss : List FPath) :
    (∃ w', AllDone t o w ss w' ∧ mainLoop t o w ss = (w', 0)) ∨
    ∃ pre bad post w1 w2, ss = pre ++ bad :: post ∧ AllDone t o w pre w1 ∧ (¬ ∃ w', Processed t o w1 bad w') ∧
      (∀ p, w2 p ≠ w1 p → Outputs o bad p) ∧ mainLoop t o w ss = (w2, 1) := by
  induction ss generalizing w with
  | nil => exact .inl ⟨w, .nil, rfl⟩
  | cons s ss ih =>
    rcases step_cases t o w s with ⟨w1, h1, h2⟩ | ⟨h1, w2, h2, h3⟩
    · rcases ih w1 with ⟨w', h3, h4⟩ | ⟨pre, bad, post, w3, w4, h3, h4, h5, h6, h7⟩
      · exact .inl ⟨w', .cons h1 h3, by rw [h2, h4]⟩
      · exact .inr ⟨s :: pre, bad, post, w3, w4, by rw [h3]; rfl, .cons h1 h4, h5, h6, by rw [h2, h7]⟩
    · exact .inr ⟨[], s, ss, w, w2, rfl, .nil, h1, h2, h3 ss⟩

/-- the options given on the command line -/
def options (cwd : Str) (a : CliArgs) (ign : List LintErr) : Opts := ⟨a.output.getD cwd, a.skip, ign, a.validate⟩

/-- **C52** The exit status is 0 iff there are inputs, all of them exist, the codes to be ignored are known, and every input is
processed without error (and its model is valid, if this is asked for), one after the other. -/
theorem C52_success (t : Tools) (cwd : Str) (a : CliArgs) (w w' : Files) :
    cliMain t cwd a w = (w', 0) ↔
      a.inputs ≠ [] ∧ (∀ i ∈ a.inputs, w i ≠ none) ∧
        ∃ ign, Ignores a.lintIgnore ign ∧ AllDone t (options cwd a ign) w a.inputs w' := by
  simp only [← ignores_iff]
  unfold cliMain
  by_cases h1 : a.inputs = []
  · rw [if_pos h1]; cases lintArg a.lintIgnore <;> simp [h1]
  rw [if_neg h1]
  by_cases h2 : a.inputs.any (fun i => (w i).isNone) = true
  · rw [if_pos h2]
    simp only [List.any_eq_true, Option.isNone_iff_eq_none] at h2
    obtain ⟨i, hi, hn⟩ := h2
    constructor
    · intro h; simp at h
    · rintro ⟨-, h, -⟩; exact absurd hn (h i hi)
  rw [if_neg h2]
  have h2' : ∀ i ∈ a.inputs, w i ≠ none := by
    intro i hi hn
    exact h2 (List.any_eq_true.2 ⟨i, hi, by rw [hn]; rfl⟩)
  cases h3 : lintArg a.lintIgnore with
  | error e => simp
  | ok ign =>
    simp only [Except.ok.injEq, exists_eq_left']
    change mainLoop t (options cwd a ign) w a.inputs = _ ↔ _
    constructor
    · intro h
      rcases mainLoop_cases t (options cwd a ign) w a.inputs with ⟨w2, h4, h5⟩ | ⟨_, _, _, _, _, _, _, _, _, h5⟩
      · rw [h5] at h; injection h with h; subst h; exact ⟨h1, h2', h4⟩
      · rw [h5] at h; simp at h
    · rintro ⟨-, -, h⟩; exact mainLoop_done h

/-- **C52** With any other exit status either nothing was touched, because of a bad argument, or the inputs before some input were
processed without error, this input was not, and nothing else was touched but its own outputs. -/
theorem C52_failure (t : Tools) (cwd : Str) (a : CliArgs) (w : Files) (h : (cliMain t cwd a w).2 ≠ 0) :
    ((cliMain t cwd a w).1 = w ∧
      (a.inputs = [] ∨ (∃ i ∈ a.inputs, w i = none) ∨ ∃ s, a.lintIgnore = some s ∧ ¬ ∃ cs, Codes s cs)) ∨
    ∃ ign pre bad post w1, Ignores a.lintIgnore ign ∧ a.inputs = pre ++ bad :: post ∧ AllDone t (options cwd a ign) w pre w1 ∧
      (¬ ∃ w', Processed t (options cwd a ign) w1 bad w') ∧
      ∀ p, (cliMain t cwd a w).1 p ≠ w1 p → Outputs (options cwd a ign) bad p := by
  simp only [← ignores_iff]
  unfold cliMain at h ⊢
  by_cases h1 : a.inputs = []
  · rw [if_pos h1]; exact .inl ⟨rfl, .inl h1⟩
  rw [if_neg h1] at h ⊢
  by_cases h2 : a.inputs.any (fun i => (w i).isNone) = true
  · rw [if_pos h2]
    simp only [List.any_eq_true, Option.isNone_iff_eq_none] at h2
    exact .inl ⟨rfl, .inr (.inl h2)⟩
  rw [if_neg h2] at h ⊢
  cases h3 : lintArg a.lintIgnore with
  | error e =>
    refine .inl ⟨rfl, .inr (.inr ?_)⟩
    cases hl : a.lintIgnore with
    | none => rw [hl] at h3; simp [lintArg] at h3
    | some s =>
      rw [hl] at h3
      refine ⟨s, rfl, ?_⟩
      rintro ⟨cs, h⟩
      rw [← C53_accepted] at h
      simp only [lintArg] at h3
      rw [h] at h3
      cases h3
  | ok ign =>
    rw [h3] at h
    simp only at h ⊢
    change (mainLoop t (options cwd a ign) w a.inputs).2 ≠ 0 at h
    right
    rcases mainLoop_cases t (options cwd a ign) w a.inputs with ⟨w2, h4, h5⟩ | ⟨pre, bad, post, w1, w2, h4, h5, h6, h7, h8⟩
    · rw [h5] at h; exact absurd rfl h
    · refine ⟨ign, pre, bad, post, w1, rfl, h4, h5, h6, ?_⟩
      intro p hp
      change (mainLoop t (options cwd a ign) w a.inputs).1 p ≠ _ at hp
      rw [h8] at hp
      exact h7 p hp

/-- **C52** The exit status is 2 iff no input is given and the codes to be ignored are known; otherwise it is 0 or 1. -/
theorem C52_status (t : Tools) (cwd : Str) (a : CliArgs) (w : Files) :
    ((cliMain t cwd a w).2 = 2 ↔ a.inputs = [] ∧ ∃ cs, Ignores a.lintIgnore cs) ∧
    (cliMain t cwd a w).2 ≤ 2 := by
  simp only [← ignores_iff]
  unfold cliMain
  by_cases h1 : a.inputs = []
  · rw [if_pos h1]; cases lintArg a.lintIgnore <;> simp [h1]
  rw [if_neg h1]
  by_cases h2 : a.inputs.any (fun i => (w i).isNone) = true
  · rw [if_pos h2]; simp [h1]
  rw [if_neg h2]
  cases lintArg a.lintIgnore with
  | error e => simp [h1]
  | ok ign =>
    simp only
    rcases mainLoop_cases t ⟨a.output.getD cwd, a.skip, ign, a.validate⟩ w a.inputs with ⟨w2, -, h5⟩ | ⟨_, _, _, _, _, _, _, _, _, h5⟩
    · rw [h5]; simp [h1]
    · rw [h5]; simp [h1]

/-- **C52** An input with another suffix than .html or .docx is never processed. -/
theorem C52_other_suffix (t : Tools) (o : Opts) (w : Files) (s : FPath) (h1 : ∀ stem, stem ≠ [] → s.name ≠ stem ++ c!".html")
    (h2 : ∀ stem, stem ≠ [] → s.name ≠ stem ++ c!".docx") : ¬ ∃ w', Processed t o w s w' := by
  rintro ⟨w', stem, root, hc, j, hs, -⟩
  cases hs with
  | html a1 a2 => exact h1 _ a1 a2
  | docx a1 a2 => exact h2 _ a1 a2

/-! ### C54 -/

/-- the name of an input without its suffix -/
def Stem (s : FPath) (stem : Str) : Prop := stem ≠ [] ∧ (s.name = stem ++ c!".html" ∨ s.name = stem ++ c!".docx")

theorem Processed.frame {t : Tools} {o : Opts} {w w' : Files} {s p : FPath} (h : Processed t o w s w') (hp : w' p ≠ w p) : Outputs o s p := by
  obtain ⟨stem, root, hc, j, hs, -, -, rfl⟩ := h
  by_contra hne
  cases hs with
  | html h1 h2 =>
    exact hp (Files.set_ne fun e => hne ⟨stem, h1, .inl ⟨h2, e⟩⟩)
  | docx h1 h2 =>
    refine hp ?_
    rw [Files.set_ne (fun e => hne ⟨stem, h1, .inr ⟨h2, .inr (.inr e)⟩⟩), Files.addHtml,
      Files.set_ne (fun e => hne ⟨stem, h1, .inr ⟨h2, .inr (.inl e)⟩⟩), Files.set_ne (fun e => hne ⟨stem, h1, .inr ⟨h2, .inl e⟩⟩)]

theorem AllDone.frame {t : Tools} {o : Opts} {w w' : Files} {ss : List FPath} {p : FPath} (h : AllDone t o w ss w') (hp : w' p ≠ w p) :
    ∃ s ∈ ss, Outputs o s p := by
  induction h with
  | nil => exact absurd rfl hp
  | cons h1 h2 ih =>
    rename_i w w1 w' s ss
    by_cases hw : w1 p = w p
    · obtain ⟨s', h3, h4⟩ := ih (by rw [hw]; exact hp)
      exact ⟨s', by simp [h3], h4⟩
    · exact ⟨s, by simp, h1.frame hw⟩

/-- **C54** Nothing but the outputs of the inputs is written. -/
theorem C54_frame (t : Tools) (cwd : Str) (a : CliArgs) (w w' : Files) (p : FPath) (h : cliMain t cwd a w = (w', 0)) (hp : w' p ≠ w p) :
    p.dir = a.output.getD cwd ∧ ∃ s ∈ a.inputs, ∃ stem, Stem s stem ∧
      (p.name = stem ++ c!".json" ∨ (s.name = stem ++ c!".docx" ∧ (p.name = stem ++ c!".html" ∨ p.name = stem ++ c!".css"))) := by
  obtain ⟨-, -, ign, -, hd⟩ := (C52_success t cwd a w w').1 h
  obtain ⟨s, hs, stem, hne, h⟩ := hd.frame hp
  rcases h with ⟨h1, rfl⟩ | ⟨h1, rfl | rfl | rfl⟩
  · exact ⟨rfl, s, hs, stem, ⟨hne, .inl h1⟩, .inl rfl⟩
  · exact ⟨rfl, s, hs, stem, ⟨hne, .inr h1⟩, .inr ⟨h1, .inl rfl⟩⟩
  · exact ⟨rfl, s, hs, stem, ⟨hne, .inr h1⟩, .inr ⟨h1, .inr rfl⟩⟩
  · exact ⟨rfl, s, hs, stem, ⟨hne, .inr h1⟩, .inl rfl⟩

omit [Uni] in
theorem Outputs.stem {o : Opts} {s p : FPath} (h : Outputs o s p) : ∃ stem, Stem s stem ∧
    (p.name = stem ++ c!".json" ∨ p.name = stem ++ c!".html" ∨ p.name = stem ++ c!".css") := by
  obtain ⟨stem, hne, ⟨h1, rfl⟩ | ⟨h1, rfl | rfl | rfl⟩⟩ := h
  · exact ⟨stem, ⟨hne, .inl h1⟩, .inl rfl⟩
  · exact ⟨stem, ⟨hne, .inr h1⟩, .inr (.inl rfl)⟩
  · exact ⟨stem, ⟨hne, .inr h1⟩, .inr (.inr rfl)⟩
  · exact ⟨stem, ⟨hne, .inr h1⟩, .inl rfl⟩

omit [Uni] in
theorem Outputs.json {o : Opts} {s : FPath} {dir stem : Str} (h : Outputs o s ⟨dir, stem ++ c!".json"⟩) : Stem s stem := by
  obtain ⟨stem', h1, h2⟩ := h.stem
  rcases h2 with h2 | h2 | h2
  · rwa [← List.append_cancel_right h2] at h1
  · exact absurd h2 (ext_ne (s := c!".jso") (t := c!".htm") (by decide))
  · exact absurd h2 (ext_ne (s := c!".jso") (t := c!".cs") (by decide))

omit [Uni] in
theorem Outputs.input {o : Opts} {s s' : FPath} {stem : Str} (h : Outputs o s s') (hs : Stem s' stem) : Stem s stem := by
  obtain ⟨stem', h1, h2⟩ := h.stem
  rcases hs.2 with h3 | h3 <;> rw [h3] at h2 <;> rcases h2 with h2 | h2 | h2
  · exact absurd h2 (ext_ne (s := c!".htm") (t := c!".jso") (by decide))
  · rwa [← List.append_cancel_right h2] at h1
  · exact absurd h2 (ext_ne (s := c!".htm") (t := c!".cs") (by decide))
  · exact absurd h2 (ext_ne (s := c!".doc") (t := c!".jso") (by decide))
  · exact absurd h2 (ext_ne (s := c!".doc") (t := c!".htm") (by decide))
  · exact absurd h2 (ext_ne (s := c!".doc") (t := c!".cs") (by decide))

omit [Uni] in
theorem Source.isStem {t : Tools} {w : Files} {s : FPath} {stem : Str} {root : Node} {hc : Option (Str × Str)} (h : Source t w s stem root hc) :
    Stem s stem := by
  cases h with
  | html a1 a2 => exact ⟨a1, .inl a2⟩
  | docx a1 a2 => exact ⟨a1, .inr a2⟩

omit [Uni] in
theorem Source.congr {t : Tools} {w w' : Files} {s : FPath} {stem : Str} {root : Node} {hc : Option (Str × Str)} (h : Source t w s stem root hc)
    (hw : w s = w' s) : Source t w' s stem root hc := by
  cases h with
  | html a1 a2 a3 a4 => exact .html a1 a2 (by rw [← hw]; exact a3) a4
  | docx a1 a2 a3 a4 a5 => exact .docx a1 a2 (by rw [← hw]; exact a3) a4 a5

theorem AllDone.own {t : Tools} {o : Opts} {w w' : Files} {ss : List FPath} (h : AllDone t o w ss w')
    (hd : ss.Pairwise fun s s' => ∀ stem, Stem s stem → ¬ Stem s' stem) :
    ∀ s ∈ ss, ∃ stem root hc j, Source t w s stem root hc ∧ IsModel o root j ∧
      w' ⟨o.out, stem ++ c!".json"⟩ = some (jsonDump 0 j) := by
  induction h with
  | nil => simp
  | cons h1 h2 ih =>
    rename_i w w1 w' s ss
    rw [List.pairwise_cons] at hd
    intro x hx
    rcases List.mem_cons.1 hx with rfl | hx
    · obtain ⟨stem, root, hc, j, a1, a2, -, a4⟩ := h1
      refine ⟨stem, root, hc, j, a1, a2, ?_⟩
      by_contra hne
      obtain ⟨s', h3, h4⟩ := h2.frame (p := ⟨o.out, stem ++ c!".json"⟩) (by
        intro e; apply hne; rw [e, a4, Files.set_self])
      exact hd.1 s' h3 stem a1.isStem h4.json
    · obtain ⟨stem, root, hc, j, a1, a2, a3⟩ := ih hd.2 x hx
      refine ⟨stem, root, hc, j, a1.congr ?_, a2, a3⟩
      by_contra hne
      exact hd.1 x hx stem ((h1.frame hne).input a1.isStem) a1.isStem

/-- **C54** If the names of the inputs differ in more than their suffix, then after a successful run the file named after each
input holds the complete model of that input as it was before the run. -/
theorem C54_own_output (t : Tools) (cwd : Str) (a : CliArgs) (w w' : Files) (h : cliMain t cwd a w = (w', 0))
    (hd : a.inputs.Pairwise fun s s' => ∀ stem, Stem s stem → ¬ Stem s' stem) :
    ∃ ign, Ignores a.lintIgnore ign ∧ ∀ s ∈ a.inputs, ∃ stem root hc j, Source t w s stem root hc ∧
      IsModel (options cwd a ign) root j ∧ w' ⟨a.output.getD cwd, stem ++ c!".json"⟩ = some (jsonDump 0 j) := by
  obtain ⟨-, -, ign, hl, hd'⟩ := (C52_success t cwd a w w').1 h
  exact ⟨ign, hl, hd'.own hd⟩

/-! ### Examples -/

/-- a file system with two HTML models and a Word document, and tools for them -/
def someTools : Tools where
  docx _ bytes := if bytes = c!"WORD" then .ok (c!"B", c!"css") else .error .runtimeError
  xml text := if text = c!"A" then .ok (headedDoc c!"One" c!"1.0" []) else if text = c!"B" then .ok (headedDoc c!"Two" c!"2.0" [])
    else .error .xmlSyntaxError

def someFiles : Files := fun p =>
  if p = ⟨c!"/d", c!"a.html"⟩ then some c!"A" else if p = ⟨c!"/e", c!"a.html"⟩ then some c!"B"
  else if p = ⟨c!"/d", c!"b.docx"⟩ then some c!"WORD" else if p = ⟨c!"/d", c!"bad.html"⟩ then some c!"<" else none

/-- a command line with these inputs -/
def withInputs (l : List FPath) : CliArgs := ⟨l, none, false, true, some c!" t1001,r1000 "⟩

example : letI := Uni.ascii
    argLintcode c!"t1001, R1002 ,L1007" = .ok [.tblFieldOverlap, .rangeReversed, .lblOverridden] ∧
    argLintcode c!"T1001,,T1002" = .error .keyError ∧ argLintcode c!"" = .error .keyError := by
  decide +kernel

/-- success: an HTML model and a Word document -/
example : letI := Uni.ascii
    (cliMain someTools c!"/o" (withInputs [⟨c!"/d", c!"a.html"⟩, ⟨c!"/d", c!"b.docx"⟩]) someFiles).2 = 0 ∧
    ((cliMain someTools c!"/o" (withInputs [⟨c!"/d", c!"a.html"⟩, ⟨c!"/d", c!"b.docx"⟩]) someFiles).1 ⟨c!"/o", c!"b.html"⟩) = some c!"B" := by
  decide +kernel

/-- failure at the second of three inputs: the third is not processed -/
example : letI := Uni.ascii
    (cliMain someTools c!"/o" (withInputs [⟨c!"/d", c!"a.html"⟩, ⟨c!"/d", c!"bad.html"⟩, ⟨c!"/d", c!"b.docx"⟩]) someFiles).2 = 1 ∧
    ((cliMain someTools c!"/o" (withInputs [⟨c!"/d", c!"a.html"⟩, ⟨c!"/d", c!"bad.html"⟩, ⟨c!"/d", c!"b.docx"⟩]) someFiles).1
      ⟨c!"/o", c!"b.json"⟩) = none := by
  decide +kernel

/-- no input: 2, or 1 if the codes are wrong; an input which is not there: 1 -/
example : letI := Uni.ascii
    (cliMain someTools c!"/o" ⟨[], none, false, false, some c!"T1001"⟩ someFiles).2 = 2 ∧
    (cliMain someTools c!"/o" ⟨[], none, false, false, some c!"T9999"⟩ someFiles).2 = 1 ∧
    (cliMain someTools c!"/o" (withInputs [⟨c!"/d", c!"none.html"⟩]) someFiles).2 = 1 := by
  decide +kernel

/-- the hypothesis of `C54_own_output` -/
example : [(⟨c!"/d", c!"a.html"⟩ : FPath), ⟨c!"/d", c!"b.docx"⟩].Pairwise fun s s' => ∀ stem, Stem s stem → ¬ Stem s' stem := by
  simp only [List.pairwise_cons, List.mem_singleton, forall_eq, List.not_mem_nil, false_implies, implies_true, List.Pairwise.nil, and_true]
  rintro stem ⟨-, h | h⟩ ⟨-, h' | h'⟩
  · exact names_disjoint (stem' := ['b']) h'.symm
  · have : stem = ['a'] := (List.append_cancel_right (bs := c!".html") (as := ['a']) h).symm
    subst this
    simp at h'
  · exact names_disjoint (stem := ['a']) h
  · exact names_disjoint (stem := ['a']) h

omit [Uni] in
/-- The distinct names are needed: of two inputs with the same name in different directories only the model of the second
remains, though the run is successful. The text of the first model is in no file. -/
theorem C54_same_name_false : letI := Uni.ascii
    let first : FPath := ⟨c!"/d", c!"a.html"⟩
    let second : FPath := ⟨c!"/e", c!"a.html"⟩
    let run (l : List FPath) := cliMain someTools c!"/o" (withInputs l) someFiles
    (run [first]).2 = 0 ∧ (run [first, second]).2 = 0 ∧
      ∀ p, (run [first, second]).1 p ≠ (run [first]).1 ⟨c!"/o", c!"a.json"⟩ := by
  let _ := Uni.ascii
  intro first second run
  have h2 : (run [first, second]).2 = 0 := by decide +kernel
  refine ⟨by decide +kernel, h2, ?_⟩
  intro p hp
  by_cases hw : (run [first, second]).1 p = someFiles p
  · rw [hw] at hp
    have hs : ∀ q, someFiles q = none ∨ someFiles q = some c!"A" ∨ someFiles q = some c!"B" ∨ someFiles q = some c!"WORD" ∨ someFiles q = some c!"<" := by
      intro q
      unfold someFiles
      split
      · simp
      · split
        · simp
        · split
          · simp
          · split <;> simp
    have hn : ∀ x, (x = none ∨ x = some c!"A" ∨ x = some c!"B" ∨ x = some c!"WORD" ∨ x = some c!"<") →
        x ≠ (run [first]).1 ⟨c!"/o", c!"a.json"⟩ := by
      rintro x (rfl | rfl | rfl | rfl | rfl) <;> decide +kernel
    exact hn _ (hs p) hp
  · obtain ⟨h3, s, h4, stem, h5, h6⟩ := C54_frame someTools c!"/o" (withInputs [first, second]) someFiles _ p
      (Prod.ext rfl h2) hw
    have : s.name = c!"a.html" := by
      simp only [withInputs, List.mem_cons, List.not_mem_nil, or_false] at h4
      rcases h4 with rfl | rfl <;> rfl
    have hpj : p = ⟨c!"/o", c!"a.json"⟩ := by
      obtain ⟨d, n⟩ := p
      rcases h5.2 with h | h
      · have e : stem = ['a'] := (List.append_cancel_right (bs := c!".html") (as := ['a']) (this.symm.trans h)).symm
        subst e
        rcases h6 with h6 | ⟨h6, -⟩
        · simp only at h3 h6; rw [h3, h6]; rfl
        · rw [this] at h6; simp at h6
      · exact absurd (this.symm.trans h) (names_disjoint (stem := ['a']))
    subst hpj
    revert hp
    decide +kernel

/-- A model next to a Word document of the same name is overwritten by the conversion, and its own model is lost. -/
example : letI := Uni.ascii
    let a : CliArgs := ⟨[⟨c!"/d", c!"b.docx"⟩, ⟨c!"/d", c!"b.html"⟩], some c!"/d", false, false, none⟩
    let w := someFiles.set ⟨c!"/d", c!"b.html"⟩ c!"A"
    (cliMain someTools c!"/o" a w).2 = 0 ∧ (cliMain someTools c!"/o" a w).1 ⟨c!"/d", c!"b.html"⟩ = some c!"B" := by
  decide +kernel

end Spex
