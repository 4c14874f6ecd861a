import Verif.Model.ReportCard
import Verif.Props.ReportView
import Verif.Lemmas.Emits
import Verif.Props.Sample
/-
C103: what a diagnostic tells besides its message, and what its card on the report page says.
-/
set_option autoImplicit false
namespace Spex
variable [Uni]

/-! ### Specification -/

/-- the codes of diagnostics about a row -/
def AboutRow (c : LintErr) : Prop :=
  c ∈ [.tblFieldOverlap, .tblFieldGap, .lblExtractErr, .lblImputed, .lblOverridden, .lblDuplicate, .lblInvalidChrs, .valDuplicate,
    .rangeInvalid, .rangeReversed]

/-- the codes of diagnostics about a whole table -/
def AboutTable (c : LintErr) : Prop :=
  c ∈ [.tblParseErr, .tblFigIdExtractErr, .tblHdrErr, .tblSkipped, .tblRowOrderReversed]

/-- what a diagnostic quotes from the document -/
inductive Quotes : LintErr → List (Str × Json) → Prop
  /-- the title of a table which cannot be read, or has no figure id -/
  | title {c : LintErr} (t : Str) : c = .tblParseErr ∨ c = .tblFigIdExtractErr → Quotes c [(c!"title", .str t)]
  /-- the heading of a column which has another name -/
  | heading {got expected : Str} : (got, expected) ∈ [(c!"code", c!"value"), (c!"bit", c!"bits"), (c!"byte", c!"bytes")] →
      Quotes .tblHdrErr [(c!"got", .str got), (c!"expected", .str expected)]
  /-- the headings of a table of an unknown kind -/
  | headings (hs : List Str) : Quotes .tblSkipped [(c!"columns", .arr (hs.map Json.str))]
  /-- the label in question -/
  | label {c : LintErr} (l : Str) : c = .lblDuplicate ∨ c = .lblInvalidChrs → Quotes c [(c!"label", .str l)]
  /-- nothing -/
  | nothing {c : LintErr} : c ∉ [.tblFigIdExtractErr, .tblHdrErr, .tblSkipped, .lblDuplicate] → Quotes c []

/-- these words with commas between them -/
def commas (ws : List Str) : Str := c!",".intercalate ws

/-- the tags on the card of a diagnostic for what it quotes -/
inductive Tags : List (Str × Json) → List (Str × Str) → Prop
  /-- the title, or the label -/
  | text (name t : Str) : Tags [(name, .str t)] [(name, t)]
  | heading (got expected : Str) :
      Tags [(c!"got", .str got), (c!"expected", .str expected)] [(c!"expected", expected), (c!"got", got)]
  | headings (hs : List Str) : Tags [(c!"columns", .arr (hs.map Json.str))] [(c!"columns", commas hs)]
  | nothing : Tags [] []

/-! ### Theorems -/

theorem issueShape_document (env : Env) (root : Node) (d : LintEntry) (h : d ∈ allDiagnostics (parseDoc env root).evs) :
    IssueShape d.err d.row d.ctx := by
  have h1 : Ev.lint d ∈ (parseDoc env root).evs := by
    obtain ⟨e, he, hd⟩ := List.mem_filterMap.1 h
    cases e with
    | ent e => cases hd
    | lint l => cases hd; exact he
  exact emits_parseTables (env := env) (P := fun ev => ∀ d, ev = .lint d → IssueShape d.err d.row d.ctx) (by intro e d hd; cases hd)
    (by
      intro err fig row ctx hu d hd
      obtain rfl := (Ev.lint.inj hd).symm
      exact hu.2.2.2)
    (by
      intro fig val lab _ d hd
      obtain rfl := (Ev.lint.inj hd).symm
      exact ⟨⟨_, rfl⟩, rfl⟩) _ 0 false _ h1 d rfl

/-- **C103** Each diagnostic of a document is about a row, and then names it, or about a whole table, and then names none. It quotes what it is
about: the title of the table, the heading and the one expected for it, the headings, the label. -/
theorem C103_context (env : Env) (root : Node) (d : LintEntry) (h : d ∈ allDiagnostics (parseDoc env root).evs) :
    (AboutRow d.err ∧ d.row.isSome = true ∨ AboutTable d.err ∧ d.row = none) ∧ Quotes d.err d.ctx := by
  have ht := issueShape_document env root d h
  obtain ⟨err, fig, msg, row, ctx⟩ := d
  simp only at ht ⊢
  cases err <;> simp only [IssueShape] at ht
  case tblParseErr =>
    obtain ⟨rfl, rfl | ⟨t, rfl⟩⟩ := ht
    · exact ⟨.inr ⟨by simp [AboutTable], rfl⟩, .nothing (by decide)⟩
    · exact ⟨.inr ⟨by simp [AboutTable], rfl⟩, .title t (.inl rfl)⟩
  case tblFigIdExtractErr =>
    obtain ⟨rfl, t, rfl⟩ := ht
    exact ⟨.inr ⟨by simp [AboutTable], rfl⟩, .title t (.inr rfl)⟩
  case tblHdrErr =>
    obtain ⟨rfl, got, expected, rfl, hm⟩ := ht
    exact ⟨.inr ⟨by simp [AboutTable], rfl⟩, .heading hm⟩
  case tblSkipped =>
    obtain ⟨rfl, hs, rfl⟩ := ht
    exact ⟨.inr ⟨by simp [AboutTable], rfl⟩, .headings hs⟩
  case tblRowOrderReversed =>
    obtain ⟨rfl, rfl⟩ := ht
    exact ⟨.inr ⟨by simp [AboutTable], rfl⟩, .nothing (by decide)⟩
  case lblDuplicate =>
    obtain ⟨⟨r, rfl⟩, l, rfl⟩ := ht
    exact ⟨.inl ⟨by simp [AboutRow], rfl⟩, .label l (.inl rfl)⟩
  case lblInvalidChrs =>
    obtain ⟨⟨r, rfl⟩, rfl | ⟨l, rfl⟩⟩ := ht
    · exact ⟨.inl ⟨by simp [AboutRow], rfl⟩, .nothing (by decide)⟩
    · exact ⟨.inl ⟨by simp [AboutRow], rfl⟩, .label l (.inr rfl)⟩
  all_goals
    obtain ⟨⟨r, rfl⟩, rfl⟩ := ht
    exact ⟨.inl ⟨by simp [AboutRow], rfl⟩, .nothing (by decide)⟩

omit [Uni] in
theorem jsJoin_strs (hs : List Str) : jsJoin (sortKeysItems (hs.map Json.str)) = commas hs := by
  induction hs with
  | nil => rfl
  | cons a hs ih =>
    cases hs with
    | nil => simp [sortKeysItems, sortKeys, jsJoin, jsText, commas]
    | cons b hs =>
      simp only [List.map_cons, sortKeysItems, sortKeys, jsJoin, jsText] at ih ⊢
      rw [ih]
      simp [commas, List.intercalate]

omit [Uni] in
theorem tags_one {k : Str} (hk : arrayIndex k = none) (v : Json) (code msg fig : Str) (row : Option Str) :
    (cardText ⟨code, msg, fig, row, [(k, v)]⟩).tags = [(k, jsText (sortKeys v))] := by
  simp [cardText, sortKeysPairs, stableSort, insertBy, jsEntries, hk]

omit [Uni] in
theorem tags_two {k k' : Str} (hk : arrayIndex k = none) (hk' : arrayIndex k' = none) (hle : keyLe k k' = false) (v v' : Json)
    (code msg fig : Str) (row : Option Str) :
    (cardText ⟨code, msg, fig, row, [(k, v), (k', v')]⟩).tags = [(k', jsText (sortKeys v')), (k, jsText (sortKeys v))] := by
  simp [cardText, sortKeysPairs, stableSort, insertBy, jsEntries, hk, hk', hle]

omit [Uni] in
theorem tags_quotes {c : LintErr} {ctx : List (Str × Json)} (h : Quotes c ctx) (code msg fig : Str) (row : Option Str) :
    Tags ctx (cardText ⟨code, msg, fig, row, ctx⟩).tags := by
  cases h with
  | title t hc =>
    rw [tags_one (by decide +kernel)]
    simp only [sortKeys, jsText]
    exact .text ..
  | heading hm =>
    rw [tags_two (by decide +kernel) (by decide +kernel) (by decide +kernel)]
    simp only [sortKeys, jsText]
    exact .heading ..
  | headings hs =>
    rw [tags_one (by decide +kernel)]
    simp only [sortKeys, jsText, jsJoin_strs]
    exact .headings hs
  | label l hc =>
    rw [tags_one (by decide +kernel)]
    simp only [sortKeys, jsText]
    exact .text ..
  | nothing hc => exact .nothing

/-- **C103** The card of a diagnostic of a document says its row (nothing, if it is about a whole table), its message, its code, and what it
quotes. -/
theorem C103_card (env : Env) (root : Node) (d : LintEntry) (h : d ∈ allDiagnostics (parseDoc env root).evs) :
    (cardText (cardOf d)).code = d.err.code ∧ (cardText (cardOf d)).msg = d.msg ∧
    (∀ r, d.row = some r → (cardText (cardOf d)).row = r) ∧ (AboutTable d.err → (cardText (cardOf d)).row = []) ∧
    Tags d.ctx (cardText (cardOf d)).tags := by
  obtain ⟨h1, h2⟩ := C103_context env root d h
  refine ⟨rfl, rfl, fun r hr => ?_, fun ht => ?_, tags_quotes h2 ..⟩
  · simp [cardText, cardOf, hr]
  · rcases h1 with ⟨h1, -⟩ | ⟨-, h1⟩
    · exact absurd h1 (by revert ht; cases d.err <;> simp [AboutTable, AboutRow])
    · simp [cardText, cardOf, h1]

/-- **C103** The heading of the page of a document says the title and the revision which the document states. -/
theorem C103_heading (o : Opts) (root : Node) (j : Json) (h : IsModel o root j) (key rev : Str) (hs : Stated root key rev) :
    pageHeading j = some (key, rev) := by
  obtain ⟨key', rev', h1, -, rfl⟩ := h
  obtain ⟨rfl, rfl⟩ := hs.unique h1
  rfl

/-! ### Examples -/
open Sample

/-- the headings which a diagnostic quotes -/
def quotedHeadings (d : LintEntry) : List (List Str) :=
  d.ctx.map fun e => match e.2 with
    | .arr xs => xs.map fun x => match x with | .str s => s | _ => []
    | _ => []

/-- a page with a table with these headings -/
def headingsPage (hs : List Str) : Node := doc [figure c!"Figure 5: Kinds" hs [[td c!"1", td c!"2"]]]

omit [Uni] in
/-- **C103** is false if it is taken to say that what is quoted can be told from the card: the headings of a table are shown with commas between
them, also if there are commas in the headings. -/
theorem C103_columns_false : letI := Uni.ascii
    (allDiagnostics (parseDoc (envPlain false) (headingsPage [c!"Alpha", c!"Beta"])).evs).map quotedHeadings = [[[c!"alpha", c!"beta"]]] ∧
    (allDiagnostics (parseDoc (envPlain false) (headingsPage [c!"Alpha,Beta"])).evs).map quotedHeadings = [[[c!"alpha,beta"]]] ∧
    (allDiagnostics (parseDoc (envPlain false) (headingsPage [c!"Alpha", c!"Beta"])).evs).map (fun d => cardText (cardOf d)) =
      [⟨[], c!"table skipped", c!"T1007", [(c!"columns", c!"alpha,beta")]⟩] ∧
    (allDiagnostics (parseDoc (envPlain false) (headingsPage [c!"Alpha,Beta"])).evs).map (fun d => cardText (cardOf d)) =
      [⟨[], c!"table skipped", c!"T1007", [(c!"columns", c!"alpha,beta")]⟩] := by
  let _ := Uni.ascii
  refine ⟨?_, ?_, ?_, ?_⟩ <;> decide +kernel

/-- C103_context, C103_card: the cards of a page with a heading of another name, a label twice, and a gap -/
example : letI := Uni.ascii
    (allDiagnostics (parseDoc (envPlain false) (doc [figure c!"Figure 6: Fields" [c!"Bit", c!"Description"]
      [[td c!"7:4", td c!"Kind (KI): a"], [td c!"2:1", td c!"Kind (KI): b"], [td c!"0", td c!"Odd (O+D): c"]]])).evs).map
      (fun d => cardText (cardOf d)) =
      [⟨[], c!"non-standard table header", c!"T1006", [(c!"expected", c!"bits"), (c!"got", c!"bit")]⟩,
       ⟨c!"4", c!"duplicate label", c!"L1002", [(c!"label", c!"ki")]⟩,
       ⟨c!"4", c!"gap between this and the prior field", c!"T1002", []⟩] := by
  let _ := Uni.ascii
  decide +kernel

/-- C103_heading: the page of a document -/
example : letI := Uni.ascii
    Stated (headedDoc c!"Big" c!"1.0A" [goodFig]) c!"big" c!"1.0a" ∧
    ∃ j, IsModel ⟨c!"out", true, [], true⟩ (headedDoc c!"Big" c!"1.0A" [goodFig]) j ∧ pageHeading j = some (c!"big", c!"1.0a") := by
  let _ := Uni.ascii
  have hs : Stated (headedDoc c!"Big" c!"1.0A" [goodFig]) c!"big" c!"1.0a" :=
    ⟨c!"Big", c!"1.0A", by decide +kernel, by decide +kernel, by decide +kernel, by decide +kernel⟩
  have hx : ∀ x : Except Exn Unit, (match x with | .ok _ => true | _ => false) = true → x = .ok () := by
    intro x hx
    split at hx
    · rfl
    · cases hx
  have hm : IsModel ⟨c!"out", true, [], true⟩ (headedDoc c!"Big" c!"1.0A" [goodFig]) _ :=
    ⟨_, _, hs, hx _ (by decide +kernel), rfl⟩
  exact ⟨hs, _, hm, C103_heading _ _ _ hm _ _ hs⟩

end Spex
