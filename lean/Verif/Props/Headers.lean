import Mathlib.Data.List.Nodup
import Verif.Model.Document
import Verif.Lemmas.Monad
import Verif.Lemmas.Heading
import Verif.Model.Ascii
import Mathlib.Tactic.ByContra
/-
C13, C14, C15: column headers, choice of the extractor, binding of the columns.
-/
set_option autoImplicit false
namespace Spex
variable [Uni]

/-! ### C15 -/

/-- the standard name of a column -/
def standardName (h : Str) : Str :=
  if h = c!"code" then c!"value" else if h = c!"bit" then c!"bits" else if h = c!"byte" then c!"bytes" else h

/-- is it one of the non standard names -/
def NonStandard (h : Str) : Prop := h = c!"code" ∨ h = c!"bit" ∨ h = c!"byte"

instance (h : Str) : Decidable (NonStandard h) := inferInstanceAs (Decidable (_ ∨ _))

/-- the column names of a table: texts of the cells of its first row, in lower case, trimmed, with single blanks between words, standard
names -/
def columnNames (tbl : Node) : List Str := (headerCells tbl).map (fun c => standardName (headingText c.toText))

/-- the diagnostics for the header of a table -/
def headerIssues (fig : Str) (tbl : Node) : List Ev :=
  ((headerCells tbl).filter (fun c => NonStandard (headingText c.toText))).map (fun c =>
    .lint (issue .tblHdrErr fig none [(c!"got", .str (headingText c.toText)), (c!"expected", .str (standardName (headingText c.toText)))]))

omit [Uni] in
theorem normalizeHdr_eq (fig h : Str) (hf : fig ≠ []) : normalizeHdr fig h =
    if NonStandard h then do
      M.emit (.lint (issue .tblHdrErr fig none [(c!"got", .str h), (c!"expected", .str (standardName h))]))
      return standardName h
    else Pure.pure (standardName h) := by
  by_cases h1 : h = c!"code"
  · subst h1
    rw [if_pos (.inl rfl)]
    have e : normalizeHdr fig c!"code" =
      (addIssue .tblHdrErr fig none [(c!"got", .str c!"code"), (c!"expected", .str c!"value")] >>= fun _ => Pure.pure c!"value") := rfl
    rw [e, addIssue_none hf rfl]; rfl
  · by_cases h2 : h = c!"bit"
    · subst h2
      rw [if_pos (.inr (.inl rfl))]
      have e : normalizeHdr fig c!"bit" =
        (addIssue .tblHdrErr fig none [(c!"got", .str c!"bit"), (c!"expected", .str c!"bits")] >>= fun _ => Pure.pure c!"bits") := rfl
      rw [e, addIssue_none hf rfl]; rfl
    · by_cases h3 : h = c!"byte"
      · subst h3
        rw [if_pos (.inr (.inr rfl))]
        have e : normalizeHdr fig c!"byte" =
          (addIssue .tblHdrErr fig none [(c!"got", .str c!"byte"), (c!"expected", .str c!"bytes")] >>= fun _ => Pure.pure c!"bytes") := rfl
        rw [e, addIssue_none hf rfl]; rfl
      · have e : List.lookup h tblNormalizeMappings = none := by
          unfold tblNormalizeMappings
          simp only [List.lookup_cons, List.lookup_nil, beq_eq_false_iff_ne.mpr h1, beq_eq_false_iff_ne.mpr h2,
            beq_eq_false_iff_ne.mpr h3]
        have hn : ¬ NonStandard h := by
          rintro (h | h | h)
          · exact h1 h
          · exact h2 h
          · exact h3 h
        unfold normalizeHdr standardName
        rw [e, if_neg hn, if_neg h1, if_neg h2, if_neg h3]

/-- C15: reading the header never fails; the columns keep their number and order, `code`, `bit` and `byte` are replaced by
`value`, `bits` and `bytes` with one T1006 each, in order; nothing else is changed or reported. -/
theorem C15_headers (fig : Str) (tbl : Node) (hf : fig ≠ []) (f : Bool) :
    extractTblHeaders fig tbl f = ⟨headerIssues fig tbl, f, .ok (columnNames tbl)⟩ := by
  unfold extractTblHeaders headerIssues columnNames
  generalize headerCells tbl = cs
  induction cs with
  | nil => rfl
  | cons c cs ih =>
    simp only [extractHdrs]
    rw [normalizeHdr_eq fig _ hf, hdrText_eq]
    by_cases hn : NonStandard (headingText c.toText)
    · rw [if_pos hn, List.filter_cons_of_pos (by simpa using hn)]
      simp only [bind_assoc, pure_bind]
      rw [M.bind_run, M.emit_run]
      simp only
      rw [M.bind_run, ih]
      simp [M.pure_run]
    · rw [if_neg hn, List.filter_cons_of_neg (by simpa using hn)]
      simp only [pure_bind]
      rw [M.bind_run, ih]
      simp [M.pure_run]

/-- C15, the text of a header: lower case is taken first, so `Code`, ` CODE ` and `code` are the same header. -/
example : letI := Uni.ascii
    let t := Node.elem tTable [] [.elem tTr [] [.elem tTh [] [.text c!" Code "], .elem tTh [] [.text c!"Power\n  Scope"],
      .elem tTh [] [.text c!"BIT"], .elem tTh [] [.text c!"bits"]]]
    columnNames t = [c!"value", c!"power scope", c!"bits", c!"bits"] ∧ (headerIssues c!"7" t).length = 2 := by
  decide +kernel

/-! ### C13 -/

/-- a header for the values, and one for the contents -/
def ValueColumns (hdrs : List Str) : Prop :=
  (∃ h ∈ hdrs, h = c!"value" ∨ h = c!"values") ∧ (∃ h ∈ hdrs, h = c!"definition" ∨ h = c!"description" ∨ h = c!"power scope")

/-- two columns: `value` and any other one (which has a name, and is not `values` in front) -/
def TwoColumns (hdrs : List Str) : Prop :=
  ∃ x : Str, x ≠ [] ∧ x ≠ c!"value" ∧ (hdrs = [c!"value", x] ∨ hdrs = [x, c!"value"] ∧ x ≠ c!"values")

/-- the figure is a table with these columns -/
def StructColumns (key : Str) (hdrs : List Str) : Prop := key ∈ hdrs ∧ c!"description" ∈ hdrs

omit [Uni] in
theorem firstHdr_isSome (cands hdrs : List Str) : (firstHdr cands hdrs).isSome = true ↔ ∃ h ∈ hdrs, h ∈ cands := by
  unfold firstHdr
  rw [List.find?_isSome]
  simp

omit [Uni] in
theorem struct_applies (c : StructCls) (hl : c.labelHdrs = [c!"attribute", c!"description"]) (hc : c.contentHdrs = [c!"description"])
    (key : Str) (hk : c.rangeHdrs = [key]) (hdrs : List Str) :
    ((Cls.struct c).canApply hdrs).isSome = true ↔ StructColumns key hdrs := by
  unfold Cls.canApply StructCls.canApply0 mappingIncomplete StructColumns
  have h1 := firstHdr_isSome c.rangeHdrs hdrs
  have h2 := firstHdr_isSome c.labelHdrs hdrs
  have h3 := firstHdr_isSome c.contentHdrs hdrs
  rw [hk] at h1
  rw [hl] at h2
  rw [hc] at h3
  simp only [hk, hl, hc]
  simp only [List.mem_cons, List.not_mem_nil, or_false, exists_eq_right] at h1 h2 h3
  constructor
  · intro h
    split at h
    · simp at h
    · rename_i hn
      simp only [Bool.or_eq_true, Option.isNone_iff_eq_none, not_or] at hn
      exact ⟨h1.mp (Option.isSome_iff_ne_none.mpr hn.1.1), h3.mp (Option.isSome_iff_ne_none.mpr hn.2)⟩
  · rintro ⟨hk', hd⟩
    rw [if_neg]
    · rfl
    · simp only [Bool.or_eq_true, Option.isNone_iff_eq_none, not_or]
      exact ⟨⟨Option.isSome_iff_ne_none.mp (h1.mpr hk'), Option.isSome_iff_ne_none.mp (h2.mpr ⟨_, hd, .inr rfl⟩)⟩,
        Option.isSome_iff_ne_none.mp (h3.mpr hd)⟩

omit [Uni] in
theorem value_complete (hdrs : List Str) : mappingIncomplete ⟨firstHdr valueHdrs hdrs, firstHdr valueLabelHdrs hdrs,
    firstHdr valueContentHdrs hdrs⟩ = false ↔ ValueColumns hdrs := by
  have h1 := firstHdr_isSome valueHdrs hdrs
  have h2 := firstHdr_isSome valueLabelHdrs hdrs
  have h3 := firstHdr_isSome valueContentHdrs hdrs
  unfold mappingIncomplete ValueColumns
  simp only [valueHdrs, valueLabelHdrs, valueContentHdrs, List.mem_cons, List.not_mem_nil, or_false] at h1 h2 h3 ⊢
  rw [← h1, ← h3]
  have h4 : (firstHdr [c!"definition", c!"description", c!"power scope"] hdrs).isSome = true →
      (firstHdr [c!"attribute", c!"definition", c!"description", c!"power scope"] hdrs).isSome = true := by
    rw [h2, h3]
    rintro ⟨h, hm, hh⟩
    exact ⟨h, hm, .inr hh⟩
  rw [← Bool.not_eq_true, Bool.or_eq_true, Bool.or_eq_true, not_or, not_or]
  simp only [Option.isNone_iff_eq_none, Option.isSome_iff_ne_none] at h4 ⊢
  constructor
  · rintro ⟨⟨a, b⟩, c⟩; exact ⟨a, c⟩
  · rintro ⟨a, c⟩; exact ⟨⟨a, h4 c⟩, c⟩

omit [Uni] in
theorem value_applies (hdrs : List Str) : (Cls.value.canApply hdrs).isSome = true ↔ ValueColumns hdrs ∨ TwoColumns hdrs := by
  unfold Cls.canApply valueCanApply0
  simp only
  by_cases hv : ValueColumns hdrs
  · have := (value_complete hdrs).mpr hv
    simp [this, hv]
  · have hinc : mappingIncomplete ⟨firstHdr valueHdrs hdrs, firstHdr valueLabelHdrs hdrs,
        firstHdr valueContentHdrs hdrs⟩ = true := by
      cases h : mappingIncomplete ⟨firstHdr valueHdrs hdrs, firstHdr valueLabelHdrs hdrs,
        firstHdr valueContentHdrs hdrs⟩ with
      | true => rfl
      | false => exact absurd ((value_complete hdrs).mp h) hv
    simp only [hinc, Bool.not_true, Bool.false_eq_true, if_false, hv, false_or]
    constructor
    · intro h
      by_cases hc : hdrs.length = 2 ∧ firstHdr valueHdrs hdrs = some c!"value"
      · rw [if_pos hc] at h
        obtain ⟨hlen, hkey⟩ := hc
        match hdrs, hlen with
        | [a, b], _ =>
          unfold firstHdr valueHdrs at hkey
          by_cases ha : a = c!"value"
          · subst ha
            have hf : List.find? (fun h => h != c!"value") [c!"value", b] = if b = c!"value" then none else some b := by
              by_cases hb : b = c!"value"
              · subst hb; rfl
              · simp [hb]
            rw [hf] at h
            split at h
            · rename_i x xs hx
              split at hx
              · simp at hx
              · rename_i hb
                simp only [Option.some.injEq] at hx
                exact ⟨b, by rw [hx]; simp, hb, .inl rfl⟩
            · rw [hinc] at h; simp at h
          · have hav : a ≠ c!"values" := by
              intro hav; subst hav; simp at hkey
            have hb : b = c!"value" := by
              simp only [List.find?_cons, List.contains_eq_mem, List.mem_cons, ha, hav, List.not_mem_nil, or_self,
                decide_false] at hkey
              split at hkey
              · simpa using hkey
              · simp at hkey
            subst hb
            have hf : List.find? (fun h => h != c!"value") [a, c!"value"] = some a := by
              simp [ha]
            rw [hf] at h
            split at h
            · rename_i x xs hx
              simp only [Option.some.injEq] at hx
              exact ⟨a, by rw [hx]; simp, ha, .inr ⟨rfl, hav⟩⟩
            · rw [hinc] at h; simp at h
      · rw [if_neg hc, hinc] at h
        simp at h
    · rintro ⟨x, hx0, hxv, hx⟩
      have hc : hdrs.length = 2 ∧ firstHdr valueHdrs hdrs = some c!"value" ∧ hdrs.find? (fun h => h != c!"value") = some x := by
        rcases hx with rfl | ⟨rfl, hxs⟩
        · refine ⟨rfl, rfl, ?_⟩
          simp [hxv]
        · refine ⟨rfl, ?_, ?_⟩
          · unfold firstHdr valueHdrs
            simp [hxv, hxs]
          · simp [hxv]
      rw [if_pos (show hdrs.length = 2 ∧ firstHdr valueHdrs hdrs = some c!"value" from ⟨hc.1, hc.2.1⟩), hc.2.2, hc.2.1]
      cases x with
      | nil => exact absurd rfl hx0
      | cons c s => rfl

/-- the extractor chosen for a figure -/
def chosen (hdrs : List Str) : Option Cls := (firstApplicable extractors hdrs).map (·.1)

omit [Uni] in
/-- C13: bytes, else value table, else bits, else none, by the columns alone. -/
theorem C13_choice (hdrs : List Str) :
    (StructColumns c!"bytes" hdrs → chosen hdrs = some (.struct bytesCls)) ∧
    (¬ StructColumns c!"bytes" hdrs → ValueColumns hdrs ∨ TwoColumns hdrs → chosen hdrs = some .value) ∧
    (¬ StructColumns c!"bytes" hdrs → ¬ (ValueColumns hdrs ∨ TwoColumns hdrs) → StructColumns c!"bits" hdrs →
      chosen hdrs = some (.struct bitsCls)) ∧
    (¬ StructColumns c!"bytes" hdrs → ¬ (ValueColumns hdrs ∨ TwoColumns hdrs) → ¬ StructColumns c!"bits" hdrs →
      chosen hdrs = none) := by
  rw [← struct_applies bytesCls rfl rfl c!"bytes" rfl hdrs, ← value_applies hdrs,
    ← struct_applies bitsCls rfl rfl c!"bits" rfl hdrs]
  unfold chosen extractors
  simp only [firstApplicable]
  cases (Cls.struct bytesCls).canApply hdrs <;> cases Cls.value.canApply hdrs <;>
    cases (Cls.struct bitsCls).canApply hdrs <;> simp

/-- C13 (what happens): a figure without override is handed to the extractor chosen by its columns; without any, it is
skipped with exactly one T1007 which lists the columns. -/
theorem C13_dispatch (env : Env) (parse : ParseFn) (m : EntityMeta) (tbl : Node) (hf : m.figId ≠ [])
    (hov : env.overrides.lookup m.figId = none) (f : Bool) :
    (chosen (columnNames tbl) = none →
      onParseFig env parse m tbl f = ⟨headerIssues m.figId tbl ++
        [.lint (issue .tblSkipped m.figId none [(c!"columns", .arr ((columnNames tbl).map .str))])], false, .ok ()⟩) ∧
    (∀ c, chosen (columnNames tbl) = some c → ∃ mapping, c.canApply (columnNames tbl) = some mapping ∧
      let r := runExtractor env parse m tbl (columnNames tbl) c mapping false
      onParseFig env parse m tbl f = ⟨headerIssues m.figId tbl ++ r.evs, r.flag, r.out⟩) := by
  have hh := C15_headers m.figId tbl hf false
  constructor
  · intro hc
    have hc' : firstApplicable extractors (columnNames tbl) = none := by
      unfold chosen at hc; simpa using hc
    unfold onParseFig
    rw [M.bind_run, M.setFlag_run]
    simp only
    rw [M.bind_run, hh]
    simp only [hov, hc', addIssue_none hf (show LintErr.tblSkipped.needsRow = false from rfl)]
    rfl
  · intro c hc
    unfold chosen at hc
    rw [Option.map_eq_some_iff] at hc
    obtain ⟨⟨c', mapping⟩, hc1, rfl⟩ := hc
    refine ⟨mapping, ?_, ?_⟩
    · have : ∀ cs, firstApplicable cs (columnNames tbl) = some (c', mapping) → c'.canApply (columnNames tbl) = some mapping := by
        intro cs
        induction cs with
        | nil => simp [firstApplicable]
        | cons x xs ih =>
          simp only [firstApplicable]
          split
          · rename_i hm
            intro h
            simp only [Option.some.injEq, Prod.mk.injEq] at h
            rw [← h.1, ← h.2]; exact hm
          · exact ih
      exact this _ hc1
    · unfold onParseFig
      rw [M.bind_run, M.setFlag_run]
      simp only
      rw [M.bind_run, hh]
      simp only [hov, hc1, List.nil_append]

example : chosen [c!"bytes", c!"description", c!"value"] = some (.struct bytesCls) ∧
    chosen [c!"value", c!"meaning"] = some .value ∧ chosen [c!"bits", c!"description"] = some (.struct bitsCls) ∧
    chosen [c!"bits", c!"meaning"] = none ∧ chosen [c!"values", c!"value"] = none := by decide +kernel

/-! ### C14 -/

/-- `k` is the position of the first header among `cands` -/
def FirstPos (cands hdrs : List Str) (k : Nat) : Prop :=
  ∃ h, hdrs[k]? = some h ∧ h ∈ cands ∧ ∀ j h', j < k → hdrs[j]? = some h' → h' ∉ cands

/-- `k` is the last position of the header which is the first one among `cands` -/
def ReadPos (cands hdrs : List Str) (k : Nat) : Prop :=
  ∃ (h : Str) (j : Nat), hdrs[j]? = some h ∧ h ∈ cands ∧ (∀ i h', i < j → hdrs[i]? = some h' → h' ∉ cands) ∧
    hdrs[k]? = some h ∧ ∀ i, k < i → hdrs[i]? ≠ some h

omit [Uni] in
theorem ReadPos.unique {cands hdrs : List Str} {j k : Nat} (hj : ReadPos cands hdrs j) (hk : ReadPos cands hdrs k) : j = k := by
  obtain ⟨h, a, a1, a2, a3, a4, a5⟩ := hj
  obtain ⟨h', b, b1, b2, b3, b4, b5⟩ := hk
  have he : h = h' := by
    rcases Nat.lt_trichotomy a b with hlt | rfl | hlt
    · exact absurd a2 (b3 a h hlt a1)
    · rw [a1] at b1; exact Option.some.inj b1
    · exact absurd b2 (a3 b h' hlt b1)
  subst he
  rcases Nat.lt_trichotomy j k with hlt | rfl | hlt
  · exact absurd b4 (a5 k hlt)
  · rfl
  · exact absurd a4 (b5 j hlt)

omit [Uni] in
theorem ReadPos.here {cands hdrs : List Str} {k : Nat} (h : ReadPos cands hdrs k) : ∃ x, hdrs[k]? = some x ∧ x ∈ cands := by
  obtain ⟨x, _, -, a2, -, a4, -⟩ := h
  exact ⟨x, a4, a2⟩

omit [Uni] in
/-- with distinct headers there is only one position -/
theorem ReadPos.first {cands hdrs : List Str} {k : Nat} (h : ReadPos cands hdrs k) (hnd : hdrs.Nodup) : FirstPos cands hdrs k := by
  obtain ⟨x, j, a1, a2, a3, a4, a5⟩ := h
  obtain ⟨l1, e1⟩ := List.getElem?_eq_some_iff.1 a1
  obtain ⟨l2, e2⟩ := List.getElem?_eq_some_iff.1 a4
  have : j = k := (List.Nodup.getElem_inj_iff hnd).1 (e1.trans e2.symm)
  subst this
  exact ⟨x, a1, a2, a3⟩

omit [Uni] in
theorem FirstPos.read {cands hdrs : List Str} {k : Nat} (h : FirstPos cands hdrs k) (hnd : hdrs.Nodup) : ReadPos cands hdrs k := by
  obtain ⟨x, a1, a2, a3⟩ := h
  refine ⟨x, k, a1, a2, a3, a1, fun i hi hx => ?_⟩
  obtain ⟨l1, e1⟩ := List.getElem?_eq_some_iff.1 a1
  obtain ⟨l2, e2⟩ := List.getElem?_eq_some_iff.1 hx
  have : k = i := (List.Nodup.getElem_inj_iff hnd).1 (e1.trans e2.symm)
  omega

omit [Uni] in
theorem colNdxGo_last (i : Nat) (hdrs : List Str) (h : Str) :
    (colNdxGo i hdrs h = none ∧ h ∉ hdrs) ∨
      ∃ k, colNdxGo i hdrs h = some (i + k) ∧ hdrs[k]? = some h ∧ ∀ j, k < j → hdrs[j]? ≠ some h := by
  induction hdrs generalizing i with
  | nil => exact .inl ⟨rfl, by simp⟩
  | cons x xs ih =>
    rcases ih (i + 1) with ⟨h1, h2⟩ | ⟨k, h1, h2, h3⟩
    · by_cases hx : x = h
      · subst hx
        refine .inr ⟨0, by simp [colNdxGo, h1], rfl, fun j hj he => ?_⟩
        cases j with
        | zero => omega
        | succ j => exact h2 (List.mem_of_getElem? (by simpa using he))
      · refine .inl ⟨by simp [colNdxGo, h1, hx], ?_⟩
        simp only [List.mem_cons, not_or]
        exact ⟨fun e => hx e.symm, h2⟩
    · refine .inr ⟨k + 1, by simp only [colNdxGo, h1]; congr 1; omega, by simpa using h2, fun j hj he => ?_⟩
      cases j with
      | zero => omega
      | succ j => exact h3 j (by omega) (by simpa using he)

omit [Uni] in
theorem colNdx_last {hdrs : List Str} {h : Str} (hm : h ∈ hdrs) :
    ∃ k, colNdx hdrs (some h) = .ok k ∧ hdrs[k]? = some h ∧ ∀ j, k < j → hdrs[j]? ≠ some h := by
  rcases colNdxGo_last 0 hdrs h with ⟨-, h2⟩ | ⟨k, h1, h2, h3⟩
  · exact absurd hm h2
  · exact ⟨k, by simp only [colNdx, h1, Nat.zero_add], h2, h3⟩

omit [Uni] in
theorem colNdx_read {cands hdrs : List Str} {h : Str} (hh : firstHdr cands hdrs = some h) :
    ∃ k, colNdx hdrs (some h) = .ok k ∧ ReadPos cands hdrs k := by
  unfold firstHdr at hh
  rw [List.find?_eq_some_iff_getElem] at hh
  obtain ⟨hp, j, hj, hj2, hj3⟩ := hh
  obtain ⟨k, h1, h2, h3⟩ := colNdx_last (hdrs := hdrs) (h := h) (by rw [← hj2]; exact List.getElem_mem hj)
  refine ⟨k, h1, h, j, by rw [List.getElem?_eq_getElem hj, hj2], by simpa using hp, fun i h' hi hi2 hm => ?_, h2, h3⟩
  have hil : i < hdrs.length := by omega
  rw [List.getElem?_eq_getElem hil] at hi2
  simp only [Option.some.injEq] at hi2
  have := hj3 i hi
  rw [hi2] at this
  simp [hm] at this

omit [Uni] in
/-- for the examples -/
theorem readPos_of {cands hdrs : List Str} {k : Nat} (h : (firstHdr cands hdrs).bind (colNdxGo 0 hdrs) = some k) : ReadPos cands hdrs k := by
  obtain ⟨x, h1, h2⟩ := Option.bind_eq_some_iff.1 h
  obtain ⟨j, h3, h4⟩ := colNdx_read h1
  simp only [colNdx, h2, Except.ok.injEq] at h3
  exact h3 ▸ h4

omit [Uni] in
/-- C14 (struct tables): creating the extractor succeeds and binds range, label and content each to the first header which names the
component; if this header stands there more than once, to the last of these columns. -/
theorem C14_struct_exact (c : StructCls) (hdrs : List Str) (mapping : Mapping) (happ : (Cls.struct c).canApply hdrs = some mapping) :
    ∃ cols, mkCols hdrs mapping = .ok cols ∧ ReadPos c.rangeHdrs hdrs cols.key ∧ ReadPos c.labelHdrs hdrs cols.label ∧
      ReadPos c.contentHdrs hdrs cols.content := by
  unfold Cls.canApply StructCls.canApply0 at happ
  simp only at happ
  split at happ
  · simp at happ
  · rename_i hinc
    simp only [Option.some.injEq] at happ
    subst happ
    unfold mappingIncomplete at hinc
    simp only [Bool.or_eq_true, Option.isNone_iff_eq_none, not_or] at hinc
    obtain ⟨⟨h1, h2⟩, h3⟩ := hinc
    obtain ⟨a, ha⟩ := Option.ne_none_iff_exists'.mp h1
    obtain ⟨b, hb⟩ := Option.ne_none_iff_exists'.mp h2
    obtain ⟨d, hd⟩ := Option.ne_none_iff_exists'.mp h3
    obtain ⟨i, hi, hi'⟩ := colNdx_read ha
    obtain ⟨j, hj, hj'⟩ := colNdx_read hb
    obtain ⟨k, hk, hk'⟩ := colNdx_read hd
    refine ⟨⟨i, j, k⟩, ?_, hi', hj', hk'⟩
    unfold mkCols
    simp only [ha, hb, hd, hi, hj, hk]
    rfl

omit [Uni] in
/-- C14 (struct tables): with distinct headers, creating the extractor succeeds and binds range, label and content to the
position of the first header which names the component. -/
theorem C14_struct_columns (c : StructCls) (hdrs : List Str) (mapping : Mapping)
    (happ : (Cls.struct c).canApply hdrs = some mapping) (hnd : hdrs.Nodup) :
    ∃ cols, mkCols hdrs mapping = .ok cols ∧ FirstPos c.rangeHdrs hdrs cols.key ∧ FirstPos c.labelHdrs hdrs cols.label ∧
      FirstPos c.contentHdrs hdrs cols.content := by
  obtain ⟨cols, h1, h2, h3, h4⟩ := C14_struct_exact c hdrs mapping happ
  exact ⟨cols, h1, h2.first hnd, h3.first hnd, h4.first hnd⟩

omit [Uni] in
/-- C14 (value tables): value, label and content are each bound to the first header which names the component, if this header stands
there more than once, to the last of these columns; in the two column fallback label and content are bound to the column which is not
`value`. -/
theorem C14_value_exact (hdrs : List Str) (mapping : Mapping) (happ : Cls.value.canApply hdrs = some mapping) :
    ∃ cols, mkCols hdrs mapping = .ok cols ∧ ReadPos valueHdrs hdrs cols.key ∧
      (ReadPos valueLabelHdrs hdrs cols.label ∧ ReadPos valueContentHdrs hdrs cols.content ∨
        hdrs.length = 2 ∧ hdrs[cols.key]? = some c!"value" ∧ cols.label = cols.content ∧ cols.label ≠ cols.key ∧ cols.label < 2) := by
  unfold Cls.canApply valueCanApply0 at happ
  simp only at happ
  cases hinc : mappingIncomplete ⟨firstHdr valueHdrs hdrs, firstHdr valueLabelHdrs hdrs, firstHdr valueContentHdrs hdrs⟩ with
  | false =>
    simp only [hinc, Bool.not_false, if_true, Bool.false_eq_true, if_false, Option.some.injEq] at happ
    subst happ
    unfold mappingIncomplete at hinc
    rw [← Bool.not_eq_true] at hinc
    simp only [Bool.or_eq_true, Option.isNone_iff_eq_none, not_or] at hinc
    obtain ⟨⟨h1, h2⟩, h3⟩ := hinc
    obtain ⟨a, ha⟩ := Option.ne_none_iff_exists'.mp h1
    obtain ⟨b, hb⟩ := Option.ne_none_iff_exists'.mp h2
    obtain ⟨d, hd⟩ := Option.ne_none_iff_exists'.mp h3
    obtain ⟨i, hi, hi'⟩ := colNdx_read ha
    obtain ⟨j, hj, hj'⟩ := colNdx_read hb
    obtain ⟨k, hk, hk'⟩ := colNdx_read hd
    refine ⟨⟨i, j, k⟩, ?_, hi', .inl ⟨hj', hk'⟩⟩
    unfold mkCols
    simp only [ha, hb, hd, hi, hj, hk]
    rfl
  | true =>
    simp only [hinc, Bool.not_true, Bool.false_eq_true, if_false] at happ
    split at happ
    rotate_left
    · simp at happ
    rename_i hc
    obtain ⟨hlen, hkey⟩ := hc
    split at happ
    rotate_left
    · simp [hinc] at happ
    rename_i x xs hfind
    rw [hkey] at happ
    rw [if_neg (by simp [mappingIncomplete])] at happ
    simp only [Option.some.injEq] at happ
    subst happ
    obtain ⟨i, hi, hi'⟩ := colNdx_read hkey
    have hmem := List.mem_of_find?_eq_some hfind
    have hne := List.find?_some hfind
    obtain ⟨j, hj3, hj2, -⟩ := colNdx_last hmem
    have hjl : j < 2 := by rw [← hlen]; exact (List.getElem?_eq_some_iff.1 hj2).1
    have hi3 : hdrs[i]? = some c!"value" := by
      have hm : c!"value" ∈ hdrs := by
        unfold firstHdr at hkey
        exact List.mem_of_find?_eq_some hkey
      obtain ⟨k, g1, g2, -⟩ := colNdx_last hm
      rw [hi] at g1
      cases g1
      exact g2
    refine ⟨⟨i, j, j⟩, ?_, hi', .inr ⟨hlen, hi3, rfl, ?_, hjl⟩⟩
    · unfold mkCols
      simp only [hi, hj3]
      rfl
    · intro he
      simp only at he
      subst he
      rw [hj2] at hi3
      simp only [Option.some.injEq] at hi3
      rw [hi3] at hne
      simp at hne

omit [Uni] in
/-- C14 (value tables): with distinct headers, value, label and content are bound to the first header which names the
component; in the two column fallback label and content are bound to the column which is not `value`. -/
theorem C14_value_columns (hdrs : List Str) (mapping : Mapping) (happ : Cls.value.canApply hdrs = some mapping)
    (hnd : hdrs.Nodup) :
    ∃ cols, mkCols hdrs mapping = .ok cols ∧ FirstPos valueHdrs hdrs cols.key ∧
      (FirstPos valueLabelHdrs hdrs cols.label ∧ FirstPos valueContentHdrs hdrs cols.content ∨
        hdrs.length = 2 ∧ hdrs[cols.key]? = some c!"value" ∧ cols.label = cols.content ∧ cols.label ≠ cols.key ∧ cols.label < 2) := by
  obtain ⟨cols, h1, h2, h3⟩ := C14_value_exact hdrs mapping happ
  exact ⟨cols, h1, h2.first hnd, h3.imp (fun h => ⟨h.1.first hnd, h.2.first hnd⟩) id⟩

omit [Uni] in
/-- C14 (reading): the three texts of a struct row are those of the cells at the bound positions (for the label: of the
first paragraph of that cell). -/
theorem C14_row_cells (cols : Cols) (row r c l p : Node) (hr : (row.childs tTd)[cols.key]? = some r)
    (hc : (row.childs tTd)[cols.content]? = some c) (hl : (row.childs tTd)[cols.label]? = some l)
    (hp : (l.childs tP).head? = some p) :
    extractFields cols row = .ok (r.toText, c.toText, p.toText) := by
  unfold extractFields Node.nthChild
  simp only [Nat.add_sub_cancel, hr, hc, hl, Option.bind_some]
  have : (l.childs tP)[1 - 1]? = some p := by
    simpa [List.head?_eq_getElem?] using hp
  rw [this]
  rfl

omit [Uni] in
/-- C14 needs distinct headers: with two columns of the same name the last one is read. -/
theorem C14_duplicate_headers_false :
    ∃ hdrs mapping, (Cls.struct bitsCls).canApply hdrs = some mapping ∧ mkCols hdrs mapping = .ok ⟨0, 2, 2⟩ ∧
      FirstPos bitsCls.contentHdrs hdrs 1 := by
  refine ⟨[c!"bits", c!"description", c!"description"], _, rfl, rfl, c!"description", rfl, by decide, ?_⟩
  intro j h' hj hh
  have : j = 0 := by omega
  subst this
  simp only [List.getElem?_cons_zero, Option.some.injEq] at hh
  subst hh
  decide

/-- with repeated headings: the first heading which names a component counts, and of the columns with this heading the last one -/
example : ∃ mapping, (Cls.struct bitsCls).canApply [c!"description", c!"bits", c!"description", c!"attribute"] = some mapping ∧
    mkCols [c!"description", c!"bits", c!"description", c!"attribute"] mapping = .ok ⟨1, 2, 2⟩ ∧
    ReadPos bitsCls.labelHdrs [c!"description", c!"bits", c!"description", c!"attribute"] 2 :=
  ⟨_, rfl, rfl, readPos_of (by decide)⟩

example : ∃ mapping, (Cls.struct bytesCls).canApply [c!"description", c!"bytes", c!"attribute"] = some mapping ∧
    mkCols [c!"description", c!"bytes", c!"attribute"] mapping = .ok ⟨1, 0, 0⟩ := ⟨_, rfl, rfl⟩

end Spex
