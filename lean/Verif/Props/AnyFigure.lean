import Verif.Props.WordValues
import Verif.Props.Fields
/-
C76: the figures of a Word document, through both stages, whatever the texts of their cells are.
-/
set_option autoImplicit false
namespace Spex

section
variable [Uni]

/-! ### Specification -/

/-- `s` is the text of a cell with these texts -/
def Says (ts : List Str) (s : Str) : Prop := ∃ w, Woven ts w ∧ s = strip w

/-- `s` is the first one of the texts of a cell -/
def FirstText (ts : List Str) (s : Str) : Prop := ∃ t rest, ts = t :: rest ∧ s = strip t

/-- no number in the text has more than 4300 digits -/
def ShortNumbers (s : Str) : Prop := ∀ ds, ds <:+: s → (∀ c ∈ ds, digit c ≠ none) → ds.length ≤ 4300

/-- What becomes of a row of a bits or bytes figure, whatever the texts of its range, label and description: the reports, and the field, if
there is one. `own` says that there is a column for the labels. -/
inductive StructRowIs (own : Prop) (fig range label content : Str) : List Ev → Option StructField → Prop
  /-- no range -/
  | skip : MarkText range → StructRowIs own fig range label content [] none
  /-- reserved, obsolete, an ellipsis -/
  | mark (evs : List Ev) (r : RangeV) (n : Str) : ¬ MarkText range → (MarkText label ∨ MarkText content) →
      RangeIs fig range range evs (.ok r) → Marks content n → StructRowIs own fig range label content evs (some ⟨n, r, none⟩)
  /-- a note, and rows whose label says that they are reserved, but not their description -/
  | drop (evs : List Ev) (r : RangeV) : ¬ MarkText range → (MarkText label ∨ MarkText content) →
      RangeIs fig range range evs (.ok r) → (∀ n, ¬ Marks content n) → StructRowIs own fig range label content evs none
  /-- any other row; an empty brief is left out -/
  | field (evs reports : List Ev) (r : RangeV) (n : Str) (b : Option Str) : (∀ t ∈ [range, content, label], ¬ MarkText t) →
      RangeIs fig range range evs (.ok r) → StructLabelIs own fig (rangeKey r) label n reports → BriefIs content b →
      StructRowIs own fig range label content (evs ++ reports) (some ⟨lower n, r, if b = some [] then none else b⟩)

/-- the same for a row of a table of values; `ov` are the overrides of labels -/
inductive ValueRowIs (ov : List ((Str × Str) × Str)) (own : Prop) (fig val label content : Str) : List Ev → ValueField → Prop
  | ellipsis : lower val = ELLIPSIS → ValueRowIs ov own fig val label content [] ⟨ELLIPSIS, ELLIPSIS, none⟩
  | override (n : Str) (b : Option Str) : lower val ≠ ELLIPSIS → ov.lookup (fig, lower val) = some n → BriefIs content b →
      ValueRowIs ov own fig val label content [.lint (issue .lblOverridden fig (some (lower val)))] ⟨lower val, n, b⟩
  | field (evs : List Ev) (n : Str) (b : Option Str) : lower val ≠ ELLIPSIS → ov.lookup (fig, lower val) = none →
      ValueLabelIs own fig (lower val) label n evs → BriefIs content b → ValueRowIs ov own fig val label content evs ⟨lower val, n, b⟩

/-- what becomes of a row, by the texts of its range cell, of its label cell and of its description cell -/
def StructRowOf (own : Prop) (fig : Str) (p : List Str × List Str × List Str) (o : List Ev × Option StructField) : Prop :=
  ∃ range label content, Says p.1 range ∧ FirstText p.2.1 label ∧ Says p.2.2 content ∧ StructRowIs own fig range label content o.1 o.2

/-- the same for tables of values -/
def ValueRowOf (ov : List ((Str × Str) × Str)) (own : Prop) (fig : Str) (p : List Str × List Str × List Str) (o : List Ev × ValueField) : Prop :=
  ∃ val label content, Says p.1 val ∧ FirstText p.2.1 label ∧ Says p.2.2 content ∧ ValueRowIs ov own fig val label content o.1 o.2

/-- A table with these columns describes a layout: the ranges, the labels and the descriptions are in these columns. -/
def LayoutPlaces (names : List Str) (ty : StructTy) (k l d : Nat) : Prop :=
  ∃ key, LayoutColumns names ty key ∧ ReadPos [key] names k ∧ ReadPos [c!"attribute", c!"description"] names l ∧
    ReadPos [c!"description"] names d

/-- A table with these columns is a table of values: the values, the labels and the descriptions are in these columns. -/
inductive ValuesPlaces (names : List Str) : Nat → Nat → Nat → Prop
  | described (k l d : Nat) : ¬ (c!"bytes" ∈ names ∧ c!"description" ∈ names) → ReadPos [c!"value", c!"values"] names k →
      ReadPos [c!"attribute", c!"definition", c!"description", c!"power scope"] names l →
      ReadPos [c!"definition", c!"description", c!"power scope"] names d → ValuesPlaces names k l d
  | two (k d : Nat) (x : Str) : names = [c!"value", x] ∧ k = 0 ∧ d = 1 ∨ names = [x, c!"value"] ∧ x ≠ c!"values" ∧ k = 1 ∧ d = 0 →
      x ∉ [[], c!"value", c!"definition", c!"description", c!"power scope"] → ValuesPlaces names k d d

/-! ### Rows -/

/-- the texts of a cell hold the digits of its text -/
theorem Woven.digits {ts : List Str} {w : Str} (h : Woven ts w) : w.filter isDigit = ts.flatten.filter isDigit := by
  have hb : ∀ w : Str, (∀ c ∈ w, isXmlSpace c = true) → w.filter isDigit = [] := by
    intro w hw
    rw [List.filter_eq_nil_iff]
    intro c hc hd
    have := isDigit_not_space hd
    rw [xmlSpace_isSpace (hw c hc)] at this
    cases this
  induction h with
  | done h => rw [hb _ h]; rfl
  | text h t h' ih => rw [List.filter_append, List.filter_append, hb _ h, ih, List.flatten_cons, List.filter_append]; simp

/-- cells with at most 4300 digits in all hold no number which is too long -/
theorem Says.short {ts : List Str} {s : Str} (h : Says ts s) (hl : (ts.flatten.filter isDigit).length ≤ 4300) : ShortNumbers s := by
  intro ds hd hds
  obtain ⟨w, h1, rfl⟩ := h
  rw [← h1.digits] at hl
  refine Nat.le_trans ?_ hl
  have h2 : ds.Sublist w := by
    obtain ⟨a, b, hab, -⟩ := strip_parts w
    exact (hd.trans ⟨a, b, hab.symm⟩).sublist
  have h3 := h2.filter isDigit
  rw [List.filter_eq_self.2 (fun c hc => (isDigit_true_iff c).2 (hds c hc))] at h3
  exact h3.length_le


omit [Uni] in
theorem HasTexts.says {ts : List Str} {y : Node} (h : HasTexts ts y) : Says ts y.toText := ⟨_, h.whole, rfl⟩

theorem HasTexts.firstText {ts : List Str} {y : Node} (h : HasTexts ts y) (hne : ts ≠ []) :
    ∃ p, (y.childs tP).head? = some p ∧ FirstText ts p.toText := by
  obtain ⟨t, rest, rfl⟩ := List.exists_cons_of_ne_nil hne
  obtain ⟨p, h1, h2⟩ := h.first
  exact ⟨p, h1, t, rest, rfl, h2⟩

theorem Numbers.infixes {t hs : Str} {ol : Option Str} (h : Numbers t hs ol) : hs <:+: t ∧ ∀ ls, ol = some ls → ls <:+: t := by
  cases h with
  | pair ws₁ ws₂ ls rest ht =>
    subst ht
    refine ⟨⟨[], ws₁ ++ ':' :: (ws₂ ++ ls ++ rest), by simp⟩, ?_⟩
    rintro _ ⟨⟩
    exact ⟨hs ++ ws₁ ++ ':' :: ws₂, rest, by simp⟩
  | single rest ht => exact ⟨⟨[], rest, by simp [ht]⟩, by simp⟩

theorem RangeIs.short {fig key t : Str} {evs : List Ev} {o : Except Exn RangeV} (h : RangeIs fig key t evs o) (hs : ShortNumbers t) :
    ∃ r, o = .ok r := by
  cases h with
  | text => exact ⟨_, rfl⟩
  | one => exact ⟨_, rfl⟩
  | two => exact ⟨_, rfl⟩
  | reversed => exact ⟨_, rfl⟩
  | long hs' ol h1 h2 =>
    exfalso
    obtain ⟨d1, d2⟩ := h1.digits
    obtain ⟨i1, i2⟩ := h1.infixes
    rcases h2 with h2 | ⟨ls, rfl, h2⟩
    · have := hs hs' i1 (fun c hc => (isDigit_true_iff c).1 (d1.2 c hc))
      omega
    · have := hs ls (i2 ls rfl) (fun c hc => (isDigit_true_iff c).1 ((d2 ls rfl).2 c hc))
      omega

theorem StructLabelIs.exists (own : Prop) (fig key txt : Str) (hf : fig ≠ []) : ∃ n evs, StructLabelIs own fig key txt n evs := by
  obtain ⟨x, e, hx⟩ : ∃ x e, (¬ own ∧ NamedText txt x e ∨ own ∧ ColumnText txt x e) := by
    by_cases ho : own
    · obtain ⟨x, e, hx⟩ := ColumnText.exists txt
      exact ⟨x, e, .inr ⟨ho, hx⟩⟩
    · obtain ⟨x, e, hx⟩ := NamedText.exists txt
      exact ⟨x, e, .inl ⟨ho, hx⟩⟩
  exact ⟨_, _, x, e, hx, (C06_normal_iff _ _).1 rfl, (labelReports_iff hf e _ _ false).2 rfl⟩

theorem StructRowIs.exists (own : Prop) {fig : Str} (hf : fig ≠ []) (range label content : Str) (hs : ShortNumbers range) :
    ∃ evs o, StructRowIs own fig range label content evs o := by
  by_cases h1 : MarkText range
  · exact ⟨_, _, .skip h1⟩
  · obtain ⟨evs, o, hr⟩ := RangeIs.exists fig range range
    obtain ⟨r, rfl⟩ := hr.short hs
    by_cases h2 : MarkText label ∨ MarkText content
    · by_cases h3 : ∃ n, Marks content n
      · obtain ⟨n, hn⟩ := h3
        exact ⟨_, _, .mark evs r n h1 h2 hr hn⟩
      · exact ⟨_, _, .drop evs r h1 h2 hr (fun n hn => h3 ⟨n, hn⟩)⟩
    · rw [not_or] at h2
      obtain ⟨n, reports, hl⟩ := StructLabelIs.exists own fig (rangeToRowKey r) label hf
      exact ⟨_, _, .field evs reports r n _ (by simp [h1, h2.1, h2.2]) hr hl ((C05_brief_exact content _).1 rfl)⟩

theorem handleSpecialCase_eq {content n : Str} (h : Marks content n) (r : RangeV) : handleSpecialCase content r = some ⟨n, r, none⟩ := by
  unfold handleSpecialCase
  rcases h with ⟨h, rfl⟩ | ⟨hne, ⟨h, rfl⟩ | ⟨h, rfl⟩⟩
  · rw [if_pos h]; rfl
  · rw [if_neg hne, if_pos h]; rfl
  · rw [if_neg hne, if_neg (by rw [h]; decide), if_pos h]; rfl

theorem handleSpecialCase_none {content : Str} (h : ∀ n, ¬ Marks content n) (r : RangeV) : handleSpecialCase content r = none := by
  cases hc : handleSpecialCase content r with
  | none => rfl
  | some f => exact absurd (handleSpecialCase_marks hc).1 (h _)

/-- what the code makes of a row of a bits or bytes figure -/
theorem structRow_any {parse : ParseFn} {fig : Str} {h : ErrHandler} {cols : Cols} {row : Row} {rc lc cc p : Node} (hf : fig ≠ [])
    (hk : (row.node.childs tTd)[cols.key]? = some rc) (hl : (row.node.childs tTd)[cols.label]? = some lc)
    (hc : (row.node.childs tTd)[cols.content]? = some cc) (hp : (lc.childs tP).head? = some p) (hnt : cc.childs tTable = [])
    {evs : List Ev} {o : Option StructField}
    (hr : StructRowIs (cols.content ≠ cols.label) fig rc.toText p.toText cc.toText evs o) (fl : Bool) :
    structRow parse fig h cols false row fl = ⟨evs, fl, .ok (match o with | some f => .field f | none => .skip)⟩ := by
  have hx := C14_row_cells cols row.node rc cc lc p hk hc hl hp
  have hn : row.node.nthChild tTd (cols.content + 1) = some cc := hc
  have hno : ∀ {t}, ¬ MarkText t → isSpecialCase t = false := fun h => by
    rw [Bool.eq_false_iff, ne_eq, isSpecialCase_iff]; exact h
  unfold structRow
  rw [hx]
  have hsp : ∀ {evs : List Ev} {r : RangeV}, ¬ MarkText rc.toText → (MarkText p.toText ∨ MarkText cc.toText) →
      (isSpecialCase rc.toText = false ∧ (isSpecialCase rc.toText || isSpecialCase p.toText || isSpecialCase cc.toText) = true) := by
    intro evs r h1 h2
    refine ⟨hno h1, ?_⟩
    rcases h2 with h2 | h2 <;> rw [(isSpecialCase_iff _).2 h2] <;> simp
  cases hr with
  | skip h1 =>
    simp only [(isSpecialCase_iff _).2 h1, Bool.true_or, if_true]
    rfl
  | mark _ r n h1 h2 h3 h4 =>
    obtain ⟨e1, e2⟩ := hsp (evs := evs) (r := r) h1 h2
    simp only [e2, if_true]
    simp only [e1, Bool.false_eq_true, if_false]
    rw [M.bind_run, h3.run hf fl]
    simp only [handleSpecialCase_eq h4, M.pure_run, List.append_nil]
  | drop _ r h1 h2 h3 h4 =>
    obtain ⟨e1, e2⟩ := hsp (evs := evs) (r := r) h1 h2
    simp only [e2, if_true]
    simp only [e1, Bool.false_eq_true, if_false]
    rw [M.bind_run, h3.run hf fl]
    simp only [handleSpecialCase_none h4, M.pure_run, List.append_nil]
  | field evs reports r n b h1 h2 h3 h4 =>
    simp only [List.mem_cons, List.not_mem_nil, or_false, forall_eq_or_imp, forall_eq] at h1
    simp only [hno h1.1, hno h1.2.1, hno h1.2.2, Bool.or_self, Bool.false_eq_true, if_false, rowRange]
    rw [M.bind_run, h2.run hf fl]
    simp only
    rw [M.bind_run, (C08_label_exact fig cols p.toText (rangeToRowKey r) hf fl reports _).2 ⟨n, h3, rfl⟩]
    simp only [hn, req, M.ofExcept_ok, pure_bind, extractDataSubTable, hnt, subTables]
    rw [M.pure_run]
    simp only [List.append_nil]
    have hb := h4.eq
    generalize contentExtractBrief cc.toText = b' at hb ⊢
    subst hb
    have : structField r (lower n) b' = ⟨lower n, r, if b' = some [] then none else b'⟩ := by
      unfold structField
      congr 1
      cases b' with
      | none => rfl
      | some x => cases x <;> rfl
    rw [this]

/-- the rows of a bits or bytes figure -/
theorem structRows_any {parse : ParseFn} {fig : Str} {h : ErrHandler} {cols : Cols} (hf : fig ≠ [])
    {rows : List Row} {ps : List (List Str × List Str × List Str)}
    (hr : List.Forall₂ (fun row p => RowTexts row [(cols.key, p.1), (cols.label, p.2.1), (cols.content, p.2.2)]) rows ps)
    (hp : ∀ p ∈ ps, p.2.1 ≠ [] ∧ ∀ s, Says p.1 s → ShortNumbers s) :
    ∃ outs, List.Forall₂ (StructRowOf (cols.content ≠ cols.label) fig) ps outs ∧
      ∀ fl, structRows parse fig h cols none false rows fl = ⟨outs.flatMap (·.1), fl, .ok (outs.filterMap (·.2), none)⟩ := by
  induction hr with
  | nil => exact ⟨[], .nil, fun fl => rfl⟩
  | @cons row p rows ps h1 _ ih =>
    obtain ⟨outs, g1, g2⟩ := ih (fun q hq => hp q (List.mem_cons_of_mem _ hq))
    obtain ⟨hne, hsn⟩ := hp p List.mem_cons_self
    obtain ⟨hth, hcell⟩ := h1
    obtain ⟨rc, a1, a2⟩ := hcell (cols.key, p.1) (by simp)
    obtain ⟨lc, a3, a4⟩ := hcell (cols.label, p.2.1) (by simp)
    obtain ⟨cc, a5, a6⟩ := hcell (cols.content, p.2.2) (by simp)
    obtain ⟨pp, a7, a8⟩ := a4.firstText hne
    obtain ⟨evs, o, hrow⟩ := StructRowIs.exists (cols.content ≠ cols.label) hf rc.toText pp.toText cc.toText (hsn _ a2.says)
    refine ⟨(evs, o) :: outs, .cons ⟨_, _, _, a2.says, a8, a6.says, hrow⟩ g1, fun fl => ?_⟩
    rw [structRows]
    have : containsTh row.node = false := by unfold containsTh; rw [hth]; rfl
    rw [if_neg (by rw [this]; decide), M.bind_run, structRow_any hf a1 a3 a5 a7 a6.no_table hrow]
    cases o with
    | none =>
      simp only [List.flatMap_cons, List.filterMap_cons]
      rw [g2]
    | some f =>
      simp only [List.flatMap_cons, List.filterMap_cons]
      rw [M.bind_run, g2]
      simp [M.pure_run]

/-- what the code makes of a row of a table of values -/
theorem valueRow_any {parse : ParseFn} {ov : List ((Str × Str) × Str)} {fig : Str} {cols : Cols} {row : Row} {vc lc cc p : Node} (hf : fig ≠ [])
    (hk : (row.node.childs tTd)[cols.key]? = some vc) (hl : (row.node.childs tTd)[cols.label]? = some lc)
    (hc : (row.node.childs tTd)[cols.content]? = some cc) (hp : (lc.childs tP).head? = some p) (hnt : cc.childs tTable = [])
    {evs : List Ev} {f : ValueField}
    (hr : ValueRowIs ov (cols.content ≠ cols.label) fig vc.toText p.toText cc.toText evs f) (fl : Bool) :
    valueRow parse ov fig cols row fl = ⟨evs, fl, .ok (.field f)⟩ := by
  have hk' : row.node.nthChild tTd (cols.key + 1) = some vc := hk
  have hc' : row.node.nthChild tTd (cols.content + 1) = some cc := hc
  have hl' : row.node.nthChild tTd (cols.label + 1) = some lc := hl
  have hpp : lc.nthChild tP 1 = some p := by
    unfold Node.nthChild
    rw [← List.head?_eq_getElem?]
    exact hp
  have hpar : LabelParagraph cols row.node cc p := by
    by_cases ho : cols.content ≠ cols.label
    · exact .inl ⟨ho, lc, hl', hpp⟩
    · rw [ne_eq, Decidable.not_not] at ho
      refine .inr ⟨ho, ?_⟩
      rw [ho] at hc
      rw [hl] at hc
      cases hc
      exact hpp
  have fin : ∀ {n : Str} {b : Option Str} {evs : List Ev}, lower vc.toText ≠ ELLIPSIS → BriefIs cc.toText b →
      valueLabel ov fig cols row.node (lower vc.toText) cc fl = ⟨evs, fl, .ok n⟩ →
      valueRow parse ov fig cols row fl = ⟨evs, fl, .ok (.field ⟨lower vc.toText, n, b⟩)⟩ := by
    intro n b evs h1 h2 h3
    unfold valueRow
    simp only [hk', hc']
    rw [if_neg h1, M.bind_run, h3]
    simp only [extractDataSubTable, hnt, subTables]
    have hb := h2.eq
    generalize contentExtractBrief cc.toText = b' at hb ⊢
    subst hb
    simp [M.pure_run]
  cases hr with
  | ellipsis h1 =>
    unfold valueRow
    simp only [hk', hc', h1, if_true]
    rfl
  | override n b h1 h2 h3 =>
    refine fin h1 h3 ?_
    unfold valueLabel
    rw [h2]
    simp only
    rw [addIssue_row hf, M.bind_run, M.emit_run]
    rfl
  | field _ n b h1 h2 h3 h4 =>
    refine fin h1 h4 ?_
    unfold valueLabel
    rw [h2]
    exact valueLabel_run fig _ hf cols row.node cc p hpar fl n evs h3

theorem ValueRowIs.exists (ov : List ((Str × Str) × Str)) (own : Prop) {fig : Str} (hf : fig ≠ []) (val label content : Str) :
    ∃ evs f, ValueRowIs ov own fig val label content evs f := by
  by_cases h1 : lower val = ELLIPSIS
  · exact ⟨_, _, .ellipsis h1⟩
  · have hb := (C05_brief_exact content _).1 rfl
    cases h2 : ov.lookup (fig, lower val) with
    | some n => exact ⟨_, _, .override n _ h1 h2 hb⟩
    | none =>
      obtain ⟨n, evs, h3⟩ := ValueLabelIs.exists own fig (lower val) hf label
      exact ⟨_, _, .field evs n _ h1 h2 h3 hb⟩

/-- the rows of a table of values -/
theorem valueRows_any {parse : ParseFn} {ov : List ((Str × Str) × Str)} {fig : Str} {cols : Cols} (hf : fig ≠ [])
    {rows : List Row} {ps : List (List Str × List Str × List Str)}
    (hr : List.Forall₂ (fun row p => RowTexts row [(cols.key, p.1), (cols.label, p.2.1), (cols.content, p.2.2)]) rows ps)
    (hp : ∀ p ∈ ps, p.2.1 ≠ []) :
    ∃ outs, List.Forall₂ (ValueRowOf ov (cols.content ≠ cols.label) fig) ps outs ∧
      ∀ fl, valueRows parse ov fig cols none rows fl = ⟨outs.flatMap (·.1), fl, .ok (outs.map (·.2))⟩ := by
  induction hr with
  | nil => exact ⟨[], .nil, fun fl => rfl⟩
  | @cons row p rows ps h1 _ ih =>
    obtain ⟨outs, g1, g2⟩ := ih (fun q hq => hp q (List.mem_cons_of_mem _ hq))
    obtain ⟨hth, hcell⟩ := h1
    obtain ⟨rc, a1, a2⟩ := hcell (cols.key, p.1) (by simp)
    obtain ⟨lc, a3, a4⟩ := hcell (cols.label, p.2.1) (by simp)
    obtain ⟨cc, a5, a6⟩ := hcell (cols.content, p.2.2) (by simp)
    obtain ⟨pp, a7, a8⟩ := a4.firstText (hp p List.mem_cons_self)
    obtain ⟨evs, f, hrow⟩ := ValueRowIs.exists ov (cols.content ≠ cols.label) hf rc.toText pp.toText cc.toText
    refine ⟨(evs, f) :: outs, .cons ⟨_, _, _, a2.says, a8, a6.says, hrow⟩ g1, fun fl => ?_⟩
    rw [valueRows]
    have : containsTh row.node = false := by unfold containsTh; rw [hth]; rfl
    rw [if_neg (by rw [this]; decide), M.bind_run, valueRow_any hf a1 a3 a5 a7 a6.no_table hrow]
    simp only [List.flatMap_cons, List.map_cons]
    rw [M.bind_run, g2]
    simp [M.pure_run]

/-! ### Columns -/

omit [Uni] in
theorem FirstPos.unique {cands names : List Str} {j k : Nat} (hj : FirstPos cands names j) (hk : FirstPos cands names k) : j = k := by
  obtain ⟨h, a1, a2, a3⟩ := hj
  obtain ⟨h', b1, b2, b3⟩ := hk
  rcases Nat.lt_trichotomy j k with hlt | rfl | hlt
  · exact absurd a2 (b3 j h hlt a1)
  · rfl
  · exact absurd b2 (a3 k h' hlt b1)

omit [Uni] in
theorem firstApplicable_applies {cl : Cls} {names : List Str} {m : Mapping} :
    ∀ l, firstApplicable l names = some (cl, m) → cl.canApply names = some m := by
  intro l
  induction l with
  | nil => intro h; cases h
  | cons a l ih =>
    intro h
    rw [firstApplicable] at h
    cases ha : a.canApply names with
    | none => rw [ha] at h; exact ih h
    | some m =>
      rw [ha] at h
      simp only [Option.some.injEq, Prod.mk.injEq] at h
      rw [← h.1, ← h.2, ha]

omit [Uni] in
theorem chosen_applies {cl : Cls} {names : List Str} (h : chosen names = some cl) :
    ∃ m, firstApplicable extractors names = some (cl, m) ∧ cl.canApply names = some m := by
  unfold chosen at h
  cases hfa : firstApplicable extractors names with
  | none => rw [hfa] at h; cases h
  | some p =>
    obtain ⟨cl', m⟩ := p
    rw [hfa, Option.map_some, Option.some.injEq] at h
    simp only at h
    subst h
    exact ⟨m, rfl, firstApplicable_applies _ hfa⟩

omit [Uni] in
theorem layout_places {names : List Str} {ty : StructTy} {k l d : Nat} (h : LayoutPlaces names ty k l d) :
    ∃ c mapping, firstApplicable extractors names = some (.struct c, mapping) ∧ c.ty = ty ∧ c.handler = .default ∧
      mkCols names mapping = .ok ⟨k, l, d⟩ := by
  obtain ⟨key, hL, hk, hl, hd⟩ := h
  have hch : ∃ c, chosen names = some (.struct c) ∧ c.ty = ty ∧ c.rangeHdrs = [key] ∧ c.labelHdrs = [c!"attribute", c!"description"] ∧
      c.contentHdrs = [c!"description"] ∧ c.handler = .default := by
    cases hL with
    | bytes h hd => exact ⟨bytesCls, (C13_choice names).1 ⟨h, hd⟩, rfl, rfl, rfl, rfl, rfl⟩
    | bits h hd h1 h2 h3 =>
      refine ⟨bitsCls, (C13_choice names).2.2.1 (fun e => h1 e.1) ?_ ⟨h, hd⟩, rfl, rfl, rfl, rfl, rfl⟩
      rintro (⟨⟨x, hx, rfl | rfl⟩, -⟩ | ⟨x, -, -, rfl | ⟨rfl, -⟩⟩)
      · exact h2 hx
      · exact h3 hx
      · exact h2 (by simp)
      · exact h2 (by simp)
  obtain ⟨c, h1, h2, h3, h4, h5, h6⟩ := hch
  obtain ⟨mapping, hfa, happ⟩ := chosen_applies h1
  obtain ⟨⟨ck, cl, cc⟩, g1, g2, g3, g4⟩ := C14_struct_exact c names mapping happ
  refine ⟨c, mapping, hfa, h2, h6, ?_⟩
  rw [h3] at g2
  rw [h4] at g3
  rw [h5] at g4
  have e1 : ck = k := g2.unique hk
  have e2 : cl = l := g3.unique hl
  have e3 : cc = d := g4.unique hd
  rw [g1, e1, e2, e3]

omit [Uni] in
theorem values_places {names : List Str} {k l d : Nat} (h : ValuesPlaces names k l d) :
    ∃ mapping, firstApplicable extractors names = some (.value, mapping) ∧ mkCols names mapping = .ok ⟨k, l, d⟩ := by
  have hch : chosen names = some .value := by
    cases h with
    | described d h1 h2 h3 h4 =>
      obtain ⟨x, a1, a2⟩ := h2.here
      obtain ⟨y, b1, b2⟩ := h4.here
      refine (C13_choice names).2.1 h1 (.inl ⟨⟨x, List.mem_of_getElem? a1, by simpa using a2⟩, ⟨y, List.mem_of_getElem? b1, by simpa using b2⟩⟩)
    | two x h1 h2 =>
      simp only [List.mem_cons, List.not_mem_nil, or_false, not_or] at h2
      obtain ⟨n0, n1, n2, n3, n4⟩ := h2
      refine (C13_choice names).2.1 ?_ (.inr ⟨x, n0, n1, h1.imp (·.1) (fun e => ⟨e.1, e.2.1⟩)⟩)
      rintro ⟨-, g⟩
      rcases h1 with ⟨rfl, -⟩ | ⟨rfl, -⟩ <;> simp only [List.mem_cons, List.not_mem_nil, or_false] at g <;> rcases g with g | g <;>
        first | exact n3 g.symm | (revert g; decide)
  obtain ⟨mapping, hfa, happ⟩ := chosen_applies hch
  obtain ⟨⟨ck, cl, cc⟩, g1, g2, g3⟩ := C14_value_exact names mapping happ
  refine ⟨mapping, hfa, ?_⟩
  rw [g1]
  simp only at g2 g3
  cases h with
  | described d h1 h2 h3 h4 =>
    have e1 : ck = k := g2.unique h2
    rcases g3 with ⟨g3, g4⟩ | ⟨g3, g4, g5, g6, g7⟩
    · rw [e1, g3.unique h3, g4.unique h4]
    · subst e1
      obtain ⟨x, a1, a2⟩ := h3.here
      obtain ⟨y, b1, b2⟩ := h4.here
      have hl : l < 2 := by rw [← g3]; exact (List.getElem?_eq_some_iff.1 a1).1
      have hd : d < 2 := by rw [← g3]; exact (List.getElem?_eq_some_iff.1 b1).1
      have nl : l ≠ ck := by
        rintro rfl
        rw [g4] at a1; cases a1
        revert a2; decide
      have nd : d ≠ ck := by
        rintro rfl
        rw [g4] at b1; cases b1
        revert b2; decide
      have hk : ck < 2 := by rw [← g3]; exact (List.getElem?_eq_some_iff.1 g4).1
      have e2 : cl = l := by omega
      have e3 : cc = d := by omega
      rw [e2, e3]
  | two x h1 h2 =>
    simp only [List.mem_cons, List.not_mem_nil, or_false, not_or] at h2
    obtain ⟨n0, n1, n2, n3, n4⟩ := h2
    have hnd : names.Nodup := by
      rcases h1 with ⟨rfl, -⟩ | ⟨rfl, -⟩ <;> simp only [List.nodup_cons, List.mem_singleton, List.not_mem_nil, not_false_eq_true, List.nodup_nil, and_true]
      · exact fun e => n1 e.symm
      · exact n1
    have hkk : ReadPos valueHdrs names k := by
      refine FirstPos.read ?_ hnd
      rcases h1 with ⟨rfl, rfl, rfl⟩ | ⟨rfl, hx, rfl, rfl⟩
      · exact ⟨_, rfl, by decide, fun j h' hj => by omega⟩
      · refine ⟨_, rfl, by decide, fun j h' hj he => ?_⟩
        have : j = 0 := by omega
        subst this
        cases he
        simp [valueHdrs, n1, hx]
    have e1 : ck = k := g2.unique hkk
    rcases g3 with ⟨-, g3⟩ | ⟨g3, g4, g5, g6, g7⟩
    · exfalso
      obtain ⟨y, b1, b2⟩ := g3.here
      have hm := List.mem_of_getElem? b1
      have : y = c!"value" ∨ y = x := by
        rcases h1 with ⟨rfl, -⟩ | ⟨rfl, -⟩ <;> simp only [List.mem_cons, List.not_mem_nil, or_false] at hm
        · exact hm
        · exact hm.symm
      rcases this with rfl | rfl
      · revert b2; decide
      · simp [valueContentHdrs, n2, n3, n4] at b2
    · have : k < 2 ∧ l < 2 ∧ k ≠ l := by rcases h1 with ⟨-, rfl, rfl⟩ | ⟨-, -, rfl, rfl⟩ <;> omega
      have e2 : cl = l := by omega
      have e3 : cc = l := by omega
      rw [e1, e2, e3]

/-! ### Figures -/

theorem headerIssues_codes (fig : Str) (tbl : Node) : ∀ x ∈ headerIssues fig tbl, ∃ l, x = .lint l ∧ l.fig = fig ∧ l.err = .tblHdrErr := by
  intro x hx
  simp only [headerIssues, List.mem_map] at hx
  obtain ⟨c, -, rfl⟩ := hx
  exact ⟨_, rfl, rfl, rfl⟩

/-- a bits or bytes figure -/
theorem struct_any {env : Env} {m : EntityMeta} {tbl : Node} {names : List Str} {ty : StructTy} {k l d : Nat}
    {head : Row} {rows : List Row} {ps : List (List Str × List Str × List Str)} (hf : m.figId ≠ []) (hov : env.overrides.lookup m.figId = none)
    (hn : columnNames tbl = names) (hL : LayoutPlaces names ty k l d) (hi : rowIter tbl = (head :: rows, none))
    (hth : containsTh head.node = true) (hcs : isInfix c!"List" (extractPossibleColspan head.node) = false)
    (hr : List.Forall₂ (fun row p => RowTexts row [(k, p.1), (l, p.2.1), (d, p.2.2)]) rows ps)
    (hp : ∀ p ∈ ps, p.2.1 ≠ [] ∧ ∀ s, Says p.1 s → ShortNumbers s) :
    ∃ outs hdr lay, List.Forall₂ (StructRowOf (d ≠ l) m.figId) ps outs ∧
      (∀ x ∈ hdr, ∃ l, x = .lint l ∧ l.fig = m.figId ∧ l.err = .tblHdrErr) ∧
      (∀ x ∈ lay, ∃ l, x = .lint l ∧ l.fig = m.figId ∧ LayoutCode l.err) ∧
      ∀ fl, parseFigure env m tbl fl =
        ⟨hdr ++ outs.flatMap (·.1) ++ lay ++ [.ent ⟨m, .struct ty (layoutOrder ty (outs.filterMap (·.2)))⟩], false, .ok ()⟩ := by
  obtain ⟨c, mapping, g1, g2, -, g3⟩ := layout_places hL
  have hsz := size_pos tbl
  obtain ⟨n, hsn⟩ : ∃ n, tbl.size = n + 1 := ⟨tbl.size - 1, by omega⟩
  obtain ⟨outs, a1, a2⟩ := structRows_any (parse := parseFig env n) (fig := m.figId) (h := c.handler) (cols := ⟨k, l, d⟩) hf hr hp
  refine ⟨outs, headerIssues m.figId tbl, structEvs m.figId (layoutOrder ty (outs.filterMap (·.2))), a1, headerIssues_codes _ _,
    structEvs_codes _ _, fun fl => ?_⟩
  unfold parseFigure
  rw [hsn, parseFig]
  unfold onParseFig
  rw [M.bind_run, M.setFlag_run]
  simp only
  rw [M.bind_run, C15_headers m.figId tbl hf false]
  simp only [hn, hov, g1]
  unfold runExtractor
  simp only [g3, M.ofExcept_ok, pure_bind]
  have hcall : callExtractor env (parseFig env n) (.struct c) m ⟨k, l, d⟩ tbl false =
      ⟨outs.flatMap (·.1) ++ (structEvs m.figId (layoutOrder ty (outs.filterMap (·.2))) ++
        [.ent ⟨m, .struct ty (layoutOrder ty (outs.filterMap (·.2)))⟩]), false, .ok ()⟩ := by
    unfold callExtractor structCall
    simp only [hi]
    rw [structRows, if_pos hth, hcs, Bool.false_or, M.bind_run, a2]
    simp only
    rw [g2, M.bind_run, validateStruct_run _ hf]
    rfl
  rw [M.tryCatch_run, hcall]
  simp

/-- a table of values -/
theorem value_any {env : Env} {m : EntityMeta} {tbl : Node} {names : List Str} {k l d : Nat}
    {head : Row} {rows : List Row} {ps : List (List Str × List Str × List Str)} (hf : m.figId ≠ []) (hov : env.overrides.lookup m.figId = none)
    (hn : columnNames tbl = names) (hL : ValuesPlaces names k l d) (hi : rowIter tbl = (head :: rows, none))
    (hth : containsTh head.node = true)
    (hr : List.Forall₂ (fun row p => RowTexts row [(k, p.1), (l, p.2.1), (d, p.2.2)]) rows ps)
    (hp : ∀ p ∈ ps, p.2.1 ≠ []) :
    ∃ outs hdr dup, List.Forall₂ (ValueRowOf env.labelOverrides (d ≠ l) m.figId) ps outs ∧
      (∀ x ∈ hdr, ∃ l, x = .lint l ∧ l.fig = m.figId ∧ l.err = .tblHdrErr) ∧
      (∀ x ∈ dup, ∃ l, x = .lint l ∧ l.fig = m.figId ∧ ValuesCode l.err) ∧
      ∀ fl, parseFigure env m tbl fl =
        ⟨hdr ++ outs.flatMap (·.1) ++ dup ++ [.ent ⟨m, .values (outs.map (·.2))⟩], false, .ok ()⟩ := by
  obtain ⟨mapping, g1, g3⟩ := values_places hL
  have hsz := size_pos tbl
  obtain ⟨n, hsn⟩ : ∃ n, tbl.size = n + 1 := ⟨tbl.size - 1, by omega⟩
  obtain ⟨outs, a1, a2⟩ := valueRows_any (parse := parseFig env n) (ov := env.labelOverrides) (fig := m.figId) (cols := ⟨k, l, d⟩) hf hr hp
  refine ⟨outs, headerIssues m.figId tbl, valuesEvs m.figId (outs.map (·.2)), a1, headerIssues_codes _ _, valuesEvs_codes _ _, fun fl => ?_⟩
  unfold parseFigure
  rw [hsn, parseFig]
  unfold onParseFig
  rw [M.bind_run, M.setFlag_run]
  simp only
  rw [M.bind_run, C15_headers m.figId tbl hf false]
  simp only [hn, hov, g1]
  unfold runExtractor
  simp only [g3, M.ofExcept_ok, pure_bind]
  have hcall : callExtractor env (parseFig env n) .value m ⟨k, l, d⟩ tbl false =
      ⟨outs.flatMap (·.1) ++ (valuesEvs m.figId (outs.map (·.2)) ++ [.ent ⟨m, .values (outs.map (·.2))⟩]), false, .ok ()⟩ := by
    unfold callExtractor valueCall
    simp only [hi]
    rw [valueRows, if_pos hth, M.bind_run, a2]
    simp only
    rw [M.bind_run, validateValues_run _ hf]
    rfl
  rw [M.tryCatch_run, hcall]
  simp

/-! ### C76 -/

/-- **C76** A bits or bytes figure of a Word document, which is not inside another table, through both stages, when the page is parsed to the
end, whatever the texts of its cells are. There is one entity for it, with its title and id. Each row says what becomes of it: which diagnostics are
reported, in which order, and which field there is, if there is one. The fields are in the order of the rows, for bits in the opposite order. There are no
other diagnostics about the figure but, before, those about names of columns, and, after, those about the layout. The label of a
field is in the first paragraph of the cell for the labels, which should not be empty; the range and the brief are from all texts of their cells.
It is `partial`, as it is for figures without an extractor of their own whose cells are plain. -/
theorem C76_layout_partial {f : WordFile} {stem : Str} {doc : WordDoc} {header : Str} {us : List HUnit} (h : Readable f stem doc header us)
    {layout : List Piece → Str} (hl : ∀ ps, Laid ps (layout ps)) {unzip : Str → WordFile} {bytes : Str} (hb : unzip bytes = f) :
    ∃ (page css : Str) (root : Node), (stageTools unzip layout).docx stem bytes = .ok (page, css) ∧ (stageTools unzip layout).xml page = .ok root ∧
      ∀ env tbl title fid names ty k l d ps, Outermost doc tbl →
        FigureTable doc tbl title fid names (ps.map fun p => [(k, p.1), (l, p.2.1), (d, p.2.2)]) → LayoutPlaces names ty k l d →
        (∀ p ∈ ps, p.2.1 ≠ [] ∧ ∀ s, Says p.1 s → ShortNumbers s) → env.overrides.lookup fid = none → (parseDoc env root).out = .ok () →
        ∃ outs hdr lay e, List.Forall₂ (StructRowOf (d ≠ l) fid) ps outs ∧
          e = Entity.mk ⟨some title, fid, none⟩ (.struct ty (layoutOrder ty (outs.filterMap (·.2)))) ∧
          hdr ++ outs.flatMap (·.1) ++ lay ++ [Ev.ent e] <:+: (parseDoc env root).evs ∧
          (∀ x ∈ hdr, ∃ l, x = .lint l ∧ l.fig = fid ∧ l.err = .tblHdrErr) ∧ ∀ x ∈ lay, ∃ l, x = .lint l ∧ l.fig = fid ∧ LayoutCode l.err := by
  obtain ⟨page, css, root, cls, g1, g2, g3⟩ := outermost_page h hl hb
  refine ⟨page, css, root, g1, g2, fun env tbl title fid names ty k l d ps ho hF hL hps hov hout => ?_⟩
  obtain ⟨n, hn, hnt, hsh⟩ := g3 tbl ho
  have hne : names ≠ [] := by
    obtain ⟨key, -, hk, -⟩ := hL
    obtain ⟨x, hx, -⟩ := hk.here
    exact List.ne_nil_of_mem (List.mem_of_getElem? hx)
  obtain ⟨a1, a2, ⟨head, rows, a3, a4, a5, a6⟩, a7⟩ := figure_run hF hne hnt hsh
  rw [List.forall₂_map_right_iff] at a6
  obtain ⟨outs, hdr, lay, y1, y2, y3, y4⟩ := struct_any (env := env) (m := ⟨some title, fid, none⟩) (tbl := removeFirstTr n) a1 hov a2 hL a3 a4 a5 a6 hps
  obtain ⟨j, hj⟩ := parseTables_infix hn 0 hout
  rw [a7 env _ y4 j] at hj
  exact ⟨outs, hdr, lay, _, y1, rfl, hj, y2, y3⟩

/-- **C76** The same for a table of values: each row gives one value. -/
theorem C76_values_partial {f : WordFile} {stem : Str} {doc : WordDoc} {header : Str} {us : List HUnit} (h : Readable f stem doc header us)
    {layout : List Piece → Str} (hl : ∀ ps, Laid ps (layout ps)) {unzip : Str → WordFile} {bytes : Str} (hb : unzip bytes = f) :
    ∃ (page css : Str) (root : Node), (stageTools unzip layout).docx stem bytes = .ok (page, css) ∧ (stageTools unzip layout).xml page = .ok root ∧
      ∀ env tbl title fid names k l d ps, Outermost doc tbl →
        FigureTable doc tbl title fid names (ps.map fun p => [(k, p.1), (l, p.2.1), (d, p.2.2)]) → ValuesPlaces names k l d →
        (∀ p ∈ ps, p.2.1 ≠ []) → env.overrides.lookup fid = none → (parseDoc env root).out = .ok () →
        ∃ outs hdr dup e, List.Forall₂ (ValueRowOf env.labelOverrides (d ≠ l) fid) ps outs ∧
          e = Entity.mk ⟨some title, fid, none⟩ (.values (outs.map (·.2))) ∧
          hdr ++ outs.flatMap (·.1) ++ dup ++ [Ev.ent e] <:+: (parseDoc env root).evs ∧
          (∀ x ∈ hdr, ∃ l, x = .lint l ∧ l.fig = fid ∧ l.err = .tblHdrErr) ∧ ∀ x ∈ dup, ∃ l, x = .lint l ∧ l.fig = fid ∧ ValuesCode l.err := by
  obtain ⟨page, css, root, cls, g1, g2, g3⟩ := outermost_page h hl hb
  refine ⟨page, css, root, g1, g2, fun env tbl title fid names k l d ps ho hF hL hps hov hout => ?_⟩
  obtain ⟨n, hn, hnt, hsh⟩ := g3 tbl ho
  have hne : names ≠ [] := by
    cases hL with
    | described d h1 h2 =>
      obtain ⟨x, hx, -⟩ := h2.here
      exact List.ne_nil_of_mem (List.mem_of_getElem? hx)
    | two x h1 h2 => rcases h1 with ⟨rfl, -⟩ | ⟨rfl, -⟩ <;> simp
  obtain ⟨a1, a2, ⟨head, rows, a3, a4, a5, a6⟩, a7⟩ := figure_run hF hne hnt hsh
  rw [List.forall₂_map_right_iff] at a6
  obtain ⟨outs, hdr, lay, y1, y2, y3, y4⟩ := value_any (env := env) (m := ⟨some title, fid, none⟩) (tbl := removeFirstTr n) a1 hov a2 hL a3 a4 a6 hps
  obtain ⟨j, hj⟩ := parseTables_infix hn 0 hout
  rw [a7 env _ y4 j] at hj
  exact ⟨outs, hdr, lay, _, y1, rfl, hj, y2, y3⟩

/-- **C76** A run on a Word document which ends well leaves a JSON file. For each such figure of the Word document the entity with its title, id
and fields or values is in that file. -/
theorem C76_in_json_partial {f : WordFile} {stem : Str} {doc : WordDoc} {header : Str} {us : List HUnit} (h : Readable f stem doc header us)
    {layout : List Piece → Str} (hl : ∀ ps, Laid ps (layout ps)) {unzip : Str → WordFile} {bytes : Str} (hb : unzip bytes = f)
    {w : Files} {s : FPath} (h1 : stem ≠ []) (h2 : s.name = stem ++ c!".docx") (h3 : w s = some bytes) (o : Opts) {out : FPath}
    (hrun : (runSpec (stageTools unzip layout) o w s).2 = .ok out) :
    ∃ text lints ents key rev, (runSpec (stageTools unzip layout) o w s).1 out = some text ∧
      readJson text = some (modelJson (openedInfo key rev ++ lints) ents) ∧
      ∀ tbl title fid names k l d ps, Outermost doc tbl →
        FigureTable doc tbl title fid names (ps.map fun p => [(k, p.1), (l, p.2.1), (d, p.2.2)]) →
        (∀ p ∈ ps, p.2.1 ≠ []) → ((key, rev), fid) ∉ ownExtractors →
        (∀ ty, LayoutPlaces names ty k l d → (∀ p ∈ ps, ∀ s, Says p.1 s → ShortNumbers s) →
          ∃ outs, List.Forall₂ (StructRowOf (d ≠ l) fid) ps outs ∧
            (Entity.mk ⟨some title, fid, none⟩ (.struct ty (layoutOrder ty (outs.filterMap (·.2))))).toJson ∈ ents) ∧
        (ValuesPlaces names k l d → ((key, rev), fid) ∉ ownLabels →
          ∃ outs, List.Forall₂ (ValueRowOf [] (d ≠ l) fid) ps outs ∧
            (Entity.mk ⟨some title, fid, none⟩ (.values (outs.map (·.2)))).toJson ∈ ents) := by
  obtain ⟨page, css, root, g1, g2, g3⟩ := C76_layout_partial h hl hb
  obtain ⟨page', css', root', g1', g2', g4⟩ := C76_values_partial h hl hb
  rw [g1] at g1'
  cases g1'
  rw [g2] at g2'
  cases g2'
  obtain ⟨k1, k2⟩ := runSpec_docx o h1 h2 h3 g1
  rw [g2] at k1 k2
  rcases run_cases o (.ok root) with ⟨root', j, c1, ⟨key, rev, -, c2, c3⟩, c4, c5⟩ | ⟨-, e, c2⟩
  · cases c1
    rw [c4] at k2
    rw [k2] at hrun
    injection hrun with hrun
    subst hrun
    refine ⟨_, _, _, key, rev, k1, by rw [c5, C61_roundtrip, c3], fun tbl title fid names k l d ps ho hF hps hf => ⟨fun ty hL hsn => ?_, fun hL hlo => ?_⟩⟩
    · obtain ⟨outs, hdr, lay, e, y1, y2, y3, -⟩ := g3 _ tbl title fid names ty k l d ps ho hF hL (fun p hp => ⟨hps p hp, hsn p hp⟩)
        (no_override hf o.skip) c2
      refine ⟨outs, y1, List.mem_map.2 ⟨e, ?_, by rw [y2]⟩⟩
      have : Ev.ent e ∈ (parseDoc (getParser key rev o.skip) root).evs := y3.subset (by simp)
      exact List.mem_filterMap.2 ⟨_, this, rfl⟩
    · obtain ⟨outs, hdr, lay, e, y1, y2, y3, -⟩ := g4 _ tbl title fid names k l d ps ho hF hL hps (no_override hf o.skip) c2
      refine ⟨outs, y1.imp ?_, List.mem_map.2 ⟨e, ?_, by rw [y2]⟩⟩
      · rintro p q ⟨val, label, content, b1, b2, b3, b4⟩
        refine ⟨val, label, content, b1, b2, b3, ?_⟩
        generalize q.1 = q1 at b4 ⊢
        generalize q.2 = q2 at b4 ⊢
        cases b4 with
        | ellipsis h1 => exact .ellipsis h1
        | override n b h1 h2 h3 => rw [no_label_override hlo] at h2; cases h2
        | field _ n b h1 h2 h3 h4 => exact .field _ n b h1 rfl h3 h4
      · have : Ev.ent e ∈ (parseDoc (getParser key rev o.skip) root).evs := y3.subset (by simp)
        exact List.mem_filterMap.2 ⟨_, this, rfl⟩
  · rw [c2] at k2
    rw [k2] at hrun
    cases hrun

end

/-! ### Examples -/

/-- a table of a Word document with a column for the labels, a range which is not one, a label which begins with a digit, and a note -/
def exLoose : Node := .elem wTbl [] [
  exTr [exCell [exGridSpan "3"] [exPara "Figure 9: Loose"]],
  exTr [exHead "1" "Bits", exHead "1" "Attribute", exHead "1" "Description"],
  exTr [exCell [] [exPara "low"], exCell [] [exPara "Mode", exPara "(old)"], exCell [] [exPara "The mode."]],
  exTr [exCell [] [exPara "3:7"], exCell [] [exPara "2nd Mode"], exCell [] []],
  exTr [exCell [] [exPara "Note 1"], exCell [] [exPara "-"], exCell [] [exPara "not a field"]]]

/-- its cells -/
def exLooseCell (i j : Nat) : LNode :=
  match (exLoose.childs wTr)[i]? with
  | some tr => match (tr.childs wTc)[j]? with
    | some tc => ⟨[0, 0, i, j], tc⟩
    | none => ⟨[], .text []⟩
  | none => ⟨[], .text []⟩

def exLooseRow (i : Nat) : List WCell := [⟨exLooseCell i 0, 0, 1, false⟩, ⟨exLooseCell i 1, 1, 1, false⟩, ⟨exLooseCell i 2, 2, 1, false⟩]

def exLooseRows : List (List WCell) := [[⟨exLooseCell 0 0, 0, 3, false⟩], exLooseRow 1, exLooseRow 2, exLooseRow 3, exLooseRow 4]

/-- the texts of its cells -/
def exLooseTexts : List (List Str × List Str × List Str) := [([c!"low"], [c!"Mode", c!"(old)"], [c!"The mode."]), ([c!"3:7"], [c!"2nd Mode"], []),
  ([c!"Note 1"], [c!"-"], [c!"not a field"])]

theorem exLoose_table : WordTable ⟨[0, 0], exLoose⟩ exLooseRows := by
  have hn : ∀ (s : Str) (n : Nat), s = c!"1" ∧ n = 1 ∨ s = c!"3" ∧ n = 3 → Numeral s n := by
    rintro s n (⟨rfl, rfl⟩ | ⟨rfl, rfl⟩) <;> exact ⟨by decide, by decide, by decide, by decide⟩
  constructor
  · rfl
  · intro row hr c hc
    simp only [exLooseRows, exLooseRow, List.mem_cons, List.not_mem_nil, or_false] at hr
    rcases hr with rfl | rfl | rfl | rfl | rfl <;> simp only [List.mem_cons, List.not_mem_nil, or_false] at hc
    · subst hc
      exact ⟨by simp, .inr ⟨c!"3", rfl, hn _ _ (by simp)⟩, by simp, fun _ => .inl rfl⟩
    · rcases hc with rfl | rfl | rfl <;> exact ⟨by simp, .inr ⟨c!"1", rfl, hn _ _ (by simp)⟩, by simp, fun _ => .inl rfl⟩
    all_goals rcases hc with rfl | rfl | rfl <;> exact ⟨by simp, .inl ⟨rfl, rfl⟩, by simp, fun _ => .inl rfl⟩
  · intro row hr before c after h
    have h2 : widthOf before = widthOf (row.take before.length) := by rw [h, List.take_left]
    have h3 : row[before.length]? = some c := by rw [h]; simp
    simp only [exLooseRows, exLooseRow, List.mem_cons, List.not_mem_nil, or_false] at hr
    generalize before.length = n at h2 h3
    rcases hr with rfl | rfl | rfl | rfl | rfl <;> match n with
      | 0 => cases h3; rw [h2]; rfl
      | 1 => cases h3; try (rw [h2]; rfl)
      | 2 => cases h3; try (rw [h2]; rfl)
      | n + 3 => simp at h3
  · intro row hr c hc
    cases hr
    simp only [List.mem_cons, List.not_mem_nil, or_false] at hc
    subst hc; rfl
  · intro i above row h1 h2 c hc hcc
    have hm := List.mem_of_getElem? h2
    simp only [exLooseRows, exLooseRow, List.mem_cons, List.not_mem_nil, or_false] at hm
    rcases hm with rfl | rfl | rfl | rfl | rfl <;> simp only [List.mem_cons, List.not_mem_nil, or_false] at hc
    · subst hc; cases hcc
    all_goals rcases hc with rfl | rfl | rfl <;> cases hcc

/-- the hypotheses of C76: the table of the example is a figure, with its columns -/
theorem exLoose_ok : letI := Uni.ascii
    FigureTable (exDocOf [exLoose]) ⟨[0, 0], exLoose⟩ c!"Figure 9: Loose" c!"9" [c!"bits", c!"attribute", c!"description"]
      (exLooseTexts.map fun p => [(0, p.1), (1, p.2.1), (2, p.2.2)]) ∧
    LayoutPlaces [c!"bits", c!"attribute", c!"description"] .bits 0 1 2 := by
  let _ := Uni.ascii
  have hl : 4 < intLimit := by
    unfold intLimit
    calc 4 < 10 ^ 1 := by decide
      _ ≤ 10 ^ 4300 := Nat.pow_le_pow_right (by decide) (by decide)
  have hplain : ∀ i j, i < 5 → j < 3 → ParaCell (exDocOf [exLoose]) (exLooseCell i j).node := by
    have : ∀ i < 5, ∀ j < 3, exPlainCell (exLooseCell i j).node = true := by decide +kernel
    exact fun i j hi hj => exPlainCell_ok (this i hi j hj)
  have horigin : ∀ (i : Nat) row x, exLooseRows[i]? = some row → x ∈ row → Origin exLooseRows i x i x := by
    intro i row x hi hx
    refine ⟨Nat.le_refl _, ⟨row, hi, hx⟩, ?_, rfl, rfl, fun _ => rfl, fun d h1 h2 => absurd h1 (by omega)⟩
    have : ∀ row ∈ exLooseRows, ∀ c ∈ row, c.cont = false := by decide +kernel
    exact this row (List.mem_of_getElem? hi) x hx
  have hgrey : ∀ a b, a = exLooseCell 1 b → b < 3 → Grey a.node := by
    rintro a b rfl hb
    match b with
    | 0 => exact ⟨'D', '9', rfl, by decide⟩
    | 1 => exact ⟨'D', '9', rfl, by decide⟩
    | 2 => exact ⟨'D', '9', rfl, by decide⟩
    | b + 3 => omega
  refine ⟨⟨⟨exLooseCell 0 0, 0, 3, false⟩, exLooseRow 1, [exLooseRow 2, exLooseRow 3, exLooseRow 4], 3,
    c!"Figure 9: Loose", exLoose_table, ?_, hplain 0 0 (by decide) (by decide), by decide +kernel, by decide +kernel, ?_, ?_, rfl, ?_⟩,
    c!"bits", .bits (by decide) (by decide) (by decide) (by decide) (by decide), readPos_of (by decide), readPos_of (by decide), readPos_of (by decide)⟩
  · constructor
    · intro row hr
      cases List.mem_singleton.1 hr
      exact ⟨_, List.mem_cons_self, rfl, hgrey _ 0 rfl (by omega)⟩
    · intro row hr c hc ho
      simp only [List.mem_cons, List.not_mem_nil, or_false] at hr
      rintro ⟨a, b, h, -⟩
      rcases hr with rfl | rfl | rfl <;> simp only [exLooseRow, List.mem_cons, List.not_mem_nil, or_false] at hc <;>
        rcases hc with rfl | rfl | rfl <;> cases h
    · decide +kernel
    · decide +kernel
    · decide +kernel
    · exact ⟨Nat.lt_of_succ_lt hl, hl⟩
  · exact ⟨c!" ", c!": Loose", rfl, by decide, by decide, by decide, by decide, fun c r h => by cases h; exact .inr (.inr rfl)⟩
  · refine .cons ⟨rfl, rfl, hgrey _ 0 rfl (by omega), hplain 1 0 (by decide) (by decide),
      c!"Bits", by decide +kernel, by decide +kernel⟩
      (.cons ⟨rfl, rfl, hgrey _ 1 rfl (by omega), hplain 1 1 (by decide) (by decide),
      c!"Attribute", by decide +kernel, by decide +kernel⟩
      (.cons ⟨rfl, rfl, hgrey _ 2 rfl (by omega), hplain 1 2 (by decide) (by decide),
      c!"Description", by decide +kernel, by decide +kernel⟩ .nil))
  · have hc : ∀ i j, i < 3 → j < 3 → ∀ c, (exLooseRow (i + 2))[j]? = some c → CellSays (exDocOf [exLoose])
        ([⟨exLooseCell 0 0, 0, 3, false⟩] :: exLooseRow 1 :: [exLooseRow 2, exLooseRow 3, exLooseRow 4]) (i + 2) c (cellTexts c.tc.node) := by
      intro i j hi hj c hc
      refine ⟨i + 2, c, horigin (i + 2) (exLooseRow (i + 2)) c ?_ (List.mem_of_getElem? hc), ?_, rfl⟩
      · match i with
        | 0 => rfl
        | 1 => rfl
        | 2 => rfl
        | i + 3 => omega
      · match j with
        | 0 => cases hc; exact hplain _ _ (by omega) (by decide)
        | 1 => cases hc; exact hplain _ _ (by omega) (by decide)
        | 2 => cases hc; exact hplain _ _ (by omega) (by decide)
        | j + 3 => omega
    have ht : (exLooseTexts.map fun p => [(0, p.1), (1, p.2.1), (2, p.2.2)]) = [0, 1, 2].map fun i => [0, 1, 2].map fun j =>
        (j, cellTexts (exLooseCell (i + 2) j).node) := by decide +kernel
    intro i row p h1 h2 q hq
    rw [ht, List.getElem?_map] at h2
    have hi : i < 3 := by have := (List.getElem?_eq_some_iff.1 h1).1; simpa using this
    have hrow : row = exLooseRow (i + 2) := by
      match i with
      | 0 => cases h1; rfl
      | 1 => cases h1; rfl
      | 2 => cases h1; rfl
      | i + 3 => omega
    have hp : p = [0, 1, 2].map fun j => (j, cellTexts (exLooseCell (i + 2) j).node) := by
      match i with
      | 0 => cases h2; rfl
      | 1 => cases h2; rfl
      | 2 => cases h2; rfl
      | i + 3 => omega
    subst hrow hp
    simp only [List.map_cons, List.map_nil, List.mem_cons, List.not_mem_nil, or_false] at hq
    rw [Nat.add_comm 2 i]
    rcases hq with rfl | rfl | rfl
    · exact ⟨_, rfl, hc i 0 hi (by decide) _ rfl⟩
    · exact ⟨_, rfl, hc i 1 hi (by decide) _ rfl⟩
    · exact ⟨_, rfl, hc i 2 hi (by decide) _ rfl⟩

/-- the other hypotheses of C76 -/
example : letI := Uni.ascii
    (∀ p ∈ exLooseTexts, p.2.1 ≠ [] ∧ ∀ s, Says p.1 s → ShortNumbers s) := by
  let _ := Uni.ascii
  have : ∀ p ∈ exLooseTexts, p.2.1 ≠ [] ∧ (p.1.flatten.filter isDigit).length ≤ 4300 := by decide +kernel
  exact fun p hp => ⟨(this p hp).1, fun s hs => hs.short (this p hp).2⟩

/-- the run on the example: two fields, the note is none, and what is reported -/
example : letI := Uni.ascii
    ((parseWord (exDocOf [exLoose])).toOption.bind fun us =>
      (readXml (plainText (renderPage c!"1.0" c!"NVMe" (some c!"2.0") c!"spec" us).1)).map fun p =>
        ((entities (parseDoc (envPlain false) p).evs).flatMap (fun e => match e.body with
          | .struct _ fs => fs.map (fun (f : StructField) => f.label)
          | .values _ => [])) ++
         (allDiagnostics (parseDoc (envPlain false) p).evs).map (fun (l : LintEntry) => l.err.code)) =
    some [c!"2m", c!"m", c!"R1001", c!"L1003", c!"R1002", c!"L1003", c!"L1004"] := by decide +kernel

/-- what becomes of rows: the text `low` is kept as it is, and reported; the label is made of initials, and reported; a note is not a field -/
example : letI := Uni.ascii
    StructRowIs True c!"9" c!"low" c!"Mode" c!"The mode."
      ([.lint (issue .rangeInvalid c!"9" (some c!"low"))] ++ [.lint (issue .lblImputed c!"9" (some c!"low"))])
      (some ⟨lower c!"M", .raw c!"low", none⟩) ∧
    StructRowIs True c!"9" c!"Note 1" c!"-" c!"not a field" [] none ∧
    StructRowIs True c!"9" c!"low" c!"x" c!"reserved" [.lint (issue .rangeInvalid c!"9" (some c!"low"))] (some ⟨RESERVED, .raw c!"low", none⟩) := by
  let _ := Uni.ascii
  have hm : ∀ t, isSpecialCase t = false → ¬ MarkText t := fun t h hm => by rw [(isSpecialCase_iff t).2 hm] at h; cases h
  refine ⟨.field [.lint (issue .rangeInvalid c!"9" (some c!"low"))] _ (.raw c!"low") c!"M" none ?_ (.text (by decide)) ⟨c!"M", some .lblImputed, .inr ⟨trivial, .initials _ (by decide)
      ⟨[([], c!"Mode")], [], ?_, by simp, by decide, by decide⟩⟩, (C06_normal_iff _ _).1 (by decide), ⟨[], rfl, .inl ⟨.inl ⟨'M', [], rfl, by decide, by decide⟩, rfl⟩⟩⟩ ?_,
    .skip ((isSpecialCase_iff _).1 (by decide)),
    .mark _ _ _ (hm _ (by decide)) (.inr ((isSpecialCase_iff _).1 (by decide))) (.text (by decide)) (.inr ⟨by decide, .inl ⟨by decide, rfl⟩⟩)⟩
  · intro t ht
    simp only [List.mem_cons, List.not_mem_nil, or_false] at ht
    rcases ht with rfl | rfl | rfl <;> exact hm _ (by decide)
  · simp only [Spelling]
    decide
  · exact (C05_brief_exact _ _).1 (by decide +kernel)

end Spex
