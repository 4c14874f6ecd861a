import Verif.Lemmas.Fuel
import Verif.Lemmas.Monad
import Verif.Lemmas.FigId
import Verif.Model.Ascii
import Verif.Props.Headers
import Verif.Props.RowIter
/-
C99: in which order the columns of a figure stand, and which further columns it has, does not change the entities made of it.
-/
set_option autoImplicit false
namespace Spex

/-! ### Specification -/

/-- headings of columns with ranges or values -/
def keyHeadings : List Str := [c!"bits", c!"bytes", c!"value", c!"values"]

/-- headings of columns with descriptions -/
def contentHeadings : List Str := [c!"definition", c!"description", c!"power scope"]

/-- headings of columns with labels or descriptions -/
def textHeadings : List Str := c!"attribute" :: contentHeadings

/-- two lists of headings name the same columns with ranges, values, labels and descriptions: those with ranges and values are in the same
order, and those with labels and descriptions are, but the former may be anywhere among the latter, and there may be any other columns -/
structure SameColumns (ha hb : List Str) : Prop where
  keys : ha.filter (· ∈ keyHeadings) = hb.filter (· ∈ keyHeadings)
  texts : ha.filter (· ∈ textHeadings) = hb.filter (· ∈ textHeadings)
  described : ∃ h ∈ ha, h ∈ contentHeadings

/-- two rows are the same below the headings which count -/
inductive SameRow (ha hb : List Str) : Node → Node → Prop where
  /-- rows of headings, none of which goes over more than one column -/
  | heading (a b : Node) (a1 : a.childs c!"th" ≠ []) (b1 : b.childs c!"th" ≠ []) (a2 : ∀ e ∈ a.elems, e.attr? c!"colspan" = none)
      (b2 : ∀ e ∈ b.elems, e.attr? c!"colspan" = none) : SameRow ha hb a b
  /-- one row of headings, or one with a single cell, as for notes -/
  | same (r : Node) (h : r.childs c!"th" ≠ [] ∨ (r.childs c!"td").length = 1) : SameRow ha hb r r
  /-- rows of cells: below the same heading is the same cell, with a paragraph for labels and descriptions -/
  | cells (a b : Node) (a1 : a.childs c!"th" = []) (b1 : b.childs c!"th" = [])
      (h : ∀ (i j : Nat) (name : Str), ha[i]? = some name → hb[j]? = some name → name ∈ keyHeadings ∨ name ∈ textHeadings →
        ∃ c, (a.childs c!"td")[i]? = some c ∧ (b.childs c!"td")[j]? = some c ∧ (name ∈ textHeadings → c.childs c!"p" ≠ [])) :
      SameRow ha hb a b

variable [Uni]

/-- two figures (without their titles) are the same but for the order of their columns and columns which do not count. The rows are those
of the grid which is seen, see C11. -/
structure SameFigure (a b : Node) : Prop where
  columns : SameColumns (columnNames a) (columnNames b)
  rows : List.Forall₂ (SameRow (columnNames a) (columnNames b)) ((rowIter a).1.map Row.node) ((rowIter b).1.map Row.node)
  whole : (rowIter a).2 = (rowIter b).2

/-- two tables of a page are the same, or they have the same title (in a row of its own on top, which does not hold a table), the figure has
no extractor of its own, and the rest is the same but for its columns -/
inductive SameTable (env : Env) : Node → Node → Prop where
  | same (a : Node) : SameTable env a a
  | columns (tr : Node) (as bs : List (Str × Str)) (pre pre' ks ls : List Node) (ht : tr.hasTag c!"tr" = true)
      (hp : ∀ n ∈ pre, n.isElem = false) (hp' : ∀ n ∈ pre', n.isElem = false)
      (hw : ∀ td ∈ tr.childs c!"td", ∀ x ∈ td.elems.head?, x.hasTag c!"table" = false)
      (ho : ∀ title id, figureTitle tr = some title → figureId title = some id → env.overrides.lookup id = none)
      (h : SameFigure (.elem c!"table" as (pre ++ ks)) (.elem c!"table" bs (pre' ++ ls))) :
      SameTable env (.elem c!"table" as (pre ++ tr :: ks)) (.elem c!"table" bs (pre' ++ tr :: ls))

/-- an entity or diagnostic, without what is said about the headings themselves -/
def besideHeadings : Ev → Option Ev
  | .ent e => some (.ent e)
  | .lint l => if l.err = .tblHdrErr then none else if l.err = .tblSkipped then some (.lint { l with ctx := [] }) else some (.lint l)

/-! ### Headings -/

omit [Uni] in
theorem firstHdr_filter {cands names : List Str} (hs : ∀ c ∈ cands, c ∈ names) (hdrs : List Str) :
    firstHdr cands hdrs = firstHdr cands (hdrs.filter (· ∈ names)) := by
  unfold firstHdr
  induction hdrs with
  | nil => rfl
  | cons x xs ih =>
    rw [List.find?_cons, List.filter_cons]
    by_cases hx : cands.contains x = true
    · rw [hx, if_pos (by simpa using hs x (by simpa using hx)), List.find?_cons, hx]
    · rw [Bool.not_eq_true] at hx
      rw [hx]
      simp only
      split
      · rw [List.find?_cons, hx]; exact ih
      · exact ih

omit [Uni] in
theorem firstHdr_mem {cands hdrs : List Str} {h : Str} (hf : firstHdr cands hdrs = some h) : h ∈ hdrs ∧ h ∈ cands :=
  ⟨List.mem_of_find?_eq_some hf, by simpa using List.find?_some hf⟩

omit [Uni] in
theorem SameColumns.key {ha hb : List Str} (h : SameColumns ha hb) {cands : List Str} (hs : ∀ c ∈ cands, c ∈ keyHeadings) :
    firstHdr cands ha = firstHdr cands hb := by
  rw [firstHdr_filter hs ha, firstHdr_filter hs hb, h.keys]

omit [Uni] in
theorem SameColumns.text {ha hb : List Str} (h : SameColumns ha hb) {cands : List Str} (hs : ∀ c ∈ cands, c ∈ textHeadings) :
    firstHdr cands ha = firstHdr cands hb := by
  rw [firstHdr_filter hs ha, firstHdr_filter hs hb, h.texts]

omit [Uni] in
theorem firstHdr_some {cands hdrs : List Str} (h : ∃ x ∈ hdrs, x ∈ cands) : ∃ y, firstHdr cands hdrs = some y := by
  obtain ⟨x, hx, hc⟩ := h
  unfold firstHdr
  cases hf : hdrs.find? (fun h => cands.contains h) with
  | some y => exact ⟨y, rfl⟩
  | none =>
    have := List.find?_eq_none.1 hf x hx
    simp [hc] at this

omit [Uni] in
theorem SameColumns.described' {ha hb : List Str} (h : SameColumns ha hb) : ∃ x ∈ hb, x ∈ contentHeadings := by
  obtain ⟨x, hx, hc⟩ := h.described
  refine ⟨x, ?_, hc⟩
  have : x ∈ ha.filter (· ∈ textHeadings) := List.mem_filter.2 ⟨hx, decide_eq_true (List.mem_cons_of_mem _ hc)⟩
  rw [h.texts] at this
  exact (List.mem_filter.1 this).1

omit [Uni] in
/-- with a column of descriptions the fallback for two columns is not used -/
theorem valueCanApply0_described {hdrs : List Str} (h : ∃ x ∈ hdrs, x ∈ contentHeadings) : valueCanApply0 hdrs =
    ⟨firstHdr valueHdrs hdrs, firstHdr valueLabelHdrs hdrs, firstHdr valueContentHdrs hdrs⟩ := by
  obtain ⟨y, hy⟩ := firstHdr_some h
  obtain ⟨z, hz⟩ : ∃ z, firstHdr valueLabelHdrs hdrs = some z := by
    obtain ⟨x, hx, hc⟩ := h
    exact firstHdr_some ⟨x, hx, List.mem_cons_of_mem _ hc⟩
  rw [show contentHeadings = valueContentHdrs from rfl] at hy
  unfold valueCanApply0
  simp only [hy, hz]
  cases hk : firstHdr valueHdrs hdrs with
  | none => simp [mappingIncomplete]
  | some k => simp [mappingIncomplete]

omit [Uni] in
theorem SameColumns.canApply {ha hb : List Str} (h : SameColumns ha hb) (c : Cls) (hc : c ∈ extractors) :
    c.canApply ha = c.canApply hb := by
  have h1 : c = .struct bytesCls ∨ c = .value ∨ c = .struct bitsCls := by simpa [extractors] using hc
  have hs : ∀ x ∈ bitsCls.labelHdrs, x ∈ textHeadings := by decide
  have hs' : ∀ x ∈ bitsCls.contentHdrs, x ∈ textHeadings := by decide
  rcases h1 with rfl | rfl | rfl
  · unfold Cls.canApply StructCls.canApply0
    simp only
    rw [h.key (by decide : ∀ x ∈ bytesCls.rangeHdrs, x ∈ keyHeadings), h.text (by decide : ∀ x ∈ bytesCls.labelHdrs, x ∈ textHeadings),
      h.text (by decide : ∀ x ∈ bytesCls.contentHdrs, x ∈ textHeadings)]
  · unfold Cls.canApply
    simp only
    rw [valueCanApply0_described h.described, valueCanApply0_described h.described',
      h.key (by decide : ∀ x ∈ valueHdrs, x ∈ keyHeadings), h.text (by decide : ∀ x ∈ valueLabelHdrs, x ∈ textHeadings),
      h.text (by decide : ∀ x ∈ valueContentHdrs, x ∈ textHeadings)]
  · unfold Cls.canApply StructCls.canApply0
    simp only
    rw [h.key (by decide : ∀ x ∈ bitsCls.rangeHdrs, x ∈ keyHeadings), h.text hs, h.text hs']

omit [Uni] in
theorem SameColumns.chosen {ha hb : List Str} (h : SameColumns ha hb) : firstApplicable extractors ha = firstApplicable extractors hb := by
  have : ∀ cs : List Cls, (∀ c ∈ cs, c ∈ extractors) → firstApplicable cs ha = firstApplicable cs hb := by
    intro cs
    induction cs with
    | nil => intro _; rfl
    | cons c cs ih =>
      intro hc
      rw [firstApplicable, firstApplicable, h.canApply c (hc c List.mem_cons_self), ih (fun x hx => hc x (List.mem_cons_of_mem _ hx))]
  exact this _ (fun c hc => hc)

/-! ### Columns -/

omit [Uni] in
theorem colNdx_some {hdrs : List Str} {h : Str} (hh : h ∈ hdrs) : ∃ k, colNdx hdrs (some h) = .ok k ∧ hdrs[k]? = some h := by
  rcases colNdxGo_last 0 hdrs h with ⟨-, h2⟩ | ⟨k, h1, h2, -⟩
  · exact absurd hh h2
  · refine ⟨k, ?_, h2⟩
    unfold colNdx
    simp only [h1, Nat.zero_add]

/-- column numbers which belong to headings -/
def Cols.Named (cols : Cols) (hdrs : List Str) (k l c : Str) : Prop :=
  hdrs[cols.key]? = some k ∧ hdrs[cols.label]? = some l ∧ hdrs[cols.content]? = some c ∧ (cols.content = cols.label ↔ c = l)

omit [Uni] in
theorem mkCols_named {hdrs : List Str} {k l c : Str} (hk : k ∈ hdrs) (hl : l ∈ hdrs) (hc : c ∈ hdrs) :
    ∃ cols, mkCols hdrs ⟨some k, some l, some c⟩ = .ok cols ∧ cols.Named hdrs k l c := by
  obtain ⟨i, h1, h2⟩ := colNdx_some hk
  obtain ⟨j, h3, h4⟩ := colNdx_some hl
  obtain ⟨n, h5, h6⟩ := colNdx_some hc
  refine ⟨⟨i, j, n⟩, by simp [mkCols, h1, h3, h5, bind, Except.bind, pure, Except.pure], h2, h4, h6, ?_, ?_⟩
  · intro h
    simp only at h
    rw [h, h4] at h6
    exact (Option.some.inj h6).symm
  · rintro rfl
    rw [h3] at h5
    exact (Except.ok.inj h5).symm

omit [Uni] in
/-- what an extractor reads: a key and two texts, the key not from the column of the content -/
theorem canApply_names {hdrs : List Str} {c : Cls} (hc : c ∈ extractors) (hd : ∃ x ∈ hdrs, x ∈ contentHeadings) {mapping : Mapping}
    (h : c.canApply hdrs = some mapping) : ∃ k l t, mapping = ⟨some k, some l, some t⟩ ∧ (k ∈ hdrs ∧ k ∈ keyHeadings) ∧
      (l ∈ hdrs ∧ l ∈ textHeadings) ∧ t ∈ hdrs ∧ t ∈ textHeadings := by
  have key : ∀ {ks ls ts : List Str}, (∀ x ∈ ks, x ∈ keyHeadings) → (∀ x ∈ ls, x ∈ textHeadings) → (∀ x ∈ ts, x ∈ textHeadings) →
      (if mappingIncomplete ⟨firstHdr ks hdrs, firstHdr ls hdrs, firstHdr ts hdrs⟩ then none
        else some (⟨firstHdr ks hdrs, firstHdr ls hdrs, firstHdr ts hdrs⟩ : Mapping)) = some mapping →
      ∃ k l t, mapping = ⟨some k, some l, some t⟩ ∧ (k ∈ hdrs ∧ k ∈ keyHeadings) ∧
        (l ∈ hdrs ∧ l ∈ textHeadings) ∧ t ∈ hdrs ∧ t ∈ textHeadings := by
    intro ks ls ts hk hl ht h
    cases h1 : firstHdr ks hdrs with
    | none => simp [h1, mappingIncomplete] at h
    | some k =>
      cases h2 : firstHdr ls hdrs with
      | none => simp [h2, mappingIncomplete] at h
      | some l =>
        cases h3 : firstHdr ts hdrs with
        | none => simp [h3, mappingIncomplete] at h
        | some t =>
          simp only [h1, h2, h3, mappingIncomplete, Option.isNone_some, Bool.or_self, Bool.false_eq_true, if_false,
            Option.some.injEq] at h
          refine ⟨k, l, t, h.symm, ⟨(firstHdr_mem h1).1, hk _ (firstHdr_mem h1).2⟩, ⟨(firstHdr_mem h2).1, hl _ (firstHdr_mem h2).2⟩,
            (firstHdr_mem h3).1, ht _ (firstHdr_mem h3).2⟩
  have h1 : c = .struct bytesCls ∨ c = .value ∨ c = .struct bitsCls := by simpa [extractors] using hc
  rcases h1 with rfl | rfl | rfl
  · exact key (by decide) (by decide) (by decide) h
  · unfold Cls.canApply at h
    simp only at h
    rw [valueCanApply0_described hd] at h
    exact key (by decide) (by decide) (by decide) h
  · exact key (by decide) (by decide) (by decide) h

/-! ### Rows -/

omit [Uni] in
theorem key_ne_text {k t : Str} (hk : k ∈ keyHeadings) (ht : t ∈ textHeadings) : k ≠ t := by
  rintro rfl
  have h : ∀ x ∈ keyHeadings, x ∉ textHeadings := by decide
  exact h k hk ht

omit [Uni] in
theorem named_ne {hdrs : List Str} {cols : Cols} {k l c : Str} (hn : cols.Named hdrs k l c) (hk : k ∈ keyHeadings)
    (hc : c ∈ textHeadings) : cols.key ≠ cols.content := by
  intro h
  have := hn.1
  rw [h, hn.2.2.1] at this
  exact key_ne_text hk hc (Option.some.inj this).symm

omit [Uni] in
theorem nthChild_td (row : Node) (i : Nat) : row.nthChild tTd (i + 1) = (row.childs tTd)[i]? := rfl

omit [Uni] in
theorem one_cell {row : Node} (h1 : (row.childs tTd).length = 1) {cols : Cols} (hne : cols.key ≠ cols.content) :
    (row.nthChild tTd (cols.key + 1) = none ∨ row.nthChild tTd (cols.content + 1) = none) ∧
      extractFields cols row = .error .xpathNotFound := by
  have hn : row.nthChild tTd (cols.key + 1) = none ∨ row.nthChild tTd (cols.content + 1) = none := by
    rw [nthChild_td, nthChild_td, List.getElem?_eq_none_iff, List.getElem?_eq_none_iff]
    omega
  refine ⟨hn, ?_⟩
  unfold extractFields
  cases hk : row.nthChild tTd (cols.key + 1) with
  | none => rfl
  | some x =>
    rw [hk] at hn
    rw [hn.resolve_left (by simp)]
    rfl

section
variable {parse : ParseFn} {ha hb : List Str} {ca cb : Cols} {k l c : Str}

/-- what the proofs about two extractors share -/
structure Twins (ha hb : List Str) (ca cb : Cols) (k l c : Str) : Prop where
  a : ca.Named ha k l c
  b : cb.Named hb k l c
  key : k ∈ keyHeadings
  label : l ∈ textHeadings
  content : c ∈ textHeadings

omit [Uni] in
theorem Twins.sep (h : Twins ha hb ca cb k l c) : (ca.content = ca.label) = (cb.content = cb.label) :=
  propext (h.a.2.2.2.trans h.b.2.2.2.symm)

omit [Uni] in
/-- below the headings which count is the same cell -/
theorem Twins.cells (h : Twins ha hb ca cb k l c) {a b : Node}
    (hh : ∀ (i j : Nat) (name : Str), ha[i]? = some name → hb[j]? = some name → name ∈ keyHeadings ∨ name ∈ textHeadings →
        ∃ c, (a.childs c!"td")[i]? = some c ∧ (b.childs c!"td")[j]? = some c ∧ (name ∈ textHeadings → c.childs c!"p" ≠ [])) :
    (∃ x, a.nthChild tTd (ca.key + 1) = some x ∧ b.nthChild tTd (cb.key + 1) = some x) ∧
    (∃ x p, a.nthChild tTd (ca.label + 1) = some x ∧ b.nthChild tTd (cb.label + 1) = some x ∧ x.nthChild tP 1 = some p) ∧
    ∃ x, a.nthChild tTd (ca.content + 1) = some x ∧ b.nthChild tTd (cb.content + 1) = some x := by
  obtain ⟨x, hx, hx', -⟩ := hh _ _ _ h.a.1 h.b.1 (.inl h.key)
  obtain ⟨y, hy, hy', hp⟩ := hh _ _ _ h.a.2.1 h.b.2.1 (.inr h.label)
  obtain ⟨z, hz, hz', -⟩ := hh _ _ _ h.a.2.2.1 h.b.2.2.1 (.inr h.content)
  obtain ⟨p, ps, hps⟩ := List.exists_cons_of_ne_nil (hp h.label)
  refine ⟨⟨x, hx, hx'⟩, ⟨y, p, hy, hy', ?_⟩, z, hz, hz'⟩
  unfold Node.nthChild
  rw [show y.childs tP = p :: ps from hps]
  rfl

theorem Twins.structRow (h : Twins ha hb ca cb k l c) (fig : Str) (dyn : Bool) {ra rb : Row} (hr : SameRow ha hb ra.node rb.node)
    (ht : containsTh ra.node = false) :
    structRow parse fig .default ca dyn ra = structRow parse fig .default cb dyn rb := by
  have hpl : ∀ lbl key, parseLabel fig ca lbl key = parseLabel fig cb lbl key := by
    intro lbl key
    unfold parseLabel extractLabel
    simp only [ne_eq, h.sep]
  obtain ⟨na, fa⟩ := ra
  obtain ⟨nb, fb⟩ := rb
  simp only at hr ht
  cases hr with
  | heading _ a1 =>
    exact absurd ht (by unfold containsTh; simpa using a1)
  | same hs =>
    have h1 : (na.childs tTd).length = 1 := hs.resolve_left (fun hx => by unfold containsTh at ht; exact hx (by simpa using ht))
    unfold Spex.structRow
    rw [(one_cell h1 (named_ne h.a h.key h.content)).2, (one_cell h1 (named_ne h.b h.key h.content)).2]
    simp only [rowErrHandler]
  | cells _ a1 b1 hh =>
    obtain ⟨⟨x, hx, hx'⟩, ⟨y, p, hy, hy', hp⟩, ⟨z, hz, hz'⟩⟩ := h.cells hh
    have hf : ∀ (cols : Cols) (n : Node), n.nthChild tTd (cols.key + 1) = some x → n.nthChild tTd (cols.label + 1) = some y →
        n.nthChild tTd (cols.content + 1) = some z → extractFields cols n = .ok (x.toText, z.toText, p.toText) := by
      intro cols n h1 h2 h3
      unfold extractFields
      rw [h1, h2, h3, Option.bind_some, hp]
      rfl
    unfold Spex.structRow
    simp only
    rw [hf ca na hx hy hz, hf cb nb hx' hy' hz', hz, hz']
    simp only [hpl]

theorem Twins.valueRow (h : Twins ha hb ca cb k l c) (ov : List ((Str × Str) × Str)) (fig : Str) {ra rb : Row}
    (hr : SameRow ha hb ra.node rb.node) (ht : containsTh ra.node = false) :
    valueRow parse ov fig ca ra = valueRow parse ov fig cb rb := by
  obtain ⟨na, fa⟩ := ra
  obtain ⟨nb, fb⟩ := rb
  simp only at hr ht
  cases hr with
  | heading _ a1 =>
    exact absurd ht (by unfold containsTh; simpa using a1)
  | same hs =>
    have h1 : (na.childs tTd).length = 1 := hs.resolve_left (fun hx => by unfold containsTh at ht; exact hx (by simpa using ht))
    have hv : ∀ (cols : Cols) (f : List Node), (na.nthChild tTd (cols.key + 1) = none ∨ na.nthChild tTd (cols.content + 1) = none) →
        Spex.valueRow parse ov fig cols ⟨na, f⟩ = if startsWith (lower na.toText) ELLIPSIS then Pure.pure (.field ⟨ELLIPSIS, ELLIPSIS, none⟩)
          else if startsWith (lower na.toText) c!"notes:" then Pure.pure (.stop none) else Pure.pure .skip := by
      intro cols f hn
      unfold Spex.valueRow
      rcases hn with hn | hn <;> simp only [hn]
      cases na.nthChild tTd (cols.key + 1) <;> rfl
    rw [hv ca fa (one_cell h1 (named_ne h.a h.key h.content)).1, hv cb fb (one_cell h1 (named_ne h.b h.key h.content)).1]
  | cells _ a1 b1 hh =>
    obtain ⟨⟨x, hx, hx'⟩, ⟨y, p, hy, hy', hp⟩, ⟨z, hz, hz'⟩⟩ := h.cells hh
    have hl : ∀ val, valueLabel ov fig ca na val z = valueLabel ov fig cb nb val z := by
      intro val
      unfold valueLabel extractLabelValue labelText labelTextDedicated extractLabelDedicated
      rw [hy, hy']
      simp only [ne_eq, h.sep]
    unfold Spex.valueRow
    simp only
    rw [hx, hx', hz, hz']
    simp only [hl]

omit [Uni] in
theorem SameRow.th {a b : Node} (h : SameRow ha hb a b) : containsTh a = containsTh b ∧
    (containsTh a = true → extractPossibleColspan a = extractPossibleColspan b) := by
  unfold containsTh
  cases h with
  | heading _ a1 b1 a2 b2 =>
    have e : ∀ n : Node, (∀ e ∈ n.elems, e.attr? c!"colspan" = none) → extractPossibleColspan n = [] := by
      intro n hn
      unfold extractPossibleColspan findColspan
      rw [List.filter_eq_nil_iff.2 (fun e he => by rw [show e.attr? aColspan = none from hn e he]; simp)]
      rfl
    refine ⟨?_, fun _ => by rw [e a a2, e b b2]⟩
    rw [show (a.childs tTh).isEmpty = false by simpa using a1, show (b.childs tTh).isEmpty = false by simpa using b1]
  | same hs => exact ⟨rfl, fun _ => rfl⟩
  | cells _ a1 b1 =>
    rw [show a.childs tTh = [] from a1, show b.childs tTh = [] from b1]
    exact ⟨rfl, fun h => by simp at h⟩

theorem Twins.structRows (h : Twins ha hb ca cb k l c) (fig : Str) (err : Option Exn) {as bs : List Row}
    (hr : List.Forall₂ (fun a b : Row => SameRow ha hb a.node b.node) as bs) : ∀ dyn,
    structRows parse fig .default ca err dyn as = structRows parse fig .default cb err dyn bs := by
  induction hr with
  | nil => intro dyn; rfl
  | @cons a b as bs hab _ ih =>
    intro dyn
    rw [Spex.structRows, Spex.structRows, ← hab.th.1]
    by_cases ht : containsTh a.node = true
    · rw [if_pos ht, if_pos ht, hab.th.2 ht, ih]
    · rw [if_neg ht, if_neg ht, h.structRow fig dyn hab (by simpa using ht)]
      congr 1
      funext o
      cases o with
      | stop x => rfl
      | skip => exact ih _
      | field f => simp only [ih]

theorem Twins.valueRows (h : Twins ha hb ca cb k l c) (ov : List ((Str × Str) × Str)) (fig : Str) (err : Option Exn) {as bs : List Row}
    (hr : List.Forall₂ (fun a b : Row => SameRow ha hb a.node b.node) as bs) :
    valueRows parse ov fig ca err as = valueRows parse ov fig cb err bs := by
  induction hr with
  | nil => rfl
  | @cons a b as bs hab _ ih =>
    rw [Spex.valueRows, Spex.valueRows, ← hab.th.1, ih]
    by_cases ht : containsTh a.node = true
    · rw [if_pos ht, if_pos ht]
    · rw [if_neg ht, if_neg ht, h.valueRow ov fig hab (by simpa using ht)]

end

/-! ### Figures -/

theorem SameFigure.runExtractor {a b : Node} (h : SameFigure a b) (env : Env) (parse : ParseFn) (m : EntityMeta) (c : Cls)
    (hc : c ∈ extractors) (mapping : Mapping) (hm : c.canApply (columnNames a) = some mapping) :
    runExtractor env parse m a (columnNames a) c mapping = runExtractor env parse m b (columnNames b) c mapping := by
  obtain ⟨k, l, t, rfl, hk, hl, ht⟩ := canApply_names hc h.columns.described hm
  have hm' := hm
  rw [h.columns.canApply c hc] at hm'
  obtain ⟨k', l', t', he, hk', hl', ht'⟩ := canApply_names hc h.columns.described' hm'
  simp only [Mapping.mk.injEq, Option.some.injEq] at he
  obtain ⟨rfl, rfl, rfl⟩ := he
  obtain ⟨ca, hca, na⟩ := mkCols_named hk.1 hl.1 ht.1
  obtain ⟨cb, hcb, nb⟩ := mkCols_named hk'.1 hl'.1 ht'.1
  have tw : Twins _ _ ca cb k l t := ⟨na, nb, hk.2, hl.2, ht.2⟩
  have hr : List.Forall₂ (fun x y : Row => SameRow (columnNames a) (columnNames b) x.node y.node) (rowIter a).1 (rowIter b).1 := by
    have := h.rows
    rwa [List.forall₂_map_left_iff, List.forall₂_map_right_iff] at this
  unfold Spex.runExtractor
  rw [hca, hcb]
  simp only [M.ofExcept_ok, pure_bind]
  congr 1
  have hst : ∀ s : StructCls, s.handler = .default → structCall parse s m ca a = structCall parse s m cb b := by
    intro s hs
    unfold structCall
    simp only
    rw [hs, tw.structRows m.figId _ hr, h.whole]
  have h1 : c = .struct bytesCls ∨ c = .value ∨ c = .struct bitsCls := by simpa [extractors] using hc
  rcases h1 with rfl | rfl | rfl
  · exact hst _ rfl
  · unfold callExtractor valueCall
    simp only
    rw [tw.valueRows _ m.figId _ hr, h.whole]
  · exact hst _ rfl

/-- C99: **a figure with its columns in another order, with more columns or with fewer, gives the same entities, the same diagnostics and the
same errors**, apart from the diagnostics for headings which are not standard; if its headings are not those of a figure which is
read, then this is said of both, with their columns. -/
theorem C99_figure_partial {a b : Node} (h : SameFigure a b) (env : Env) (m : EntityMeta) (hm : m.figId ≠ [])
    (ho : env.overrides.lookup m.figId = none) (f : Bool) :
    (∃ evs flag out, parseFigure env m a f = ⟨headerIssues m.figId a ++ evs, flag, out⟩ ∧
      parseFigure env m b f = ⟨headerIssues m.figId b ++ evs, flag, out⟩) ∨
    ∀ t, t = a ∨ t = b → parseFigure env m t f = ⟨headerIssues m.figId t ++
      [.lint (issue .tblSkipped m.figId none [(c!"columns", .arr ((columnNames t).map .str))])], false, .ok ()⟩ := by
  have hs : ∀ t, t.size ≤ a.size + b.size → parseFigure env m t = onParseFig env (parseFig env (a.size + b.size)) m t := by
    intro t ht
    unfold parseFigure
    rw [← parseFig_fuel env _ (a.size + b.size + 1) m t (Nat.le_refl _) (by omega)]
    rfl
  rw [hs a (by omega), hs b (by omega)]
  have hch := h.columns.chosen
  obtain ⟨a1, a2⟩ := C13_dispatch env (parseFig env (a.size + b.size)) m a hm ho f
  obtain ⟨b1, b2⟩ := C13_dispatch env (parseFig env (a.size + b.size)) m b hm ho f
  cases hc : firstApplicable extractors (columnNames a) with
  | none =>
    right
    rintro t (rfl | rfl)
    · rw [hs _ (by omega)]; exact a1 (by unfold chosen; rw [hc]; rfl)
    · rw [hs _ (by omega)]; exact b1 (by unfold chosen; rw [← hch, hc]; rfl)
  | some p =>
    left
    obtain ⟨c, mp⟩ := p
    obtain ⟨ma, hma, ea⟩ := a2 c (by unfold chosen; rw [hc]; rfl)
    obtain ⟨mb, hmb, eb⟩ := b2 c (by unfold chosen; rw [← hch, hc]; rfl)
    have hce : c ∈ extractors := by
      have : ∀ cs : List Cls, ∀ hdrs mp, firstApplicable cs hdrs = some (c, mp) → c ∈ cs := by
        intro cs
        induction cs with
        | nil => intro hdrs mp h; cases h
        | cons x xs ih =>
          intro hdrs mp h
          rw [firstApplicable] at h
          split at h
          · cases h; exact List.mem_cons_self
          · exact List.mem_cons_of_mem _ (ih _ _ h)
      exact this _ _ _ hc
    rw [← h.columns.canApply c hce, hma] at hmb
    cases hmb
    refine ⟨_, _, _, ea, ?_⟩
    rw [h.runExtractor env _ m c hce ma hma]
    exact eb

/-! ### Documents -/

theorem besideHeadings_header (fig : Str) (t : Node) : (headerIssues fig t).filterMap besideHeadings = [] := by
  rw [List.filterMap_eq_nil_iff]
  intro e he
  unfold headerIssues at he
  obtain ⟨c, -, rfl⟩ := List.mem_map.1 he
  rfl

theorem SameFigure.same {a b : Node} (h : SameFigure a b) (env : Env) (m : EntityMeta) (hm : m.figId ≠ [])
    (ho : env.overrides.lookup m.figId = none) (f : Bool) :
    (parseFigure env m a f).evs.filterMap besideHeadings = (parseFigure env m b f).evs.filterMap besideHeadings ∧
    (parseFigure env m a f).flag = (parseFigure env m b f).flag ∧ (parseFigure env m a f).out = (parseFigure env m b f).out := by
  rcases C99_figure_partial h env m hm ho f with ⟨evs, flag, out, ha, hb⟩ | hx
  · rw [ha, hb]
    simp only [List.filterMap_append, besideHeadings_header, and_self]
  · rw [hx a (.inl rfl), hx b (.inr rfl)]
    simp only [List.filterMap_append, besideHeadings_header, List.nil_append, and_self, and_true]
    rfl

omit [Uni] in
theorem not_tr_of_text {pre : List Node} (hp : ∀ n ∈ pre, n.isElem = false) : pre.filter (Node.hasTag tTr) = [] := by
  rw [List.filter_eq_nil_iff]
  intro n hn
  have := hp n hn
  cases n with
  | text s => simp [Node.hasTag]
  | elem t as ks => simp [Node.isElem] at this

omit [Uni] in
/-- the parts of a table with its title on top -/
theorem titled (tr : Node) (as : List (Str × Str)) (pre ks : List Node) (ht : tr.hasTag c!"tr" = true) (hp : ∀ n ∈ pre, n.isElem = false)
    (hw : ∀ td ∈ tr.childs c!"td", ∀ x ∈ td.elems.head?, x.hasTag c!"table" = false) :
    unwrapTable (.elem c!"table" as (pre ++ tr :: ks)) = .elem c!"table" as (pre ++ tr :: ks) ∧
    (Node.elem c!"table" as (pre ++ tr :: ks)).nthChild tTr 1 = some tr ∧
    removeFirstTr (.elem c!"table" as (pre ++ tr :: ks)) = .elem c!"table" as (pre ++ ks) := by
  have h1 : (Node.elem c!"table" as (pre ++ tr :: ks)).nthChild tTr 1 = some tr := by
    unfold Node.nthChild Node.childs
    rw [show (Node.elem c!"table" as (pre ++ tr :: ks)).kids = pre ++ tr :: ks from rfl, List.filter_append, not_tr_of_text hp,
      List.nil_append, List.filter_cons_of_pos ht]
    rfl
  refine ⟨?_, h1, ?_⟩
  · unfold unwrapTable
    rw [h1, Option.bind_some]
    cases htd : tr.nthChild tTd 1 with
    | none => rfl
    | some td =>
      have hm : td ∈ tr.childs c!"td" := List.mem_of_getElem? (show (tr.childs tTd)[0]? = some td from htd)
      rw [Option.bind_some]
      cases hx : td.elems.head? with
      | none => rfl
      | some x =>
        simp only
        rw [if_neg]
        have := hw td hm x (by rw [hx]; rfl)
        rw [show x.hasTag tTable = false from this]
        exact Bool.false_ne_true
  · rw [removeFirstTr]
    rw [List.eraseP_append_right _ (fun n hn => by
      have := List.filter_eq_nil_iff.1 (not_tr_of_text hp) n hn
      exact this), List.eraseP_cons_of_pos ht]

theorem parseTables_same (env : Env) {as bs : List Node} (h : List.Forall₂ (SameTable env) as bs) : ∀ k f,
    (parseTables env k as f).evs.filterMap besideHeadings = (parseTables env k bs f).evs.filterMap besideHeadings ∧
    (parseTables env k as f).out = (parseTables env k bs f).out := by
  induction h with
  | nil => intro k f; exact ⟨rfl, rfl⟩
  | @cons a b as bs hab _ ih =>
    -- the tables behind
    have step : ∀ k (x y : M Unit) (f : Bool), (x f).evs.filterMap besideHeadings = (y f).evs.filterMap besideHeadings ∧
        (x f).flag = (y f).flag ∧ (x f).out = (y f).out →
        ((x >>= fun _ => parseTables env k as) f).evs.filterMap besideHeadings =
          ((y >>= fun _ => parseTables env k bs) f).evs.filterMap besideHeadings ∧
        ((x >>= fun _ => parseTables env k as) f).out = ((y >>= fun _ => parseTables env k bs) f).out := by
      intro k x y f ⟨h1, h2, h3⟩
      rw [M.bind_run, M.bind_run, h3]
      cases (y f).out with
      | error e => exact ⟨h1, rfl⟩
      | ok u =>
        simp only [List.filterMap_append]
        rw [h1, h2, (ih k (y f).flag).1]
        exact ⟨rfl, (ih k (y f).flag).2⟩
    intro k f
    cases hab with
    | same =>
      rw [parseTables, parseTables]
      cases (unwrapTable a).nthChild tTr 1 with
      | none => exact ⟨rfl, rfl⟩
      | some tr =>
        simp only
        cases figureTitle tr with
        | none => exact ih k f
        | some title =>
          simp only
          cases figureId title with
          | none => exact step _ _ _ f ⟨rfl, rfl, rfl⟩
          | some fid => exact step _ _ _ f ⟨rfl, rfl, rfl⟩
    | columns tr xs ys pre pre' ks ls ht hp hp' hw ho hs =>
      obtain ⟨a1, a2, a3⟩ := titled tr xs pre ks ht hp hw
      obtain ⟨b1, b2, b3⟩ := titled tr ys pre' ls ht hp' hw
      rw [parseTables, parseTables, a1, b1, a2, b2, a3, b3]
      simp only
      cases hti : figureTitle tr with
      | none => exact ih k f
      | some title =>
        simp only
        cases hid : figureId title with
        | none => exact step _ _ _ f ⟨rfl, rfl, rfl⟩
        | some fid => exact step _ _ _ f (hs.same env _ (figureId_ne hid) (ho _ _ hti hid) f)

/-- C99: **two pages whose tables are the same but for the order of their columns and columns which do not count give the same entities, in
the same order, the same diagnostics beside those for the headings, and the same end.** -/
theorem C99_page_partial (env : Env) {a b : Node} (h : List.Forall₂ (SameTable env) (figures a) (figures b)) :
    (parseDoc env a).evs.filterMap besideHeadings = (parseDoc env b).evs.filterMap besideHeadings ∧
    (parseDoc env a).out = (parseDoc env b).out :=
  parseTables_same env h 0 false

/-- C99: without row spans the rows of the grid are the rows of the table. -/
theorem C99_no_spans {a b : Node} (hc : SameColumns (columnNames a) (columnNames b))
    (ha : ∀ tr ∈ a.childs tTr, containsTh tr = false → ∀ td ∈ tr.childs tTd, PlainCell td)
    (hb : ∀ tr ∈ b.childs tTr, containsTh tr = false → ∀ td ∈ tr.childs tTd, PlainCell td)
    (hr : List.Forall₂ (SameRow (columnNames a) (columnNames b)) (a.kids.filter HasCell) (b.kids.filter HasCell)) : SameFigure a b := by
  obtain ⟨a1, a2⟩ := C12_identity a ha
  obtain ⟨b1, b2⟩ := C12_identity b hb
  exact ⟨hc, by rw [a1, b1]; exact hr, by rw [a2, b2]⟩

/-! ### Examples -/

namespace ColumnsSample

/-- a cell or a heading with one paragraph -/
def box (tag s : Str) : Node := .elem tag [] [.elem c!"p" [] [.text s]]

/-- a row of such cells -/
def line (tag : Str) (ss : List Str) : Node := .elem c!"tr" [] (ss.map (box tag))

/-- a page with the figure 7 -/
def page (rows : List Node) : Node :=
  .elem c!"html" [] [.elem c!"head" [] [], .elem c!"body" [] [.elem c!"table" [] (line c!"td" [c!"Figure 7: Command"] :: rows)]]

/-- the figure as usual -/
def usual : List Node :=
  [line c!"th" [c!"Byte", c!"Description"], line c!"td" [c!"0", c!"Opcode (OPC): x"], line c!"td" [c!"Notes: none"]]

/-- with another column, and the columns in another order -/
def moved : List Node :=
  [line c!"th" [c!"Description", c!"O/M", c!"Byte"], line c!"td" [c!"Opcode (OPC): x", c!"M", c!"0"], line c!"td" [c!"Notes: none"]]

/-- what is made of a page -/
def entities (p : Node) : List (Str × List (Str × Str)) :=
  letI := Uni.ascii
  (parseDoc (envPlain false) p).evs.filterMap fun
    | .ent ⟨m, .struct _ fs⟩ => some (m.figId, fs.map fun f => (f.label, rangeToRowKey f.range))
    | .ent ⟨m, .values fs⟩ => some (m.figId, fs.map fun f => (f.label, f.val))
    | .lint _ => none

/-- with a column of names in front of the descriptions, and behind them -/
def named (front : Bool) : List Node :=
  let swap := fun (k a d : Str) => if front then [k, a, d] else [k, d, a]
  [line c!"th" (swap c!"Bytes" c!"Attribute" c!"Description"), line c!"td" (swap c!"0" c!"Queue: x" c!"Opcode (OPC): x")]

/-- a table of two columns, and the same with a third one -/
def two (more : Bool) : List Node :=
  [line c!"th" ([c!"Value", c!"Name"] ++ if more then [c!"O/M"] else []), line c!"td" ([c!"0h", c!"Flush"] ++ if more then [c!"M"] else [])]

end ColumnsSample

open ColumnsSample in
/-- the hypotheses of C99 are met by a figure with another column, and its columns in another order -/
example : letI := Uni.ascii
    List.Forall₂ (SameTable (envPlain false)) (figures (page usual)) (figures (page moved)) := by
  let _ := Uni.ascii
  refine .cons (.columns (line c!"td" [c!"Figure 7: Command"]) [] [] [] [] usual moved rfl (by simp) (by simp) ?_ ?_ ?_) .nil
  · intro td htd
    have : td = box c!"td" c!"Figure 7: Command" := by simpa [line, Node.childs, Node.kids, box, Node.hasTag] using htd
    subst this
    intro x hx
    have : x = .elem c!"p" [] [.text c!"Figure 7: Command"] := by
      simpa [box, Node.elems, Node.kids, Node.isElem, eq_comm] using hx
    subst this; rfl
  · intro title id _ _; rfl
  · have ha : columnNames (.elem c!"table" [] ([] ++ usual)) = [c!"bytes", c!"description"] := by decide +kernel
    have hb : columnNames (.elem c!"table" [] ([] ++ moved)) = [c!"description", c!"o/m", c!"bytes"] := by decide +kernel
    refine C99_no_spans ?_ ?_ ?_ ?_
    · rw [ha, hb]
      exact ⟨by decide, by decide, c!"description", by decide, by decide⟩
    · intro tr htr hth td htd
      have : tr = line c!"th" [c!"Byte", c!"Description"] ∨ tr = line c!"td" [c!"0", c!"Opcode (OPC): x"] ∨
          tr = line c!"td" [c!"Notes: none"] := by simpa [usual, line, Node.childs, Node.kids, Node.hasTag] using htr
      have hp : ∀ s, PlainCell (box c!"td" s) := fun s => ⟨⟨1, rfl⟩, 1, rfl, Int.le_refl 1⟩
      rcases this with rfl | rfl | rfl
      · exact absurd hth (by decide)
      · have : td = box c!"td" c!"0" ∨ td = box c!"td" c!"Opcode (OPC): x" := by
          simpa [line, Node.childs, Node.kids, box, Node.hasTag] using htd
        rcases this with rfl | rfl <;> exact hp _
      · have : td = box c!"td" c!"Notes: none" := by simpa [line, Node.childs, Node.kids, box, Node.hasTag] using htd
        subst this; exact hp _
    · intro tr htr hth td htd
      have : tr = line c!"th" [c!"Description", c!"O/M", c!"Byte"] ∨ tr = line c!"td" [c!"Opcode (OPC): x", c!"M", c!"0"] ∨
          tr = line c!"td" [c!"Notes: none"] := by simpa [moved, line, Node.childs, Node.kids, Node.hasTag] using htr
      have hp : ∀ s, PlainCell (box c!"td" s) := fun s => ⟨⟨1, rfl⟩, 1, rfl, Int.le_refl 1⟩
      rcases this with rfl | rfl | rfl
      · exact absurd hth (by decide)
      · have : td = box c!"td" c!"Opcode (OPC): x" ∨ td = box c!"td" c!"M" ∨ td = box c!"td" c!"0" := by
          simpa [line, Node.childs, Node.kids, box, Node.hasTag] using htd
        rcases this with rfl | rfl | rfl <;> exact hp _
      · have : td = box c!"td" c!"Notes: none" := by simpa [line, Node.childs, Node.kids, box, Node.hasTag] using htd
        subst this; exact hp _
    · rw [ha, hb]
      have plain : ∀ ss, ∀ e ∈ (line c!"th" ss).elems, e.attr? c!"colspan" = none := by
        intro ss e he
        have he : e ∈ ss.map (box c!"th") := (List.mem_filter.1 he).1
        obtain ⟨s, -, rfl⟩ := List.mem_map.1 he
        rfl
      refine .cons (.heading _ _ ?_ ?_ (plain _) (plain _)) (.cons (.cells _ _ rfl rfl ?_) (.cons (.same _ (.inr rfl)) .nil))
      · exact List.cons_ne_nil _ _
      · exact List.cons_ne_nil _ _
      · intro i j name hi hj _
        rcases i with _ | _ | i
        · cases hi
          rcases j with _ | _ | _ | j
          · exact absurd hj (by decide)
          · exact absurd hj (by decide)
          · exact ⟨_, rfl, rfl, fun h => absurd h (by decide)⟩
          · cases hj
        · cases hi
          rcases j with _ | _ | _ | j
          · exact ⟨_, rfl, rfl, fun _ => List.cons_ne_nil _ _⟩
          · exact absurd hj (by decide)
          · exact absurd hj (by decide)
          · cases hj
        · cases hi

open ColumnsSample in
/-- and they give the same entities -/
example : entities (page usual) = [(c!"7", [(c!"opc", c!"0")])] ∧ entities (page moved) = [(c!"7", [(c!"opc", c!"0")])] := by decide +kernel

omit [Uni] in
open ColumnsSample in
/-- C99 is false of columns with labels and descriptions which change places: the first of them is read for the labels, not the one headed
`Attribute`. -/
theorem C99_order_false : entities (page (named true)) = [(c!"7", [(c!"queue", c!"0")])] ∧
    entities (page (named false)) = [(c!"7", [(c!"opc", c!"0")])] := by decide +kernel

omit [Uni] in
open ColumnsSample in
/-- C99 is false of tables of values without a column of descriptions: with two columns they are read, with a third one they are not. -/
theorem C99_two_columns_false : entities (page (two false)) = [(c!"7", [(c!"FLUSH", c!"0h")])] ∧ entities (page (two true)) = [] := by
  decide +kernel

end Spex
