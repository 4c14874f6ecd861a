import Verif.Props.CellText
import Verif.Props.Label
import Verif.Props.Brief
import Verif.Props.Headers
import Verif.Props.Layout
import Verif.Props.Document
import Verif.Props.Title
/-
C68, the second stage: what becomes of a bits or bytes figure whose cells say what they should.
-/
set_option autoImplicit false
namespace Spex

section
variable [Uni]

/-! ### Specification -/

/-- `b` is the brief of a cell with these texts (C05); an empty one is left out -/
def BriefOf (ts : List Str) (b : Option Str) : Prop :=
  ∃ s c, Woven ts s ∧ BriefIs (strip s) c ∧ b = if c = some [] then none else c

/-- The field which a row stands for, by the texts of its range cell and of its description cell. The range is a number or
`high:low`. The description starts with `name (ACRONYM)`, or with `name:`, and the name does not start with `note`; or it
is the word `Reserved`. -/
inductive FieldOf : List Str → List Str → StructField → Prop where
  | acronym {r t name acr rest : Str} {ts : List Str} {low high : Nat} {brief : Option Str}
      (hr : RangeText (strip r) low high) (hle : low ≤ high) (ht : strip t = name ++ '(' :: acr ++ ')' :: rest)
      (hname : ∀ c ∈ name, c.toNat < 128 ∧ LabelChar c) (hnote : ¬ c!"note" <+: name.map Char.toLower)
      (hacr : AsciiAlnum acr) (hlet : ∃ c w, acr = c :: w ∧ c.isAlpha = true) (hb : BriefOf (t :: ts) brief) :
      FieldOf [r] (t :: ts) ⟨acr.map Char.toLower, .int low high, brief⟩
  | initials {r t fin rest : Str} {ws : List (Str × Str)} {ts : List Str} {low high : Nat} {brief : Option Str}
      (hr : RangeText (strip r) low high) (hle : low ≤ high) (ht : strip t = spell ws fin ++ ':' :: rest)
      (hws : Spelling ws) (hfin : ∀ c ∈ fin, isSpace c = true)
      (hname : ∀ c ∈ spell ws fin, c.toNat < 128 ∧ LabelChar c) (hnote : ¬ c!"note" <+: (spell ws fin).map Char.toLower)
      (hspecial : upper (spell ws fin) ∉ [RESERVED, ELLIPSIS, OBSOLETE])
      (hini : AsciiAlnum (ws.flatMap (·.2.take 1))) (hlet : ∃ c w, ws.flatMap (·.2.take 1) = c :: w ∧ c.isAlpha = true)
      (hb : BriefOf (t :: ts) brief) :
      FieldOf [r] (t :: ts) ⟨(ws.flatMap (·.2.take 1)).map Char.toLower, .int low high, brief⟩
  | reserved {r t : Str} {low high : Nat} (hr : RangeText (strip r) low high) (hle : low ≤ high)
      (ht : (strip t).map Char.toUpper = RESERVED) :
      FieldOf [r] [t] ⟨RESERVED, .int low high, none⟩

/-- A table with these columns describes a layout of bytes, or of bits, with the ranges in the column `key`. -/
inductive LayoutColumns (names : List Str) : StructTy → Str → Prop where
  | bytes (h : c!"bytes" ∈ names) (hd : c!"description" ∈ names) : LayoutColumns names .bytes c!"bytes"
  | bits (h : c!"bits" ∈ names) (hd : c!"description" ∈ names) (h1 : c!"bytes" ∉ names) (h2 : c!"value" ∉ names)
      (h3 : c!"values" ∉ names) : LayoutColumns names .bits c!"bits"

/-- the diagnostics about names of columns and about the layout of the fields -/
def LayoutCode (c : LintErr) : Prop :=
  c = .tblHdrErr ∨ c = .tblRowOrderReversed ∨ c = .lblDuplicate ∨ c = .tblFieldOverlap ∨ c = .tblFieldGap

/-! ### Proof -/

theorem special_ascii {A r : Str} {c : Char} (hA : ∀ x ∈ A, x.toNat < 128) (hc : c ∈ A) (hm : c = '(' ∨ c = ':')
    (hn : ¬ c!"note" <+: A.map Char.toLower) : isSpecialCase (A ++ r) = false := by
  unfold isSpecialCase
  rw [Bool.or_eq_false_iff]
  constructor
  · rw [Bool.eq_false_iff]
    intro h
    have h1 : upper (A ++ r) ∈ SPECIAL_CASE_SET := by simpa using h
    have h2 : c ∈ upper (A ++ r) := by
      rw [mem_upper]
      refine ⟨c, List.mem_append.2 (.inl hc), ?_⟩
      rw [Uni.upper_ascii c (hA c hc)]
      rcases hm with rfl | rfl <;> decide
    simp only [SPECIAL_CASE_SET, List.mem_cons, List.not_mem_nil, or_false] at h1
    rcases h1 with h1 | h1 | h1 <;> rw [h1] at h2 <;> rcases hm with rfl | rfl <;> revert h2 <;> decide
  · rw [Bool.eq_false_iff]
    intro h
    have h1 : c!"note" <+: lower (A ++ r) := List.isPrefixOf_iff_prefix.1 h
    have h2 := Uni.lower_prefix A r hA
    rcases List.prefix_or_prefix_of_prefix h1 h2 with h3 | h3
    · exact hn h3
    · have h4 : c.toLower ∈ c!"note" := h3.subset (List.mem_map_of_mem hc)
      rcases hm with rfl | rfl <;> revert h4 <;> decide

theorem rangeText_head {t : Str} {low high : Nat} (h : RangeText t low high) : ∃ d r, t = d :: r ∧ d.isDigit = true := by
  cases h with
  | @pair hs ls w1 w2 tr low high h l _ _ _ =>
    obtain ⟨h1, h2, -, -⟩ := h
    cases hs with
    | nil => exact absurd rfl h1
    | cons d r => exact ⟨d, _, rfl, h2 d List.mem_cons_self⟩
  | @single hs w tr high h _ _ _ =>
    obtain ⟨h1, h2, -, -⟩ := h
    cases hs with
    | nil => exact absurd rfl h1
    | cons d r => exact ⟨d, _, rfl, h2 d List.mem_cons_self⟩

theorem special_range {t : Str} {low high : Nat} (h : RangeText t low high) : isSpecialCase t = false := by
  obtain ⟨d, r, rfl, hd⟩ := rangeText_head h
  have hr := (isDigit_iff d).1 hd
  have hlt : d.toNat < 128 := by omega
  have hu : d.toUpper = d := by
    rcases toUpper_cases d with h | ⟨h1, -, -⟩
    · exact h
    · omega
  have hl : d.toLower = d := by
    rcases toLower_cases d with h | ⟨h1, -, -⟩
    · exact h
    · omega
  unfold isSpecialCase
  rw [Bool.or_eq_false_iff]
  constructor
  · rw [Bool.eq_false_iff]
    intro h
    have h1 : upper (d :: r) ∈ SPECIAL_CASE_SET := by simpa using h
    rw [upper, List.flatMap_cons, Uni.upper_ascii d hlt, hu] at h1
    simp only [SPECIAL_CASE_SET, List.mem_cons, List.not_mem_nil, or_false] at h1
    rcases h1 with h1 | h1 | h1
    · have := (List.cons.inj h1).1
      subst this; revert hd; decide
    · have := (List.cons.inj h1).1
      subst this; revert hd; decide
    · have := (List.cons.inj h1).1
      subst this; revert hd; decide
  · rw [Bool.eq_false_iff]
    intro h
    have h1 : c!"note" <+: lower (d :: r) := List.isPrefixOf_iff_prefix.1 h
    have h2 := Uni.lower_prefix [d] r (by simpa using hlt)
    obtain ⟨x, hx⟩ := h1
    obtain ⟨y, hy⟩ := h2
    simp only [List.map_cons, List.map_nil, List.singleton_append, hl] at hy
    rw [← hy] at hx
    have := (List.cons.inj hx).1
    subst this; revert hd; decide

/-- a text which starts with something that has no blanks at its ends -/
theorem strip_keep {a A b : Str} (ha : ∀ c ∈ a, isSpace c = true) (h1 : ∀ c ∈ A.head?, isSpace c = false)
    (h2 : ∀ c ∈ A.getLast?, isSpace c = false) (hne : A ≠ []) : ∃ r, strip (a ++ A ++ b) = A ++ r := by
  obtain ⟨s1, s2, e, g1, g2⟩ := strip_parts b
  obtain ⟨g3, g4⟩ := strip_ends b
  -- the last part of `b`
  by_cases hb : strip b = []
  · refine ⟨[], ?_⟩
    rw [List.append_nil]
    refine strip_of ha ?_ h1 h2
    intro c hc
    rw [e, hb, List.append_nil] at hc
    exact (List.mem_append.1 hc).elim (g1 c) (g2 c)
  · refine ⟨s1 ++ strip b, ?_⟩
    have e2 : a ++ A ++ b = a ++ (A ++ (s1 ++ strip b)) ++ s2 := by
      conv => lhs; rw [e]
      simp
    rw [e2]
    refine strip_of ha g2 ?_ ?_
    · obtain ⟨x, xs, rfl⟩ := List.exists_cons_of_ne_nil hne
      exact h1
    · intro c hc
      rw [← List.append_assoc, List.getLast?_append] at hc
      cases hl : (strip b).getLast? with
      | none => rw [List.getLast?_eq_none_iff] at hl; exact absurd hl hb
      | some x =>
        rw [hl] at hc
        simp only [Option.some_or, Option.some.injEq] at hc
        subst hc
        exact g4 _ hl

omit [Uni] in
theorem note_ext {N r : Str} {c : Char} (hc : c ∉ c!"note") (h : ¬ c!"note" <+: N) : ¬ c!"note" <+: N ++ c :: r := by
  intro h1
  rcases List.prefix_or_prefix_of_prefix h1 (List.prefix_append N (c :: r)) with h2 | ⟨x, hx⟩
  · exact h h2
  · rw [← hx, List.prefix_append_right_inj] at h1
    cases x with
    | nil => exact h ⟨[], by rw [← hx]; simp⟩
    | cons a x =>
      obtain ⟨y, hy⟩ := h1
      have := (List.cons.inj hy).1
      subst this
      exact hc (by rw [← hx]; simp)

/-- the text of a cell starts with the start of its first paragraph -/
theorem cell_start {t A rest : Str} {ts : List Str} {y : Node} (hy : HasTexts (t :: ts) y) (ht : strip t = A ++ rest) (hne : A ≠ [])
    (hl : ∀ c ∈ A.getLast?, isSpace c = false) : ∃ r, y.toText = A ++ r := by
  have hw := hy.whole
  obtain ⟨s1, s2, e, g1, g2⟩ := strip_parts t
  unfold Node.toText
  generalize y.flat = fl at hw
  cases hw with
  | @text w hw _ ts s h =>
    have : w ++ t ++ s = (w ++ s1) ++ A ++ (rest ++ s2 ++ s) := by
      conv => lhs; rw [e, ht]
      simp
    rw [this]
    refine strip_keep (fun c hc => (List.mem_append.1 hc).elim (fun h => xmlSpace_isSpace (hw c h)) (g1 c)) ?_ hl hne
    intro c hc
    refine (strip_ends t).1 c ?_
    rw [ht]
    obtain ⟨x, xs, rfl⟩ := List.exists_cons_of_ne_nil hne
    exact hc

/-- neither the description nor its first paragraph is a remark -/
theorem cell_plain {t N rest : Str} {c d : Char} {M : Str} {ts : List Str} {y : Node} (hy : HasTexts (t :: ts) y)
    (ht : strip t = (N ++ c :: M ++ [d]) ++ rest) (hN : ∀ x ∈ N ++ c :: M ++ [d], x.toNat < 128) (hc : c = '(' ∨ c = ':')
    (hd : isSpace d = false) (hn : ¬ c!"note" <+: N.map Char.toLower) :
    isSpecialCase y.toText = false ∧ isSpecialCase (strip t) = false := by
  have hm : c ∈ N ++ c :: M ++ [d] := by simp
  have hn' : ¬ c!"note" <+: (N ++ c :: M ++ [d]).map Char.toLower := by
    rw [List.append_assoc, List.map_append, List.cons_append, List.map_cons]
    refine note_ext ?_ hn
    rcases hc with rfl | rfl <;> decide
  constructor
  · obtain ⟨r, hr⟩ := cell_start hy ht (by simp) (by
      intro x hx
      rw [List.getLast?_append] at hx
      simp at hx
      exact hx ▸ hd)
    rw [hr]
    exact special_ascii hN hm hc hn'
  · rw [ht]
    exact special_ascii hN hm hc hn'

theorem HasTexts.first {t : Str} {ts : List Str} {y : Node} (hy : HasTexts (t :: ts) y) :
    ∃ p, (y.childs tP).head? = some p ∧ p.toText = strip t := by
  have h := hy.paras
  have ht : tP = c!"p" := rfl
  rw [ht]
  cases hp : y.childs c!"p" with
  | nil => rw [hp] at h; cases h
  | cons p ps =>
    rw [hp, List.map_cons, List.map_cons, List.cons.injEq] at h
    exact ⟨p, rfl, h.1⟩

theorem HasTexts.no_table {ts : List Str} {y : Node} (hy : HasTexts ts y) : y.childs tTable = [] := by
  unfold Node.childs
  rw [List.filter_eq_nil_iff]
  intro k hk ht
  have h1 := hy.only k (List.mem_filter.2 ⟨hk, hasTag_isElem ht⟩)
  cases k with
  | text s => cases ht
  | elem tag as ks =>
    simp only [Node.hasTag, beq_iff_eq] at ht h1
    rw [ht] at h1
    revert h1; decide

theorem structRow_plain {parse : ParseFn} {fig : Str} {h : ErrHandler} {cols : Cols} {row : Row} {fl : Bool} {rc cc : Node}
    {r t : Str} {ts : List Str} {low high : Nat} {label : Str} (hf : fig ≠ []) (hcol : cols.content = cols.label)
    (hk : (row.node.childs tTd)[cols.key]? = some rc) (hc : (row.node.childs tTd)[cols.content]? = some cc)
    (hr : HasTexts [r] rc) (ht : HasTexts (t :: ts) cc) (hrt : RangeText (strip r) low high) (hle : low ≤ high)
    (hs : isSpecialCase cc.toText = false ∧ isSpecialCase (strip t) = false)
    (hl : ∀ key, parseLabel fig cols (strip t) key = Pure.pure label) :
    structRow parse fig h cols false row fl =
      ⟨[], fl, .ok (.field ⟨label, .int low high, (contentExtractBrief cc.toText).filter (fun x => !x.isEmpty)⟩)⟩ := by
  obtain ⟨p, hp1, hp2⟩ := ht.first
  have hx := C14_row_cells cols row.node rc cc cc p hk hc (hcol ▸ hc) hp1
  have hrr : rc.toText = strip r := hr.single r rfl
  have hspr : isSpecialCase rc.toText = false := by rw [hrr]; exact special_range hrt
  have hrange : ∀ key fl, parseRange fig rc.toText key fl = ⟨[], fl, .ok (.int low high)⟩ := by
    intro key fl
    obtain ⟨hs, ol, h1, h2, h3, h4⟩ := rangeText_parts hrt
    rw [hrr, parseRange_some h1 h2 h3 (fun h => by rw [h4 h]) hf]
    simp only [gt_iff_lt, Int.ofNat_eq_natCast, Int.ofNat_lt]
    rw [if_neg (by omega)]
  have hn : row.node.nthChild tTd (cols.content + 1) = some cc := hc
  unfold structRow
  rw [hx]
  simp only [hspr, hp2, hs.1, hs.2, Bool.or_self, Bool.false_eq_true, if_false, rowRange]
  rw [M.bind_run, hrange]
  simp only [hl, pure_bind, hn, req, M.ofExcept_ok, extractDataSubTable, ht.no_table, subTables, List.nil_append]
  rw [M.pure_run]
  congr 3
  unfold structField
  congr 1
  cases contentExtractBrief cc.toText with
  | none => rfl
  | some b => cases b <;> rfl

/-- a row whose cells say what they should gives the field -/
theorem structRow_field {parse : ParseFn} {fig : Str} {h : ErrHandler} {cols : Cols} {row : Row} {rc cc : Node}
    {rs ts : List Str} {f : StructField} (hf : fig ≠ []) (hcol : cols.content = cols.label)
    (hk : (row.node.childs tTd)[cols.key]? = some rc) (hc : (row.node.childs tTd)[cols.content]? = some cc)
    (hr : HasTexts rs rc) (ht : HasTexts ts cc) (hF : FieldOf rs ts f) :
    ∃ f', FieldOf rs ts f' ∧ ∀ fl, structRow parse fig h cols false row fl = ⟨[], fl, .ok (.field f')⟩ := by
  have hbrief : BriefOf ts ((contentExtractBrief cc.toText).filter (fun x => !x.isEmpty)) := by
    refine ⟨cc.flat, contentExtractBrief cc.toText, ht.whole, (C05_brief_exact _ _).1 rfl, ?_⟩
    generalize contentExtractBrief cc.toText = b
    rcases b with _ | _ | _ <;> rfl
  cases hF with
  | @acronym r t name acr rest ts low high brief h1 h2 h3 h4 h5 h6 h7 h8 =>
    have h3' : strip t = (name ++ '(' :: acr ++ [')']) ++ rest := by rw [h3]; simp
    refine ⟨_, .acronym h1 h2 h3 h4 h5 h6 h7 hbrief, fun fl => ?_⟩
    refine structRow_plain hf hcol hk hc hr ht h1 h2 (cell_plain ht h3' ?_ (.inl rfl) (by decide) h5) ?_
    · intro x hx
      simp only [List.mem_append, List.mem_cons, List.not_mem_nil, or_false] at hx
      rcases hx with (hx | rfl | hx) | rfl
      · exact (h4 x hx).1
      · decide
      · exact alnum_lt (h6 x hx)
      · decide
    · intro key
      rw [h3]
      exact C08_acronym fig cols key name acr rest hf hcol (fun c hc => (h4 c hc).2) h6 h7
  | @initials r t fin rest ws ts low high brief h1 h2 h3 h4 h5 h6 h7 h8 h9 h10 h11 =>
    refine ⟨_, .initials h1 h2 h3 h4 h5 h6 h7 h8 h9 h10 hbrief, fun fl => ?_⟩
    have hsp : isSpecialCase cc.toText = false ∧ isSpecialCase (strip t) = false := by
      have hA : ∀ x ∈ spell ws fin ++ [':'], x.toNat < 128 := by
        intro x hx
        rcases List.mem_append.1 hx with hx | hx
        · exact (h6 x hx).1
        · rw [List.mem_singleton] at hx; subst hx; decide
      have hn' : ¬ c!"note" <+: (spell ws fin ++ [':']).map Char.toLower := by
        rw [List.map_append]
        exact note_ext (by decide) h7
      have h3' : strip t = (spell ws fin ++ [':']) ++ rest := by rw [h3]; simp
      constructor
      · obtain ⟨r, hr⟩ := cell_start ht h3' (by simp) (by
          intro x hx
          simp at hx
          subst hx; decide)
        rw [hr]
        exact special_ascii hA (by simp) (.inr rfl) hn'
      · rw [h3']
        exact special_ascii hA (by simp) (.inr rfl) hn'
    refine structRow_plain hf hcol hk hc hr ht h1 h2 hsp ?_
    intro key
    rw [h3]
    refine C08_initials fig cols key (':' :: rest) fin ws hf hcol h4 h5 (fun c hc => (h6 c hc).2) ?_ h8 h9 h10
    intro c hc
    simp only [List.head?_cons, Option.mem_def, Option.some.injEq] at hc
    subst hc
    refine ⟨?_, by decide⟩
    rw [← clsStructLabel_iff]
    unfold clsStructLabel
    rw [Uni.isWord_ascii _ (by decide)]
    decide
  | @reserved r t low high h1 h2 h3 =>
    refine ⟨_, .reserved h1 h2 h3, fun fl => ?_⟩
    obtain ⟨p, hp1, hp2⟩ := ht.first
    have hx := C14_row_cells cols row.node rc cc cc p hk hc (hcol ▸ hc) hp1
    have hrr : rc.toText = strip r := hr.single r rfl
    have hcc : cc.toText = strip t := ht.single t rfl
    have hspr : isSpecialCase rc.toText = false := by rw [hrr]; exact special_range h1
    have hrange : ∀ key fl, parseRange fig rc.toText key fl = ⟨[], fl, .ok (.int low high)⟩ := by
      intro key fl
      obtain ⟨hs, ol, g1, g2, g3, g4⟩ := rangeText_parts h1
      rw [hrr, parseRange_some g1 g2 g3 (fun h => by rw [g4 h]) hf]
      simp only [gt_iff_lt, Int.ofNat_eq_natCast, Int.ofNat_lt]
      rw [if_neg (by omega)]
    have hasc : ∀ c ∈ strip t, c.toNat < 128 := by
      intro c hc
      have hm : c.toUpper ∈ RESERVED := by rw [← h3]; exact List.mem_map_of_mem hc
      rcases toUpper_cases c with e | ⟨e1, e2, -⟩
      · rw [e] at hm
        have : ∀ x ∈ RESERVED, x.toNat < 128 := by decide
        exact this c hm
      · omega
    have hup : upper (strip t) = RESERVED := by
      rw [← h3]
      unfold upper
      have : ∀ s : Str, (∀ c ∈ s, c.toNat < 128) → s.flatMap upperC = s.map Char.toUpper := by
        intro s hs
        induction s with
        | nil => rfl
        | cons c s ih =>
          rw [List.flatMap_cons, List.map_cons, Uni.upper_ascii c (hs c List.mem_cons_self), ih (fun x hx => hs x (List.mem_cons_of_mem _ hx))]
          rfl
      exact this _ hasc
    have hspc : isSpecialCase (strip t) = true := by
      unfold isSpecialCase
      rw [hup]
      rfl
    have hne : strip t ≠ ELLIPSIS := by
      intro e
      rw [e] at hasc
      revert hasc; decide
    unfold structRow
    rw [hx]
    simp only [hspr, hp2, hcc, hspc, Bool.or_true, if_true, Bool.false_eq_true, if_false]
    rw [M.bind_run, hrange]
    simp only [handleSpecialCase, if_neg hne, if_pos hup]
    rfl

/-- the row has no header cells, and its cells in the columns `k` and `d` have these texts, which say what they should -/
def RowSays (k d : Nat) (row : Row) (p : List Str × List Str) : Prop :=
  row.node.childs tTh = [] ∧ ∃ rc cc f, (row.node.childs tTd)[k]? = some rc ∧ (row.node.childs tTd)[d]? = some cc ∧
    HasTexts p.1 rc ∧ HasTexts p.2 cc ∧ FieldOf p.1 p.2 f

theorem structRows_fields {parse : ParseFn} {fig : Str} {h : ErrHandler} {cols : Cols} (hf : fig ≠ []) (hcol : cols.content = cols.label)
    {rows : List Row} {ps : List (List Str × List Str)} (hr : List.Forall₂ (RowSays cols.key cols.content) rows ps) :
    ∃ fs, List.Forall₂ (fun p f => FieldOf p.1 p.2 f) ps fs ∧
      ∀ fl, structRows parse fig h cols none false rows fl = ⟨[], fl, .ok (fs, none)⟩ := by
  induction hr with
  | nil => exact ⟨[], .nil, fun fl => rfl⟩
  | @cons row p rows ps h1 _ ih =>
    obtain ⟨fs, g1, g2⟩ := ih
    obtain ⟨hth, rc, cc, f, a1, a2, a3, a4, a5⟩ := h1
    obtain ⟨f', b1, b2⟩ := structRow_field (parse := parse) (h := h) hf hcol a1 a2 a3 a4 a5
    refine ⟨f' :: fs, .cons b1 g1, fun fl => ?_⟩
    rw [structRows]
    have : containsTh row.node = false := by unfold containsTh; rw [hth]; rfl
    rw [if_neg (by rw [this]; decide), M.bind_run, b2]
    simp only
    rw [M.bind_run, g2]
    rfl

omit [Uni] in
theorem FirstPos.eq {cands names : List Str} {h : Str} {j k : Nat} (hf : FirstPos cands names j) (hk : names[k]? = some h)
    (hnd : names.Nodup) (hc : ∀ x ∈ names, x ∈ cands → x = h) : j = k := by
  obtain ⟨x, h1, h2, -⟩ := hf
  have := hc x (List.mem_of_getElem? h1) h2
  subst this
  obtain ⟨l1, e1⟩ := List.getElem?_eq_some_iff.1 h1
  obtain ⟨l2, e2⟩ := List.getElem?_eq_some_iff.1 hk
  exact (List.Nodup.getElem_inj_iff hnd).1 (e1.trans e2.symm)

/-- the columns of a layout -/
theorem layout_columns {names : List Str} {ty : StructTy} {key : Str} (h : LayoutColumns names ty key) (hnd : names.Nodup)
    (hattr : c!"attribute" ∉ names) {k d : Nat} (hk : names[k]? = some key) (hd : names[d]? = some c!"description") :
    ∃ c mapping, firstApplicable extractors names = some (.struct c, mapping) ∧ c.ty = ty ∧ mkCols names mapping = .ok ⟨k, d, d⟩ := by
  have hch : ∃ c, chosen names = some (.struct c) ∧ c.ty = ty ∧ c.rangeHdrs = [key] ∧ c.labelHdrs = [c!"attribute", c!"description"] ∧
      c.contentHdrs = [c!"description"] := by
    cases h with
    | bytes h hd => exact ⟨bytesCls, (C13_choice names).1 ⟨h, hd⟩, rfl, rfl, rfl, rfl⟩
    | bits h hd h1 h2 h3 =>
      refine ⟨bitsCls, (C13_choice names).2.2.1 (fun e => h1 e.1) ?_ ⟨h, hd⟩, rfl, rfl, rfl, rfl⟩
      rintro (⟨⟨x, hx, rfl | rfl⟩, -⟩ | ⟨x, -, -, rfl | ⟨rfl, -⟩⟩)
      · exact h2 hx
      · exact h3 hx
      · exact h2 (by simp)
      · exact h2 (by simp)
  obtain ⟨c, h1, h2, h3, h4, h5⟩ := hch
  unfold chosen at h1
  cases hfa : firstApplicable extractors names with
  | none => rw [hfa] at h1; cases h1
  | some p =>
    obtain ⟨cl, mapping⟩ := p
    rw [hfa, Option.map_some, Option.some.injEq] at h1
    simp only at h1
    subst h1
    have happ : (Cls.struct c).canApply names = some mapping := by
      have : ∀ l, firstApplicable l names = some (.struct c, mapping) → (Cls.struct c).canApply names = some mapping := by
        intro l
        induction l with
        | nil => intro h; cases h
        | cons a l ih =>
          intro h
          rw [firstApplicable] at h
          cases ha : a.canApply names with
          | none => rw [ha] at h; exact ih h
          | some m =>
            rw [ha] at h
            simp only [Option.some.injEq, Prod.mk.injEq] at h
            rw [← h.1, ← h.2, ha]
      exact this _ hfa
    obtain ⟨⟨ck, cl, cc⟩, g1, g2, g3, g4⟩ := C14_struct_columns c names mapping happ hnd
    refine ⟨c, mapping, rfl, h2, ?_⟩
    rw [g1]
    rw [h3] at g2
    rw [h4] at g3
    rw [h5] at g4
    have e1 : ck = k := g2.eq hk hnd (by simp)
    have e2 : cl = d := g3.eq hd hnd (by
      intro x hx hm
      simp only [List.mem_cons, List.not_mem_nil, or_false] at hm
      rcases hm with rfl | rfl
      · exact absurd hx hattr
      · rfl)
    have e3 : cc = d := g4.eq hd hnd (by simp)
    rw [e1, e2, e3]

omit [Uni] in
theorem structEvs_codes (fig : Str) (fs : List StructField) : ∀ x ∈ structEvs fig fs, ∃ l, x = .lint l ∧ l.fig = fig ∧ LayoutCode l.err := by
  have hl : ∀ (fs : List StructField) labels prev, ∀ x ∈ loopEvs fig labels prev fs, ∃ l, x = .lint l ∧ l.fig = fig ∧ LayoutCode l.err := by
    intro fs
    induction fs with
    | nil => intro labels prev x hx; simp [loopEvs] at hx
    | cons f fs ih =>
      intro labels prev x hx
      simp only [loopEvs, List.mem_append] at hx
      rcases hx with (hx | hx) | hx
      · unfold stepDup at hx
        split at hx
        · simp only [List.mem_singleton] at hx
          exact ⟨_, hx, rfl, .inr (.inr (.inl rfl))⟩
        · cases hx
      · unfold stepRange at hx
        repeat' split at hx
        all_goals first | cases hx; done | skip
        all_goals
          simp only [List.mem_singleton] at hx
          first
            | exact ⟨_, hx, rfl, .inr (.inr (.inr (.inl rfl)))⟩
            | exact ⟨_, hx, rfl, .inr (.inr (.inr (.inr rfl)))⟩
      · exact ih _ _ x hx
  intro x hx
  unfold structEvs at hx
  split at hx
  · cases hx
  · cases hx
  · split at hx
    · simp only [List.mem_singleton] at hx
      exact ⟨_, hx, rfl, .inr (.inl rfl)⟩
    · exact hl _ _ _ x hx

/-- a figure whose rows say what they should -/
theorem struct_figure {env : Env} {m : EntityMeta} {tbl : Node} {names : List Str} {ty : StructTy} {key : Str} {k d : Nat}
    {head : Row} {rows : List Row} {ps : List (List Str × List Str)} (hf : m.figId ≠ []) (hov : env.overrides.lookup m.figId = none)
    (hn : columnNames tbl = names) (hnd : names.Nodup) (hattr : c!"attribute" ∉ names) (hL : LayoutColumns names ty key)
    (hk : names[k]? = some key) (hd : names[d]? = some c!"description") (hi : rowIter tbl = (head :: rows, none))
    (hth : containsTh head.node = true) (hcs : isInfix c!"List" (extractPossibleColspan head.node) = false)
    (hr : List.Forall₂ (RowSays k d) rows ps) :
    ∃ fs own, List.Forall₂ (fun p f => FieldOf p.1 p.2 f) ps fs ∧
      (∀ x ∈ own, ∃ l, x = .lint l ∧ l.fig = m.figId ∧ LayoutCode l.err) ∧
      ∀ fl, parseFigure env m tbl fl = ⟨own ++ [.ent ⟨m, .struct ty (layoutOrder ty fs)⟩], false, .ok ()⟩ := by
  obtain ⟨c, mapping, g1, g2, g3⟩ := layout_columns hL hnd hattr hk hd
  have hsz := size_pos tbl
  obtain ⟨n, hsn⟩ : ∃ n, tbl.size = n + 1 := ⟨tbl.size - 1, by omega⟩
  obtain ⟨fs, a1, a2⟩ := structRows_fields (parse := parseFig env n) (fig := m.figId) (h := c.handler) (cols := ⟨k, d, d⟩) hf rfl hr
  refine ⟨fs, headerIssues m.figId tbl ++ structEvs m.figId (layoutOrder ty fs), a1, ?_, fun fl => ?_⟩
  · intro x hx
    rcases List.mem_append.1 hx with hx | hx
    · simp only [headerIssues, List.mem_map] at hx
      obtain ⟨c, -, rfl⟩ := hx
      exact ⟨_, rfl, rfl, .inl rfl⟩
    · exact structEvs_codes _ _ x hx
  · unfold parseFigure
    rw [hsn, parseFig]
    unfold onParseFig
    rw [M.bind_run, M.setFlag_run]
    simp only
    rw [M.bind_run, C15_headers m.figId tbl hf false]
    simp only [hn, hov, g1]
    unfold runExtractor
    simp only [g3, M.ofExcept_ok, pure_bind]
    have hcall : callExtractor env (parseFig env n) (.struct c) m ⟨k, d, d⟩ tbl false =
        ⟨structEvs m.figId (layoutOrder ty fs) ++ [.ent ⟨m, .struct ty (layoutOrder ty fs)⟩], false, .ok ()⟩ := by
      unfold callExtractor structCall
      simp only [hi]
      rw [structRows, if_pos hth, hcs, Bool.false_or, M.bind_run, a2]
      simp only
      rw [g2, M.bind_run, validateStruct_run _ hf]
      rfl
    rw [M.tryCatch_run, hcall]
    simp

end
end Spex
