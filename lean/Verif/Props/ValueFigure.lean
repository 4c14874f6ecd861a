import Verif.Props.StructFigure
import Verif.Props.LabelExact
/-
C75, the second stage: what becomes of a figure with a table of values whose cells say what they should.
-/
set_option autoImplicit false
namespace Spex

section
variable [Uni]

/-! ### Specification -/

/-- `b` is the brief of a cell with these texts (C05) -/
def ValueBriefOf (ts : List Str) (b : Option Str) : Prop := ∃ s, Woven ts s ∧ BriefIs (strip s) b

/-- the name of a value: a letter, and then letters, digits, and separators of words -/
def ValueName (name : Str) : Prop :=
  (∃ c w, name = c :: w ∧ c.isAlpha = true) ∧ (∀ c ∈ name, c.isAlphanum = true ∨ isSep c = true) ∧ name.getLast? ≠ some ' '

/-- The field which a row of a table of values stands for, by the texts of its value cell and of its description cell. The description starts with
the name of the value: the label is the name in capitals, with underscores between the words (`Joined`). Or the description starts
with a paragraph `Reserved`. Or the value is an ellipsis. -/
inductive ValueOf : List Str → List Str → ValueField → Prop where
  | named {v t name blanks rest u : Str} {ts : List Str} {brief : Option Str} (hv : lower (strip v) ≠ ELLIPSIS)
      (ht : strip t = name ++ blanks ++ rest) (hname : ValueName name) (hbl : ∀ c ∈ blanks, c = ' ')
      (hrest : ∀ c ∈ rest.head?, isWord c = false ∧ isSpace c = false ∧ c ≠ '/' ∧ c ≠ '-')
      (hres : upper (strip t) ≠ RESERVED) (hu : Joined name u) (hb : ValueBriefOf (t :: ts) brief) :
      ValueOf [v] (t :: ts) ⟨lower (strip v), u.map Char.toUpper, brief⟩
  | reserved {v t : Str} {ts : List Str} {brief : Option Str} (hv : lower (strip v) ≠ ELLIPSIS)
      (ht : (strip t).map Char.toUpper = RESERVED) (hb : ValueBriefOf (t :: ts) brief) :
      ValueOf [v] (t :: ts) ⟨lower (strip v), RESERVED, brief⟩
  | ellipsis {v : Str} {ts : List Str} (hv : lower (strip v) = ELLIPSIS) : ValueOf [v] ts ⟨ELLIPSIS, ELLIPSIS, none⟩

/-- A table with these columns is a table of values: the values are in the column `key`, the names and descriptions in the column `dsc`. Either
these are the only columns which can be taken for it, or there are no others. -/
inductive ValuesColumns (names : List Str) : Str → Str → Prop where
  | described {key dsc : Str} (hk : key = c!"value" ∨ key = c!"values") (hd : dsc = c!"definition" ∨ dsc = c!"description" ∨ dsc = c!"power scope")
      (h1 : ∀ x ∈ names, x = c!"value" ∨ x = c!"values" → x = key)
      (h2 : ∀ x ∈ names, x = c!"definition" ∨ x = c!"description" ∨ x = c!"power scope" → x = dsc)
      (h3 : c!"attribute" ∉ names) (h4 : c!"bytes" ∈ names → dsc ≠ c!"description") : ValuesColumns names key dsc
  | two {x : Str} (hx : x ≠ []) (h1 : x ≠ c!"value") (h2 : x ≠ c!"values") (h3 : x ≠ c!"attribute")
      (h : names = [c!"value", x] ∨ names = [x, c!"value"]) : ValuesColumns names c!"value" x

/-- the diagnostics about names of columns, and about values and labels which occur twice -/
def ValuesCode (c : LintErr) : Prop := c = .tblHdrErr ∨ c = .lblDuplicate ∨ c = .valDuplicate

/-! ### Proof -/

omit [Uni] in
theorem Joined.chars {s u : Str} (h : Joined s u) : ∀ c ∈ u, c = '_' ∨ c ∈ s ∧ isSep c = false := by
  induction h with
  | nil => intro c hc; cases hc
  | char c s t h1 _ ih =>
    intro d hd
    rcases List.mem_cons.1 hd with rfl | hd
    · exact .inr ⟨List.mem_cons_self, h1⟩
    · exact (ih d hd).imp_right (fun h => ⟨List.mem_cons_of_mem _ h.1, h.2⟩)
  | run r s t _ _ _ _ ih =>
    intro d hd
    rcases List.mem_append.1 hd with hd | hd
    · exact .inl (List.eq_of_mem_replicate hd)
    · exact (ih d hd).imp_right (fun h => ⟨List.mem_append_right _ h.1, h.2⟩)

theorem alnum_class {c : Char} (h : c.isAlphanum = true ∨ isSep c = true) : c.toNat < 128 ∧ clsValueLabel c = true := by
  rcases h with h | h
  · have hlt := alnum_lt h
    refine ⟨hlt, ?_⟩
    unfold clsValueLabel
    rw [Uni.isWord_ascii _ hlt, h]
    rfl
  · unfold isSep at h
    simp only [Bool.or_eq_true, beq_iff_eq] at h
    rcases h with ((rfl | rfl) | rfl) | rfl
    · exact ⟨by decide, by unfold clsValueLabel; rw [show isSpace ' ' = true by decide]; simp⟩
    · exact ⟨by decide, by unfold clsValueLabel; simp⟩
    · exact ⟨by decide, by unfold clsValueLabel; rw [Uni.isWord_ascii _ (by decide)]; rfl⟩
    · exact ⟨by decide, by unfold clsValueLabel; simp⟩

theorem upper_ascii_map {s : Str} (hs : ∀ c ∈ s, c.toNat < 128) : upper s = s.map Char.toUpper := by
  unfold upper
  induction s with
  | nil => rfl
  | cons c s ih =>
    rw [List.flatMap_cons, List.map_cons, Uni.upper_ascii c (hs c List.mem_cons_self), ih (fun x hx => hs x (List.mem_cons_of_mem _ hx))]
    rfl

/-- the label made of a name -/
theorem value_label {name blanks : Str} (hn : ValueName name) (hbl : ∀ c ∈ blanks, c = ' ') :
    ∃ u, Joined name u ∧ normalizeLabel (rearrangeNumLabel (name ++ blanks)) = u.map Char.toUpper ∧ Identifier (u.map Char.toUpper) := by
  obtain ⟨⟨c, w, hcw, hc⟩, hch, hlast⟩ := hn
  have hcd : isDigit c = false := by
    have : c.isAlphanum = true := by unfold Char.isAlphanum; rw [hc]; rfl
    rw [isDigit_false_iff, Uni.digit_ascii c (alnum_lt this), if_neg]
    rw [isDigit_iff]
    have := (isAlpha_iff c).1 hc
    omega
  have hsp : ∀ x ∈ name, isSpace x = true → x = ' ' := by
    intro x hx hs
    rcases hch x hx with h | h
    · rw [alnum_not_space h] at hs; cases hs
    · unfold isSep at h
      simp only [Bool.or_eq_true, beq_iff_eq] at h
      rcases h with ((rfl | rfl) | rfl) | rfl
      · rfl
      all_goals revert hs; decide
  have hre : rearrangeNumLabel (name ++ blanks) = name ++ blanks := by
    have hnl : '\n' ∉ name ++ blanks := by
      intro h
      rcases List.mem_append.1 h with h | h
      · have := hch _ h; revert this; decide
      · have := hbl _ h; revert this; decide
    have := C09_rearrange_num_label [] (name ++ blanks) (by simp) (by
      intro d hd
      rw [hcw] at hd
      simp at hd
      subst hd; exact hcd) hnl
    simpa using this
  have hstrip : rstripBy isSpace (lstripBy isSpace (name ++ blanks)) = name := by
    have := strip_of (s1 := []) (t := name) (s2 := blanks) (by simp) (by
      intro x hx
      rw [hbl x hx]; decide) (by
      intro x hx
      rw [hcw] at hx
      simp at hx
      subst hx
      have : c.isAlphanum = true := by unfold Char.isAlphanum; rw [hc]; rfl
      exact alnum_not_space this) (by
      intro x hx
      rw [Bool.eq_false_iff]
      intro hs
      rw [hsp x (List.mem_of_getLast? hx) hs] at hx
      exact hlast hx)
    rw [List.nil_append] at this
    exact this
  have hJ := joined_exists name
  have hchars := hJ.chars
  have hasc : ∀ x ∈ replace2 '_' ['_'] (name.flatMap sepMap), x.toNat < 128 := by
    intro x hx
    rcases hchars x hx with rfl | ⟨h1, -⟩
    · decide
    · exact (alnum_class (hch x h1)).1
  refine ⟨_, hJ, ?_, ?_⟩
  · rw [hre, normalizeLabel, replace1_three, hstrip, upper_ascii_map hasc]
  · subst hcw
    have hcs : isSep c = false := by
      have h1 := (isAlpha_iff c).1 hc
      rw [Bool.eq_false_iff]
      intro h
      unfold isSep at h
      simp only [Bool.or_eq_true, beq_iff_eq] at h
      rcases h with ((rfl | rfl) | rfl) | rfl <;> revert h1 <;> decide
    generalize replace2 '_' ['_'] ((c :: w).flatMap sepMap) = u at hJ hchars
    obtain ⟨v, rfl, -⟩ := hJ.head hcs
    refine ⟨c.toUpper, v.map Char.toUpper, rfl, (toUpper_alnum (by unfold Char.isAlphanum; rw [hc]; rfl)).2.1 hc, ?_⟩
    intro x hx
    obtain ⟨y, hy, rfl⟩ := List.mem_map.1 hx
    rcases hchars y (List.mem_cons_of_mem _ hy) with rfl | ⟨h1, h2⟩
    · rw [Uni.isWord_ascii _ (by decide)]; decide
    · rcases hch y h1 with h | h
      · have := (toUpper_alnum h).1
        rw [Uni.isWord_ascii _ (alnum_lt this), this]; rfl
      · rw [h] at h2; cases h2

/-- a row whose cells say what they should gives the field -/
theorem valueRow_field {parse : ParseFn} {ov : List ((Str × Str) × Str)} {fig : Str} {cols : Cols} {row : Row} {vc cc : Node}
    {vs ts : List Str} {f : ValueField} (hf : fig ≠ []) (hcol : cols.content = cols.label) (hov : ∀ v, ov.lookup (fig, v) = none)
    (hk : (row.node.childs tTd)[cols.key]? = some vc) (hc : (row.node.childs tTd)[cols.content]? = some cc)
    (hv : HasTexts vs vc) (ht : HasTexts ts cc) (hF : ValueOf vs ts f) :
    ∃ f', ValueOf vs ts f' ∧ ∀ fl, valueRow parse ov fig cols row fl = ⟨[], fl, .ok (.field f')⟩ := by
  have hbrief : ValueBriefOf ts (contentExtractBrief cc.toText) := ⟨cc.flat, ht.whole, (C05_brief_exact _ _).1 rfl⟩
  have hk' : row.node.nthChild tTd (cols.key + 1) = some vc := hk
  have hc' : row.node.nthChild tTd (cols.content + 1) = some cc := hc
  -- the row, by its label
  have key : ∀ {v t label : Str} {ts : List Str}, HasTexts [v] vc → HasTexts (t :: ts) cc → lower (strip v) ≠ ELLIPSIS →
      (∀ key fl, labelTextSame fig key cc fl = ⟨[], fl, .ok none⟩ ∧ label = RESERVED ∨
        ∃ l, labelTextSame fig key cc fl = ⟨[], fl, .ok (some l)⟩ ∧ normalizeLabel (rearrangeNumLabel l) = label ∧ Identifier label) →
      ∀ fl, valueRow parse ov fig cols row fl = ⟨[], fl, .ok (.field ⟨lower (strip v), label, contentExtractBrief cc.toText⟩)⟩ := by
    intro v t label ts hv ht hne hlab fl
    have hvt : vc.toText = strip v := hv.single v rfl
    have hl : valueLabel ov fig cols row.node (lower (strip v)) cc fl = ⟨[], fl, .ok label⟩ := by
      unfold valueLabel
      simp only [hov]
      unfold extractLabelValue labelText
      rw [if_neg (by rw [hcol]; simp), M.bind_run]
      rcases hlab (lower (strip v)) fl with ⟨h1, rfl⟩ | ⟨l, h1, h2, h3⟩
      · rw [h1]; rfl
      · rw [h1]
        simp only [h2]
        rw [M.bind_run, (validateLabel_eq label fig (lower (strip v)) hf).1 (.inl h3)]
        rfl
    unfold valueRow
    simp only [hk', hc', hvt]
    rw [if_neg hne, M.bind_run, hl]
    simp only [extractDataSubTable, ht.no_table, subTables, List.nil_append]
    rfl
  cases hF with
  | @named v t name blanks rest u ts brief h1 h2 h3 h4 h5 h6 h7 h8 =>
    obtain ⟨u', j1, j2, j3⟩ := value_label h3 h4
    refine ⟨_, .named h1 h2 h3 h4 h5 h6 j1 hbrief, key hv ht h1 (fun k fl => .inr ⟨name ++ blanks, ?_, j2, j3⟩)⟩
    obtain ⟨p, hp1, hp2⟩ := ht.first
    obtain ⟨m, hm1, hm2⟩ := valueLabel_match (strip t)
    have htw : (strip t).takeWhile clsValueLabel = name ++ blanks := by
      rw [h2]
      refine takeWhile_before ?_ ?_
      · intro c hc
        rcases List.mem_append.1 hc with hc | hc
        · exact (alnum_class (h3.2.1 c hc)).2
        · rw [h4 c hc]
          exact (alnum_class (.inr (by decide))).2
      · intro c hc
        obtain ⟨g1, g2, g3, g4⟩ := h5 c hc
        unfold clsValueLabel
        rw [g1, g2, beq_eq_false_iff_ne.2 g3, beq_eq_false_iff_ne.2 g4]
        rfl
    have hx : extractContent cc = some (strip t) := by
      unfold extractContent
      have : cc.nthChild tP 1 = some p := by
        unfold Node.nthChild
        rw [← List.head?_eq_getElem?]
        exact hp1
      rw [this, Option.map_some, hp2]
    unfold labelTextSame
    rw [hx]
    simp only [if_neg h6, hm1, hm2, Option.getD_some, htw]
    obtain ⟨⟨c, w, rfl, -⟩, -⟩ := h3
    rw [if_pos (by simp)]
    rfl
  | @reserved v t ts brief h1 h2 h3 =>
    refine ⟨_, .reserved h1 h2 hbrief, key hv ht h1 (fun k fl => .inl ⟨?_, rfl⟩)⟩
    obtain ⟨p, hp1, hp2⟩ := ht.first
    have hasc : ∀ c ∈ strip t, c.toNat < 128 := by
      intro c hc
      have hm : c.toUpper ∈ RESERVED := by rw [← h2]; exact List.mem_map_of_mem hc
      rcases toUpper_cases c with e | ⟨e1, e2, -⟩
      · rw [e] at hm
        have : ∀ x ∈ RESERVED, x.toNat < 128 := by decide
        exact this c hm
      · omega
    have hx : extractContent cc = some (strip t) := by
      unfold extractContent
      have : cc.nthChild tP 1 = some p := by
        unfold Node.nthChild
        rw [← List.head?_eq_getElem?]
        exact hp1
      rw [this, Option.map_some, hp2]
    unfold labelTextSame
    rw [hx]
    simp only [upper_ascii_map hasc, h2, if_true]
    rfl
  | @ellipsis v ts h1 =>
    refine ⟨_, .ellipsis h1, fun fl => ?_⟩
    unfold valueRow
    simp only [hk', hc', hv.single v rfl, h1, if_true]
    rfl

/-- the row has no header cells, and its cells in the columns `k` and `d` have these texts, which say what they should -/
def ValueRowSays (k d : Nat) (row : Row) (p : List Str × List Str) : Prop :=
  row.node.childs tTh = [] ∧ ∃ vc cc f, (row.node.childs tTd)[k]? = some vc ∧ (row.node.childs tTd)[d]? = some cc ∧
    HasTexts p.1 vc ∧ HasTexts p.2 cc ∧ ValueOf p.1 p.2 f

theorem valueRows_fields {parse : ParseFn} {ov : List ((Str × Str) × Str)} {fig : Str} {cols : Cols} (hf : fig ≠ []) (hcol : cols.content = cols.label)
    (hov : ∀ v, ov.lookup (fig, v) = none)
    {rows : List Row} {ps : List (List Str × List Str)} (hr : List.Forall₂ (ValueRowSays cols.key cols.content) rows ps) :
    ∃ fs, List.Forall₂ (fun p f => ValueOf p.1 p.2 f) ps fs ∧
      ∀ fl, valueRows parse ov fig cols none rows fl = ⟨[], fl, .ok fs⟩ := by
  induction hr with
  | nil => exact ⟨[], .nil, fun fl => rfl⟩
  | @cons row p rows ps h1 _ ih =>
    obtain ⟨fs, g1, g2⟩ := ih
    obtain ⟨hth, vc, cc, f, a1, a2, a3, a4, a5⟩ := h1
    obtain ⟨f', b1, b2⟩ := valueRow_field (parse := parse) hf hcol hov a1 a2 a3 a4 a5
    refine ⟨f' :: fs, .cons b1 g1, fun fl => ?_⟩
    rw [valueRows]
    have : containsTh row.node = false := by unfold containsTh; rw [hth]; rfl
    rw [if_neg (by rw [this]; decide), M.bind_run, b2]
    simp only
    rw [M.bind_run, g2]
    rfl

/-- the columns of a table of values -/
theorem values_columns {names : List Str} {key dsc : Str} (h : ValuesColumns names key dsc) (hnd : names.Nodup)
    {k d : Nat} (hk : names[k]? = some key) (hd : names[d]? = some dsc) :
    ∃ mapping, firstApplicable extractors names = some (.value, mapping) ∧ mkCols names mapping = .ok ⟨k, d, d⟩ := by
  have hkm := List.mem_of_getElem? hk
  have hdm := List.mem_of_getElem? hd
  have hch : chosen names = some .value := by
    refine (C13_choice names).2.1 ?_ ?_
    · rintro ⟨g1, g2⟩
      cases h with
      | described hk hd h1 h2 h3 h4 => exact h4 g1 (h2 _ g2 (.inr (.inl rfl))).symm
      | two hx h1 h2 h3 h =>
        rcases h with rfl | rfl <;>
          simp only [List.mem_cons, List.not_mem_nil, or_false] at g1 g2 <;> rcases g1 with g1 | g1 <;> rcases g2 with g2 | g2 <;>
            first
              | (rw [← g1] at g2; revert g2; decide)
              | (revert g1; decide)
              | (revert g2; decide)
    · cases h with
      | described hk hd h1 h2 h3 h4 => exact .inl ⟨⟨_, hkm, hk⟩, ⟨_, hdm, hd⟩⟩
      | @two x hx h1 h2 h3 h => exact .inr ⟨_, hx, h1, h.imp id (fun e => ⟨e, h2⟩)⟩
  unfold chosen at hch
  cases hfa : firstApplicable extractors names with
  | none => rw [hfa] at hch; cases hch
  | some p =>
    obtain ⟨cl, mapping⟩ := p
    rw [hfa, Option.map_some, Option.some.injEq] at hch
    simp only at hch
    subst hch
    have happ : Cls.value.canApply names = some mapping := by
      have : ∀ l, firstApplicable l names = some (.value, mapping) → Cls.value.canApply names = some mapping := by
        intro l
        induction l with
        | nil => intro h; cases h
        | cons a l ih =>
          intro h
          rw [firstApplicable] at h
          cases ha : a.canApply names with
          | none => rw [ha] at h; exact ih h
          | some m =>
            rw [ha] at h
            simp only [Option.some.injEq, Prod.mk.injEq] at h
            rw [← h.1, ← h.2, ha]
      exact this _ hfa
    obtain ⟨⟨ck, cl, cc⟩, g1, g2, g3⟩ := C14_value_columns names mapping happ hnd
    refine ⟨mapping, rfl, ?_⟩
    rw [g1]
    simp only at g2 g3
    have hkey : ck = k := by
      refine g2.eq hk hnd (fun x hx hm => ?_)
      simp only [valueHdrs, List.mem_cons, List.not_mem_nil, or_false] at hm
      cases h with
      | described hk hd h1 h2 h3 h4 => exact h1 x hx hm
      | two hy h1 h2 h3 h =>
        rcases h with rfl | rfl <;> simp only [List.mem_cons, List.not_mem_nil, or_false] at hx <;> rcases hx with rfl | rfl
        · rfl
        · exact hm.elim id (fun e => absurd e h2)
        · exact hm.elim id (fun e => absurd e h2)
        · rfl
    have hd' := hd
    have hlc : cl = d ∧ cc = d := by
      rcases g3 with ⟨g3, g4⟩ | ⟨g3, g4, g5, g6, g7⟩
      · cases h with
        | described hk hd h1 h2 h3 h4 =>
          refine ⟨g3.eq hd' hnd (fun x hx hm => ?_), g4.eq hd' hnd (fun x hx hm => ?_)⟩
          · simp only [valueLabelHdrs, List.mem_cons, List.not_mem_nil, or_false] at hm
            rcases hm with rfl | hm
            · exact absurd hx h3
            · exact h2 x hx hm
          · simp only [valueContentHdrs, List.mem_cons, List.not_mem_nil, or_false] at hm
            exact h2 x hx hm
        | two hy h1 h2 h3 h =>
          have only : ∀ x ∈ names, x ≠ c!"value" → x = dsc := by
            rcases h with rfl | rfl <;> intro x hx <;> simp only [List.mem_cons, List.not_mem_nil, or_false] at hx <;>
              rcases hx with rfl | rfl <;> intro h <;> first | rfl | exact absurd rfl h
          refine ⟨g3.eq hd' hnd (fun x hx hm => only x hx ?_), g4.eq hd' hnd (fun x hx hm => only x hx ?_)⟩ <;>
            rintro rfl <;> revert hm <;> decide
      · rw [hkey] at g4 g6
        have hlt := (List.getElem?_eq_some_iff.1 hd).1
        have hlk := (List.getElem?_eq_some_iff.1 hk).1
        have hne : d ≠ k := by
          rintro rfl
          rw [hd] at g4
          injection g4 with g4
          cases h with
          | described hk' hd h1 h2 h3 h4 =>
            rw [g4] at hd
            revert hd; decide
          | two hy h1 h2 h3 h => exact h1 g4
        omega
    rw [hkey, hlc.1, hlc.2]

omit [Uni] in
theorem valuesEvs_codes (fig : Str) (fs : List ValueField) : ∀ x ∈ valuesEvs fig fs, ∃ l, x = .lint l ∧ l.fig = fig ∧ ValuesCode l.err := by
  have hl : ∀ (fs : List ValueField) labels values, ∀ x ∈ valueEvs fig labels values fs, ∃ l, x = .lint l ∧ l.fig = fig ∧ ValuesCode l.err := by
    intro fs
    induction fs with
    | nil => intro labels prev x hx; simp [valueEvs] at hx
    | cons f fs ih =>
      intro labels prev x hx
      simp only [valueEvs] at hx
      split at hx
      · rcases List.mem_append.mp hx with hx | hx
        · unfold stepValue at hx
          rcases List.mem_append.mp hx with hx | hx <;> split at hx
          all_goals first | cases hx; done | skip
          all_goals
            simp only [List.mem_singleton] at hx
            first
              | exact ⟨_, hx, rfl, .inr (.inl rfl)⟩
              | exact ⟨_, hx, rfl, .inr (.inr rfl)⟩
        · exact ih _ _ x hx
      · exact ih _ _ x hx
  intro x hx
  unfold valuesEvs at hx
  split at hx
  · cases hx
  · exact hl _ _ _ x hx

/-- a figure whose rows say what they should -/
theorem value_figure {env : Env} {m : EntityMeta} {tbl : Node} {names : List Str} {key dsc : Str} {k d : Nat}
    {head : Row} {rows : List Row} {ps : List (List Str × List Str)} (hf : m.figId ≠ []) (hov : env.overrides.lookup m.figId = none)
    (hlo : ∀ v, env.labelOverrides.lookup (m.figId, v) = none)
    (hn : columnNames tbl = names) (hnd : names.Nodup) (hL : ValuesColumns names key dsc)
    (hk : names[k]? = some key) (hd : names[d]? = some dsc) (hi : rowIter tbl = (head :: rows, none))
    (hth : containsTh head.node = true) (hr : List.Forall₂ (ValueRowSays k d) rows ps) :
    ∃ fs own, List.Forall₂ (fun p f => ValueOf p.1 p.2 f) ps fs ∧
      (∀ x ∈ own, ∃ l, x = .lint l ∧ l.fig = m.figId ∧ ValuesCode l.err) ∧
      ∀ fl, parseFigure env m tbl fl = ⟨own ++ [.ent ⟨m, .values fs⟩], false, .ok ()⟩ := by
  obtain ⟨mapping, g1, g3⟩ := values_columns hL hnd hk hd
  have hsz := size_pos tbl
  obtain ⟨n, hsn⟩ : ∃ n, tbl.size = n + 1 := ⟨tbl.size - 1, by omega⟩
  obtain ⟨fs, a1, a2⟩ := valueRows_fields (parse := parseFig env n) (fig := m.figId) (cols := ⟨k, d, d⟩) hf rfl hlo hr
  refine ⟨fs, headerIssues m.figId tbl ++ valuesEvs m.figId fs, a1, ?_, fun fl => ?_⟩
  · intro x hx
    rcases List.mem_append.1 hx with hx | hx
    · simp only [headerIssues, List.mem_map] at hx
      obtain ⟨c, -, rfl⟩ := hx
      exact ⟨_, rfl, rfl, .inl rfl⟩
    · exact valuesEvs_codes _ _ x hx
  · unfold parseFigure
    rw [hsn, parseFig]
    unfold onParseFig
    rw [M.bind_run, M.setFlag_run]
    simp only
    rw [M.bind_run, C15_headers m.figId tbl hf false]
    simp only [hn, hov, g1]
    unfold runExtractor
    simp only [g3, M.ofExcept_ok, pure_bind]
    have hcall : callExtractor env (parseFig env n) .value m ⟨k, d, d⟩ tbl false =
        ⟨valuesEvs m.figId fs ++ [.ent ⟨m, .values fs⟩], false, .ok ()⟩ := by
      unfold callExtractor valueCall
      simp only [hi]
      rw [valueRows, if_pos hth, M.bind_run, a2]
      simp only
      rw [M.bind_run, validateValues_run _ hf]
      rfl
    rw [M.tryCatch_run, hcall]
    simp

end
end Spex
