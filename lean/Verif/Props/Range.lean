import Verif.Lemmas.Str
/-
C01, C02, C03: decoding of range cells.
-/
set_option autoImplicit false
namespace Spex
variable [Uni]

/-! ### Specification -/

/-- `s` is a decimal numeral (ASCII digits, any leading zeros) of value `n`, within CPython's limit of 4300 digits. -/
def Numeral (s : Str) (n : Nat) : Prop :=
  s ≠ [] ∧ (∀ c ∈ s, c.isDigit = true) ∧ s.length ≤ 4300 ∧ Nat.ofDigitChars 10 s 0 = n

/-- The text `t` reads as the range from `low` to `high`: `high:low`, or `high` alone (then `low = high`), possibly
followed by text which does not continue the numbers. -/
inductive RangeText : Str → Nat → Nat → Prop where
  | pair {hs ls ws₁ ws₂ trail : Str} {low high : Nat} (h : Numeral hs high) (l : Numeral ls low)
      (w₁ : ∀ c ∈ ws₁, isSpace c = true) (w₂ : ∀ c ∈ ws₂, isSpace c = true)
      (t : ∀ c ∈ trail.head?, digit c = none) :
      RangeText (hs ++ ws₁ ++ ':' :: (ws₂ ++ ls ++ trail)) low high
  | single {hs ws trail : Str} {high : Nat} (h : Numeral hs high) (w : ∀ c ∈ ws, isSpace c = true)
      (t : ∀ c ∈ (ws ++ trail).head?, digit c = none)
      (t' : ∀ c ∈ trail.head?, isSpace c = false ∧ c ≠ ':') :
      RangeText (hs ++ ws ++ trail) high high

omit [Uni] in
/-- every natural number, written in decimal, possibly padded with zeros, is a numeral -/
theorem numeral_toDigits (k n : Nat) (h : k + (Nat.toDigits 10 n).length ≤ 4300) :
    Numeral (List.replicate k '0' ++ Nat.toDigits 10 n) n := by
  refine ⟨?_, ?_, by simpa using h, ?_⟩
  · have := Nat.length_toDigits_pos (b := 10) (n := n)
    intro h
    simp only [List.append_eq_nil_iff] at h
    rw [h.2] at this
    simp at this
  · intro c hc
    rcases List.mem_append.mp hc with hc | hc
    · rw [List.eq_of_mem_replicate hc]; rfl
    · exact Nat.isDigit_of_mem_toDigits (by decide) (by decide) hc
  · have hz : ∀ k, Nat.ofDigitChars 10 (List.replicate k '0') 0 = 0 := by
      intro k
      induction k with
      | zero => rfl
      | succ k ih =>
        rw [List.replicate_succ]
        show Nat.ofDigitChars 10 (List.replicate k '0') (10 * 0 + 0) = 0
        exact ih
    unfold Nat.ofDigitChars at *
    rw [List.foldl_append, hz]
    exact Nat.ofDigitChars_toDigits (by decide) (by decide)

/-! ### Closed form of `_parse_range` -/

theorem numeral_digits {s : Str} {n : Nat} (h : Numeral s n) :
    s ≠ [] ∧ (∀ c ∈ s, isDigit c = true) ∧ pyInt s = .ok (Int.ofNat n) := by
  obtain ⟨h1, h2, h3, h4⟩ := h
  have hd : ∀ c ∈ s, isDigit c = true := fun c hc => (isDigit_ascii (h2 c hc)).1
  refine ⟨h1, hd, ?_⟩
  rw [pyInt_digits h1 hd, if_neg (by unfold maxStrDigits; omega), digitsVal_ascii h2, h4]

theorem isDigit_false_iff {c : Char} : isDigit c = false ↔ digit c = none := by
  unfold isDigit; cases digit c <;> simp

theorem not_digit_colon : isDigit ':' = false := by
  rw [isDigit_false_iff, Uni.digit_ascii ':' (by decide)]; rfl

theorem rangeText_parts {t : Str} {low high : Nat} (h : RangeText t low high) :
    ∃ hs ol, rangeParts t = some (hs, ol) ∧ pyInt hs = .ok (Int.ofNat high) ∧
      (∀ ls, ol = some ls → pyInt ls = .ok (Int.ofNat low)) ∧ (ol = none → low = high) := by
  cases h with
  | @pair hs ls ws₁ ws₂ trail _ _ h l w₁ w₂ t =>
    obtain ⟨hne, hd, hv⟩ := numeral_digits h
    obtain ⟨lne, ld, lv⟩ := numeral_digits l
    refine ⟨hs, some ls, ?_, hv, ?_, by simp⟩
    · have hws : ∀ c ∈ (ws₁ ++ ':' :: (ws₂ ++ ls ++ trail)).head?, isDigit c = false := by
        intro c hc
        cases ws₁ with
        | nil =>
          simp only [List.nil_append, List.head?_cons, Option.mem_def, Option.some.injEq] at hc
          rw [← hc]
          exact not_digit_colon
        | cons x xs =>
          simp only [List.cons_append, List.head?_cons, Option.mem_def, Option.some.injEq] at hc
          rw [← hc]
          cases hx : isDigit x with
          | false => rfl
          | true =>
            have := isDigit_not_space hx
            rw [w₁ x (by simp)] at this
            exact absurd this (by decide)
      have hls : ∀ c ∈ (ls ++ trail).head?, isSpace c = false := by
        intro c hc
        cases ls with
        | nil => exact absurd rfl lne
        | cons x xs =>
          simp only [List.cons_append, List.head?_cons, Option.mem_def, Option.some.injEq] at hc
          rw [← hc]
          exact isDigit_not_space (ld x (by simp))
      have ht : ∀ c ∈ trail.head?, isDigit c = false := fun c hc => isDigit_false_iff.mpr (t c hc)
      unfold rangeParts
      simp only [List.append_assoc] at hws ⊢
      rw [takeWhile_append_head hd hws, dropWhile_append_head hd hws, if_neg hne,
        dropWhile_append_stop w₁ (by decide : isSpace ':' = false)]
      simp only
      rw [dropWhile_append_head w₂ hls, takeWhile_append_head ld ht, if_neg lne]
    · intro ls' h
      simp only [Option.some.injEq] at h
      rw [← h]
      exact lv
  | @single hs ws trail _ h w t t' =>
    obtain ⟨hne, hd, hv⟩ := numeral_digits h
    refine ⟨hs, none, ?_, hv, by simp, by simp⟩
    have ht : ∀ c ∈ (ws ++ trail).head?, isDigit c = false := fun c hc => isDigit_false_iff.mpr (t c hc)
    unfold rangeParts
    simp only [List.append_assoc]
    rw [takeWhile_append_head hd ht, dropWhile_append_head hd ht, if_neg hne,
      dropWhile_append_head w (fun c hc => (t' c hc).1)]
    cases trail with
    | nil => rfl
    | cons x xs =>
      have := (t' x rfl).2
      split
      · rename_i r heq
        simp only [List.cons.injEq] at heq
        exact absurd heq.1 this
      · rfl

theorem parseRange_none {fig v k : Str} (h : rangeParts v = none) (hf : fig ≠ []) (f : Bool) :
    parseRange fig v k f = ⟨[.lint (issue .rangeInvalid fig (some k))], f, .ok (.raw v)⟩ := by
  unfold parseRange
  rw [range_none h, addIssue_row hf]
  rfl

theorem parseRange_some {fig v k hs : Str} {ol : Option Str} (h : rangeParts v = some (hs, ol)) {hi lo : Int}
    (hh : pyInt hs = .ok hi) (hl : ∀ ls, ol = some ls → pyInt ls = .ok lo) (hn : ol = none → lo = hi)
    (hf : fig ≠ []) (f : Bool) :
    parseRange fig v k f =
      ⟨if lo > hi then [.lint (issue .rangeReversed fig (some k))] else [], f, .ok (.int lo hi)⟩ := by
  unfold parseRange
  obtain ⟨m, hm, hg1, hg2⟩ := range_some h
  rw [hm]
  simp only [hg1, hg2, Option.getD_some, hh, M.ofExcept_ok, pure_bind, rangeLow]
  cases ol with
  | none =>
    have := hn rfl
    subst this
    simp [M.pure_run]
  | some ls =>
    simp only [hl ls rfl, M.ofExcept_ok, pure_bind]
    split
    · rw [addIssue_row hf]; rfl
    · rfl

/-! ### C01 -/

/-- C01 (parser): a text reading as the range low..high is decoded to exactly these numbers, without diagnostics if
low ≤ high. -/
theorem C01_range_exact {t : Str} {low high : Nat} (h : RangeText t low high) (fig key : Str) (hf : fig ≠ []) (f : Bool) :
    (parseRange fig t key f).out = .ok (.int low high) ∧
    (low ≤ high → (parseRange fig t key f).evs = []) := by
  obtain ⟨hs, ol, h1, h2, h3, h4⟩ := rangeText_parts h
  rw [parseRange_some h1 h2 h3 (fun h => by rw [h4 h]) hf]
  refine ⟨rfl, fun hle => ?_⟩
  simp only [gt_iff_lt, Int.ofNat_eq_natCast, Int.ofNat_lt]
  rw [if_neg (by omega)]

/-- C01 (rows): a row of a bits/bytes table (outside dynamic lists) which yields a field and whose range cell reads as
low..high yields a field with exactly this range, whatever nested tables do. -/
theorem C01_row_range_exact {t : Str} {low high : Nat} (h : RangeText t low high)
    (parse : ParseFn) (fig : Str) (hf : fig ≠ []) (eh : ErrHandler) (cols : Cols) (row : Row) (f : Bool)
    {rc cc lc lp : Node} (hr : row.node.nthChild tTd (cols.key + 1) = some rc) (hrt : rc.toText = t)
    (hc : row.node.nthChild tTd (cols.content + 1) = some cc)
    (hl : row.node.nthChild tTd (cols.label + 1) = some lc) (hp : lc.nthChild tP 1 = some lp)
    {fld : StructField} (ho : (structRow parse fig eh cols false row f).out = .ok (.field fld)) :
    fld.range = .int low high := by
  have hp1 : ∀ k f, (parseRange fig t k f).out = .ok (.int low high) := fun k f => (C01_range_exact h fig k hf f).1
  have hx : extractFields cols row.node = .ok (t, cc.toText, lp.toText) := by
    unfold extractFields
    simp [hr, hc, hl, hp, req, hrt, Bind.bind, Except.bind, Pure.pure, Except.pure]
  unfold structRow at ho
  simp only [hx] at ho
  split at ho
  · split at ho
    · simp [M.pure_run] at ho
    · obtain ⟨r, hr1, ho, -⟩ := M.bind_out_ok ho
      rw [hp1, Except.ok.injEq] at hr1
      subst hr1
      cases hg : handleSpecialCase cc.toText (.int low high) with
      | none => rw [hg] at ho; simp [M.pure_run] at ho
      | some g =>
        rw [hg] at ho
        simp only [M.pure_run, Except.ok.injEq, RowOut.field.injEq] at ho
        rw [← ho]
        unfold handleSpecialCase at hg
        split at hg
        · simp only [Option.some.injEq] at hg; rw [← hg]; rfl
        · split at hg
          · simp only [Option.some.injEq] at hg; rw [← hg]; rfl
          · split at hg
            · simp only [Option.some.injEq] at hg; rw [← hg]; rfl
            · simp at hg
  · simp only [rowRange, Bool.false_eq_true, if_false] at ho
    rw [M.bind_ok (hp1 _ _)] at ho
    obtain ⟨_, -, ho, -⟩ := M.bind_out_ok ho
    obtain ⟨_, -, ho, -⟩ := M.bind_out_ok ho
    obtain ⟨_, -, ho, -⟩ := M.bind_out_ok ho
    simp only [M.pure_run, Except.ok.injEq, RowOut.field.injEq] at ho
    rw [← ho]
    rfl

/-- `007 : 4 (obsolete)` reads as 4..7 -/
example : RangeText c!"007 : 4 (obsolete)" 4 7 :=
  .pair (hs := c!"007") (ls := c!"4") (ws₁ := c!" ") (ws₂ := c!" ") (trail := c!" (obsolete)")
    ⟨by decide, by decide, by decide, by decide⟩ ⟨by decide, by decide, by decide, by decide⟩ (by decide) (by decide)
    (by intro c hc; simp at hc; subst hc; rw [Uni.digit_ascii _ (by decide)]; rfl)

/-- any two numbers, padded with zeros, form a range text -/
example (k₁ k₂ low high : Nat) (h₁ : k₁ + (Nat.toDigits 10 high).length ≤ 4300)
    (h₂ : k₂ + (Nat.toDigits 10 low).length ≤ 4300) :
    RangeText (List.replicate k₁ '0' ++ Nat.toDigits 10 high ++ ':' :: (List.replicate k₂ '0' ++ Nat.toDigits 10 low))
      low high := by
  simpa using RangeText.pair (ws₁ := []) (ws₂ := []) (trail := []) (numeral_toDigits k₁ high h₁) (numeral_toDigits k₂ low h₂)
    (by simp) (by simp) (by simp)

/-- a row meeting the hypotheses of `C01_row_range_exact` -/
example : letI := Uni.ascii
    (structRow (fun _ _ => Pure.pure ()) c!"9" .default ⟨0, 1, 1⟩ false
      ⟨.elem tTr [] [.elem tTd [] [.text c!"15:08"],
        .elem tTd [] [.elem tP [] [.text c!"Command Identifier (CID): x"]]], []⟩ false).out
      = .ok (.field ⟨c!"cid", .int 8 15, some c!"x"⟩) := by rfl

/-! ### C02 -/

/-- C02: outside dynamic lists, R1001 is raised iff the text does not start with a digit, and then the text itself is
the range; R1002 iff the decoded low exceeds the decoded high; no other event occurs; an exception (python's limit on
integer strings) is possible only if the text holds more than 4300 digits in a row. -/
theorem C02_range_diagnostics (fig t key : Str) (hf : fig ≠ []) (f : Bool) :
    ((∀ c ∈ t.head?, digit c = none) →
      (parseRange fig t key f).evs = [.lint (issue .rangeInvalid fig (some key))] ∧
      (parseRange fig t key f).out = .ok (.raw t)) ∧
    ((∃ c ∈ t.head?, digit c ≠ none) →
      (∃ low high : Nat, (parseRange fig t key f).out = .ok (.int low high) ∧
        (parseRange fig t key f).evs = if low > high then [.lint (issue .rangeReversed fig (some key))] else []) ∨
      ((parseRange fig t key f).out = .error .valueError ∧ (parseRange fig t key f).evs = [] ∧
        ∃ pre ds post, t = pre ++ ds ++ post ∧ (∀ c ∈ ds, isDigit c = true) ∧ ds.length > 4300)) := by
  constructor
  · intro h
    have : rangeParts t = none := by
      unfold rangeParts
      simp only
      rw [if_pos (takeWhile_eq_nil.mpr (fun c hc => isDigit_false_iff.mpr (h c hc)))]
    rw [parseRange_none this hf]
    exact ⟨rfl, rfl⟩
  · rintro ⟨c, hc, hd⟩
    have hne : t.takeWhile isDigit ≠ [] := by
      intro h
      have := takeWhile_eq_nil.mp h c hc
      exact hd (isDigit_false_iff.mp this)
    have had : ∀ s : Str, ∀ c ∈ s.takeWhile isDigit, isDigit c = true := by
      intro s c hc
      have := List.all_takeWhile (p := isDigit) (l := s)
      exact List.all_eq_true.mp this c hc
    cases hp : rangeParts t with
    | none =>
      exfalso
      unfold rangeParts at hp
      simp only [hne, if_false] at hp
      split at hp
      · split at hp <;> simp at hp
      · simp at hp
    | some pr =>
      obtain ⟨hs, ol⟩ := pr
      have hhs : hs = t.takeWhile isDigit ∧ ∀ ls, ol = some ls → ls ≠ [] ∧ (∀ c ∈ ls, isDigit c = true) ∧
          ∃ pre post, t = pre ++ ls ++ post := by
        unfold rangeParts at hp
        simp only [hne, if_false] at hp
        split at hp
        · rename_i r hr
          split at hp
          · simp only [Option.some.injEq, Prod.mk.injEq] at hp
            exact ⟨hp.1.symm, by rw [← hp.2]; simp⟩
          · rename_i hls
            simp only [Option.some.injEq, Prod.mk.injEq] at hp
            refine ⟨hp.1.symm, ?_⟩
            intro ls h
            rw [← hp.2, Option.some.injEq] at h
            rw [← h]
            refine ⟨hls, had _, ?_⟩
            refine ⟨t.takeWhile isDigit ++ ((t.dropWhile isDigit).takeWhile isSpace ++ ':' :: r.takeWhile isSpace),
              (r.dropWhile isSpace).dropWhile isDigit, ?_⟩
            have e1 := List.takeWhile_append_dropWhile (p := isDigit) (l := t)
            have e2 := List.takeWhile_append_dropWhile (p := isSpace) (l := t.dropWhile isDigit)
            have e3 := List.takeWhile_append_dropWhile (p := isSpace) (l := r)
            have e4 := List.takeWhile_append_dropWhile (p := isDigit) (l := r.dropWhile isSpace)
            conv => lhs; rw [← e1, ← e2, hr, ← e3, ← e4]
            simp [List.append_assoc]
        · simp only [Option.some.injEq, Prod.mk.injEq] at hp
          exact ⟨hp.1.symm, by rw [← hp.2]; simp⟩
      obtain ⟨m, hm, hg1, hg2⟩ := range_some hp
      have hsne : hs ≠ [] := by rw [hhs.1]; exact hne
      have hsd : ∀ c ∈ hs, isDigit c = true := by rw [hhs.1]; exact had t
      by_cases hlen : hs.length > maxStrDigits
      · right
        unfold parseRange
        rw [hm]
        simp only [hg1, Option.getD_some, pyInt_digits hsne hsd, if_pos hlen, M.ofExcept_error, M.raise_bind]
        refine ⟨rfl, rfl, [], hs, t.dropWhile isDigit, ?_, hsd, hlen⟩
        rw [hhs.1, List.nil_append, List.takeWhile_append_dropWhile]
      · have hhi := pyInt_digits hsne hsd
        rw [if_neg hlen] at hhi
        cases hol : ol with
        | none =>
          left
          refine ⟨digitsVal 0 hs, digitsVal 0 hs, ?_⟩
          rw [parseRange_some (lo := Int.ofNat (digitsVal 0 hs)) hp hhi (by simp [hol]) (fun _ => rfl) hf]
          exact ⟨rfl, by simp⟩
        | some ls =>
          obtain ⟨lne, ld, pre, post, hsplit⟩ := hhs.2 ls hol
          by_cases hlen2 : ls.length > maxStrDigits
          · right
            unfold parseRange
            rw [hm]
            simp only [hg1, hg2, hol, Option.getD_some, hhi, M.ofExcept_ok, pure_bind, rangeLow, pyInt_digits lne ld, if_pos hlen2,
              M.ofExcept_error, M.raise_bind]
            exact ⟨rfl, rfl, pre, ls, post, hsplit, ld, hlen2⟩
          · left
            have hlo := pyInt_digits lne ld
            rw [if_neg hlen2] at hlo
            refine ⟨digitsVal 0 ls, digitsVal 0 hs, ?_⟩
            rw [parseRange_some (lo := Int.ofNat (digitsVal 0 ls)) hp hhi (by
              intro ls' h; rw [hol, Option.some.injEq] at h; rw [← h]; exact hlo) (by simp [hol]) hf]
            exact ⟨rfl, by simp only [gt_iff_lt, Int.ofNat_eq_natCast, Int.ofNat_lt]⟩

/-- a reversed range `3:7` raises R1002 and nothing else; a text without leading digit raises R1001 -/
example : letI := Uni.ascii
    (parseRange c!"5" c!"3:7" c!"3:7" false).evs.length = 1 ∧
    (parseRange c!"5" c!"3:7" c!"3:7" false).out = .ok (.int 7 3) ∧
    (parseRange c!"5" c!"n:0" c!"n:0" false).out = .ok (.raw c!"n:0") := ⟨rfl, rfl, rfl⟩

/-! ### C03 -/

/-- characters of the formulas in dynamic lists: ASCII letters and digits, + - * ( ) and white space -/
def FormulaChar (c : Char) : Prop :=
  c.isAlphanum = true ∨ c ∈ ['+', '-', '*', '(', ')'] ∨ isSpace c = true

/-- the text without blanks and newlines -/
def squeeze (t : Str) : Str := t.filter (fun c => c != '\n' && c != ' ')

/-- the text reads `a:b`, possibly followed by something which does not continue the formula `b` -/
def DynText (t a b : Str) : Prop :=
  a ≠ [] ∧ b ≠ [] ∧ (∀ c ∈ a, FormulaChar c) ∧ (∀ c ∈ b, FormulaChar c) ∧
  ∃ trail, squeeze t = a ++ ':' :: (b ++ trail) ∧ ∀ c ∈ trail.head?, ¬ FormulaChar c

omit [Uni] in
theorem clsDynamic_iff (c : Char) : clsDynamic c = true ↔ FormulaChar c := by
  unfold clsDynamic FormulaChar
  simp only [Bool.or_eq_true, beq_iff_eq, List.mem_cons, List.not_mem_nil, or_false]
  constructor
  · rintro (((((( h | h) | h) | h) | h) | h) | h)
    · exact .inl h
    · exact .inr (.inl (.inl h))
    · exact .inr (.inl (.inr (.inl h)))
    · exact .inr (.inl (.inr (.inr (.inl h))))
    · exact .inr (.inl (.inr (.inr (.inr (.inl h)))))
    · exact .inr (.inl (.inr (.inr (.inr (.inr h)))))
    · exact .inr (.inr h)
  · rintro (h | (h | h | h | h | h) | h) <;> simp [h]

omit [Uni] in
theorem squeeze_eq (t : Str) : replace1 ' ' [] (replace1 '\n' [] t) = squeeze t := by
  rw [replace1_nil_eq_filter, replace1_nil_eq_filter, List.filter_filter]
  unfold squeeze
  congr 1
  funext c
  rw [Bool.and_comm]

omit [Uni] in
theorem dynParts_iff (t a b : Str) : dynParts (squeeze t) = some (a, b) ↔ DynText t a b := by
  generalize hs : squeeze t = s
  unfold DynText
  rw [hs]
  constructor
  · intro h
    simp only [dynParts] at h
    split at h
    · simp at h
    rename_i ha
    split at h
    · rename_i r hr
      split at h
      · simp at h
      rename_i hb
      simp only [Option.some.injEq, Prod.mk.injEq] at h
      obtain ⟨rfl, rfl⟩ := h
      have had : ∀ s : Str, ∀ c ∈ s.takeWhile clsDynamic, FormulaChar c := by
        intro s c hc
        have := List.all_takeWhile (p := clsDynamic) (l := s)
        exact (clsDynamic_iff c).mp (List.all_eq_true.mp this c hc)
      refine ⟨ha, hb, had _, had _, r.dropWhile clsDynamic, ?_, ?_⟩
      · rw [List.takeWhile_append_dropWhile, ← hr, List.takeWhile_append_dropWhile]
      · intro c hc hfc
        have := (clsDynamic_iff c).mpr hfc
        have h2 := List.head?_dropWhile_not clsDynamic r
        rw [Option.mem_def] at hc
        rw [hc] at h2
        simp only at h2
        rw [h2] at this
        exact absurd this (by decide)
    · simp at h
  · rintro ⟨ha, hb, hfa, hfb, trail, hsp, htr⟩
    have hfa' : ∀ c ∈ a, clsDynamic c = true := fun c hc => (clsDynamic_iff c).mpr (hfa c hc)
    have hfb' : ∀ c ∈ b, clsDynamic c = true := fun c hc => (clsDynamic_iff c).mpr (hfb c hc)
    have ht' : ∀ c ∈ trail.head?, clsDynamic c = false := by
      intro c hc
      cases h : clsDynamic c with
      | false => rfl
      | true => exact absurd ((clsDynamic_iff c).mp h) (htr c hc)
    simp only [dynParts]
    rw [hsp, takeWhile_append_stop hfa' clsDynamic_colon, if_neg ha, dropWhile_append_stop hfa' clsDynamic_colon]
    simp only
    rw [takeWhile_append_head hfb' ht', if_neg hb]

omit [Uni] in
/-- C03: in a dynamic list the text `a:b` is emitted as {low: b, high: a}, with blanks and newlines removed and no
diagnostic. -/
theorem C03_dynamic_range (fig t a b : Str) (h : DynText t a b) (f : Bool) :
    parseDynamicRange fig t f = ⟨[], f, .ok (.dyn b a)⟩ := by
  unfold parseDynamicRange
  rw [squeeze_eq]
  obtain ⟨m, hm, h1, h2⟩ := dynamic_some ((dynParts_iff t a b).mpr h)
  simp only [hm, h1, h2]
  rfl

omit [Uni] in
/-- C03: any other text is emitted verbatim, with R1001. -/
theorem C03_dynamic_range_invalid (fig t : Str) (hf : fig ≠ []) (h : ∀ a b, ¬ DynText t a b) (f : Bool) :
    parseDynamicRange fig t f = ⟨[.lint (issue .rangeInvalid fig (some t))], f, .ok (.raw t)⟩ := by
  unfold parseDynamicRange
  rw [squeeze_eq]
  have : dynParts (squeeze t) = none := by
    cases hd : dynParts (squeeze t) with
    | none => rfl
    | some p => exact absurd ((dynParts_iff t p.1 p.2).mp hd) (h _ _)
  simp only [dynamic_none this]
  rw [addIssue_row hf]
  rfl

example : DynText c!"(n*16) + 15 :\n (n*16)" c!"(n*16)+15" c!"(n*16)" :=
  ⟨by decide, by decide, by intro c hc; rw [← clsDynamic_iff]; revert c; decide,
   by intro c hc; rw [← clsDynamic_iff]; revert c; decide, [], by decide, by simp⟩

example : ∀ a b, ¬ DynText c!"n..m" a b := by
  intro a b h
  have := (dynParts_iff c!"n..m" a b).mpr h
  have h2 : dynParts (squeeze c!"n..m") = none := by decide
  rw [h2] at this
  exact absurd this (by simp)

end Spex
