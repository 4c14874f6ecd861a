import Verif.Props.Range
import Verif.Props.Brief
/-
C01, C02: just which range a text stands for, for every text.
-/
set_option autoImplicit false
namespace Spex
variable [Uni]

/-! ### Specification -/

/-- a number in decimal digits, of any script -/
def DecimalOf (s : Str) (n : Nat) : Prop :=
  s ≠ [] ∧ (∀ c ∈ s, digit c ≠ none) ∧ s.foldl (fun a c => 10 * a + (digit c).getD 0) 0 = n

/-- the digits at the start of the text, and those behind the colon which follows, if there are any -/
inductive Numbers (t : Str) : Str → Option Str → Prop
  | pair (hs ws₁ ws₂ ls rest : Str) : t = hs ++ ws₁ ++ ':' :: (ws₂ ++ ls ++ rest) → hs ≠ [] → ls ≠ [] → (∀ c ∈ hs, digit c ≠ none) →
      (∀ c ∈ ws₁ ++ ws₂, isSpace c = true) → LongestRun (fun c => digit c ≠ none) ls rest → Numbers t hs (some ls)
  | single (hs rest : Str) : t = hs ++ rest → hs ≠ [] → LongestRun (fun c => digit c ≠ none) hs rest →
      (∀ ws₁ ws₂ rest', rest = ws₁ ++ ':' :: (ws₂ ++ rest') → (∀ c ∈ ws₁ ++ ws₂, isSpace c = true) → ∀ c ∈ rest'.head?, digit c = none) →
      Numbers t hs none

/-- What the text of a range cell stands for, and what is reported: a number, two numbers, or else the text itself. Numbers of more than
4300 digits are an error. -/
inductive RangeIs (fig key t : Str) : List Ev → Except Exn RangeV → Prop
  | text : (∀ c ∈ t.head?, digit c = none) → RangeIs fig key t [.lint (issue .rangeInvalid fig (some key))] (.ok (.raw t))
  | one (hs : Str) (n : Nat) : Numbers t hs none → DecimalOf hs n → hs.length ≤ 4300 → RangeIs fig key t [] (.ok (.int n n))
  | two (hs ls : Str) (low high : Nat) : Numbers t hs (some ls) → DecimalOf hs high → DecimalOf ls low → hs.length ≤ 4300 → ls.length ≤ 4300 →
      low ≤ high → RangeIs fig key t [] (.ok (.int low high))
  | reversed (hs ls : Str) (low high : Nat) : Numbers t hs (some ls) → DecimalOf hs high → DecimalOf ls low → hs.length ≤ 4300 →
      ls.length ≤ 4300 → high < low → RangeIs fig key t [.lint (issue .rangeReversed fig (some key))] (.ok (.int low high))
  | long (hs : Str) (ol : Option Str) : Numbers t hs ol → (hs.length > 4300 ∨ ∃ ls, ol = some ls ∧ ls.length > 4300) →
      RangeIs fig key t [] (.error .valueError)

/-- the same in a dynamic list: two formulas, or the text itself -/
inductive DynamicIs (fig t : Str) : List Ev → RangeV → Prop
  | formulas (a b : Str) : DynText t a b → DynamicIs fig t [] (.dyn b a)
  | text : (∀ a b, ¬ DynText t a b) → DynamicIs fig t [.lint (issue .rangeInvalid fig (some t))] (.raw t)

/-! ### Proof -/

theorem isDigit_true_iff (c : Char) : isDigit c = true ↔ digit c ≠ none := by
  unfold isDigit; cases digit c <;> simp

theorem Numbers.eq {t hs : Str} {ol : Option Str} (h : Numbers t hs ol) : rangeParts t = some (hs, ol) := by
  cases h with
  | pair ws₁ ws₂ ls rest ht h1 h2 h3 h4 h5 =>
    have hd : ∀ c ∈ hs, isDigit c = true := fun c hc => (isDigit_true_iff c).2 (h3 c hc)
    have hld : ∀ c ∈ ls, isDigit c = true := fun c hc => (isDigit_true_iff c).2 (h5.1 c hc)
    have hws : ∀ c ∈ (ws₁ ++ ':' :: (ws₂ ++ ls ++ rest)).head?, isDigit c = false := by
      intro c hc
      cases ws₁ with
      | nil =>
        simp only [List.nil_append, List.head?_cons, Option.mem_def, Option.some.injEq] at hc
        rw [← hc]; exact not_digit_colon
      | cons x xs =>
        simp only [List.cons_append, List.head?_cons, Option.mem_def, Option.some.injEq] at hc
        rw [← hc]
        cases hx : isDigit x with
        | false => rfl
        | true =>
          have := isDigit_not_space hx
          rw [h4 x (by simp)] at this
          cases this
    have hls : ∀ c ∈ (ls ++ rest).head?, isSpace c = false := by
      intro c hc
      cases ls with
      | nil => exact absurd rfl h2
      | cons x xs =>
        simp only [List.cons_append, List.head?_cons, Option.mem_def, Option.some.injEq] at hc
        rw [← hc]
        exact isDigit_not_space (hld x (by simp))
    unfold rangeParts
    rw [ht]
    simp only [List.append_assoc] at hws ⊢
    rw [takeWhile_append_head hd hws, dropWhile_append_head hd hws, if_neg h1,
      dropWhile_append_stop (fun c hc => h4 c (List.mem_append.2 (.inl hc))) (by decide : isSpace ':' = false)]
    simp only
    rw [dropWhile_append_head (fun c hc => h4 c (List.mem_append.2 (.inr hc))) hls, (h5.parts isDigit_true_iff).1, if_neg h2]
  | single rest ht h1 h2 h3 =>
    unfold rangeParts
    have e := h2.parts isDigit_true_iff
    rw [ht]
    simp only [e.1, e.2, if_neg h1]
    cases hr : rest.dropWhile isSpace with
    | nil => rfl
    | cons x r =>
      by_cases hx : x = ':'
      · subst hx
        have e1 := List.takeWhile_append_dropWhile (p := isSpace) (l := rest)
        have e2 := List.takeWhile_append_dropWhile (p := isSpace) (l := r)
        have := h3 (rest.takeWhile isSpace) (r.takeWhile isSpace) (r.dropWhile isSpace) (by rw [e2, ← hr, e1]) (by
          intro c hc
          rcases List.mem_append.1 hc with hc | hc <;> exact List.all_eq_true.mp List.all_takeWhile c hc)
        simp only
        rw [if_pos (takeWhile_eq_nil.2 (fun c hc => isDigit_false_iff.2 (this c hc)))]
      · split
        · rename_i heq
          exact absurd (List.cons.inj heq).1 hx
        · rfl

theorem Numbers.exists {t : Str} (h : ∃ c ∈ t.head?, digit c ≠ none) : ∃ hs ol, Numbers t hs ol := by
  obtain ⟨hs, rest, e1, h1⟩ := LongestRun.exists isDigit_true_iff t
  have hne : hs ≠ [] := by
    rintro rfl
    obtain ⟨c, hc, hd⟩ := h
    exact h1.2 c (by rw [e1] at hc; exact hc) hd
  by_cases hp : ∃ ws₁ ws₂ rest', rest = ws₁ ++ ':' :: (ws₂ ++ rest') ∧ (∀ c ∈ ws₁ ++ ws₂, isSpace c = true) ∧ ∃ c ∈ rest'.head?, digit c ≠ none
  · obtain ⟨ws₁, ws₂, rest', e2, h2, c, hc, hd⟩ := hp
    obtain ⟨ls, rest'', e3, h3⟩ := LongestRun.exists isDigit_true_iff rest'
    refine ⟨hs, some ls, .pair hs ws₁ ws₂ ls rest'' (by rw [e1, e2, e3]; simp) hne ?_ h1.1 h2 h3⟩
    rintro rfl
    exact h3.2 c (by rw [e3] at hc; exact hc) hd
  · refine ⟨hs, none, .single hs rest e1 hne h1 ?_⟩
    intro ws₁ ws₂ rest' e2 h2 c hc
    refine Classical.byContradiction fun hd => ?_
    exact hp ⟨ws₁, ws₂, rest', e2, h2, c, hc, hd⟩

theorem Numbers.digits {t hs : Str} {ol : Option Str} (h : Numbers t hs ol) :
    (hs ≠ [] ∧ ∀ c ∈ hs, isDigit c = true) ∧ ∀ ls, ol = some ls → ls ≠ [] ∧ ∀ c ∈ ls, isDigit c = true := by
  cases h with
  | pair ws₁ ws₂ ls rest ht h1 h2 h3 h4 h5 =>
    refine ⟨⟨h1, fun c hc => (isDigit_true_iff c).2 (h3 c hc)⟩, ?_⟩
    rintro _ ⟨⟩
    exact ⟨h2, fun c hc => (isDigit_true_iff c).2 (h5.1 c hc)⟩
  | single rest ht h1 h2 h3 => exact ⟨⟨h1, fun c hc => (isDigit_true_iff c).2 (h2.1 c hc)⟩, by simp⟩

theorem digitsVal_fold (s : Str) (a : Nat) : digitsVal a s = s.foldl (fun a c => 10 * a + (digit c).getD 0) a := by
  induction s generalizing a with
  | nil => rfl
  | cons c s ih => rw [digitsVal, ih, List.foldl_cons, Nat.mul_comm]

theorem DecimalOf.int {s : Str} {n : Nat} (h : DecimalOf s n) (hl : s.length ≤ 4300) : pyInt s = .ok (Int.ofNat n) := by
  obtain ⟨h1, h2, h3⟩ := h
  rw [pyInt_digits h1 (fun c hc => (isDigit_true_iff c).2 (h2 c hc)), if_neg (by unfold maxStrDigits; omega), digitsVal_fold, h3]

theorem DecimalOf.exists {s : Str} (h : s ≠ [] ∧ ∀ c ∈ s, isDigit c = true) : ∃ n, DecimalOf s n :=
  ⟨_, h.1, fun c hc => (isDigit_true_iff c).1 (h.2 c hc), rfl⟩

theorem RangeIs.run {fig key t : Str} (hf : fig ≠ []) {evs : List Ev} {o : Except Exn RangeV} (h : RangeIs fig key t evs o) (fl : Bool) :
    parseRange fig t key fl = ⟨evs, fl, o⟩ := by
  cases h with
  | text h =>
    refine parseRange_none ?_ hf fl
    unfold rangeParts
    simp only
    rw [if_pos (takeWhile_eq_nil.mpr (fun c hc => isDigit_false_iff.mpr (h c hc)))]
  | one hs n h1 h2 h3 =>
    rw [parseRange_some h1.eq (h2.int h3) (lo := Int.ofNat n) (by simp) (fun _ => rfl) hf]
    simp
  | two hs ls low high h1 h2 h3 h4 h5 h6 =>
    rw [parseRange_some h1.eq (h2.int h4) (lo := Int.ofNat low) (by rintro _ ⟨⟩; exact h3.int h5) (by simp) hf,
      if_neg (by simp only [Int.ofNat_eq_natCast]; omega)]
    rfl
  | reversed hs ls low high h1 h2 h3 h4 h5 h6 =>
    rw [parseRange_some h1.eq (h2.int h4) (lo := Int.ofNat low) (by rintro _ ⟨⟩; exact h3.int h5) (by simp) hf,
      if_pos (by simp only [Int.ofNat_eq_natCast]; omega)]
    rfl
  | long hs ol h1 h2 =>
    obtain ⟨m, hm, hg1, hg2⟩ := range_some h1.eq
    obtain ⟨⟨d1, d2⟩, d3⟩ := h1.digits
    unfold parseRange
    rw [hm]
    simp only [hg1, hg2, Option.getD_some]
    by_cases hl : hs.length > 4300
    · rw [pyInt_digits d1 d2, if_pos (show hs.length > maxStrDigits from hl)]; rfl
    · rcases h2 with h2 | ⟨ls, rfl, h2⟩
      · exact absurd h2 hl
      · obtain ⟨d4, d5⟩ := d3 ls rfl
        rw [pyInt_digits d1 d2, if_neg (show ¬ hs.length > maxStrDigits from hl), M.ofExcept_ok, pure_bind]
        unfold rangeLow
        simp only
        rw [pyInt_digits d4 d5, if_pos (show ls.length > maxStrDigits from h2)]; rfl

theorem RangeIs.exists (fig key t : Str) : ∃ evs o, RangeIs fig key t evs o := by
  by_cases h : ∃ c ∈ t.head?, digit c ≠ none
  · obtain ⟨hs, ol, hn⟩ := Numbers.exists h
    obtain ⟨d1, d2⟩ := hn.digits
    by_cases hl : hs.length > 4300 ∨ ∃ ls, ol = some ls ∧ ls.length > 4300
    · exact ⟨_, _, .long hs ol hn hl⟩
    · rw [not_or] at hl
      obtain ⟨high, hh⟩ := DecimalOf.exists d1
      cases ol with
      | none => exact ⟨_, _, .one hs high hn hh (by omega)⟩
      | some ls =>
        obtain ⟨low, hlo⟩ := DecimalOf.exists (d2 ls rfl)
        have hl2 : ls.length ≤ 4300 := by
          refine Classical.byContradiction fun hc => ?_
          exact hl.2 ⟨ls, rfl, by omega⟩
        by_cases hle : low ≤ high
        · exact ⟨_, _, .two hs ls low high hn hh hlo (by omega) hl2 hle⟩
        · exact ⟨_, _, .reversed hs ls low high hn hh hlo (by omega) hl2 (by omega)⟩
  · refine ⟨_, _, .text (fun c hc => ?_)⟩
    refine Classical.byContradiction fun hd => ?_
    exact h ⟨c, hc, hd⟩

/-- **C01, C02** (exactness): just which range a text stands for, whatever the text, just what is reported, and just when reading it is an
error. -/
theorem C01_range_iff (fig key t : Str) (hf : fig ≠ []) (fl : Bool) (evs : List Ev) (o : Except Exn RangeV) :
    parseRange fig t key fl = ⟨evs, fl, o⟩ ↔ RangeIs fig key t evs o := by
  constructor
  · intro h
    obtain ⟨evs', o', h'⟩ := RangeIs.exists fig key t
    have := h'.run hf fl
    rw [h] at this
    simp only [Res.mk.injEq, true_and] at this
    obtain ⟨rfl, rfl⟩ := this
    exact h'
  · exact fun h => h.run hf fl

omit [Uni] in
theorem DynamicIs.run {fig t : Str} (hf : fig ≠ []) {evs : List Ev} {r : RangeV} (h : DynamicIs fig t evs r) (fl : Bool) :
    parseDynamicRange fig t fl = ⟨evs, fl, .ok r⟩ := by
  cases h with
  | formulas a b h => exact C03_dynamic_range fig t a b h fl
  | text h => exact C03_dynamic_range_invalid fig t hf h fl

omit [Uni] in
theorem DynamicIs.exists (fig t : Str) : ∃ evs r, DynamicIs fig t evs r := by
  by_cases h : ∃ a b, DynText t a b
  · obtain ⟨a, b, h⟩ := h
    exact ⟨_, _, .formulas a b h⟩
  · exact ⟨_, _, .text (fun a b hd => h ⟨a, b, hd⟩)⟩

omit [Uni] in
/-- **C03** (exactness): just which range a text in a dynamic list stands for, whatever the text; reading it is never an error. -/
theorem C03_dynamic_iff (fig t : Str) (hf : fig ≠ []) (fl : Bool) (evs : List Ev) (o : Except Exn RangeV) :
    parseDynamicRange fig t fl = ⟨evs, fl, o⟩ ↔ ∃ r, o = .ok r ∧ DynamicIs fig t evs r := by
  constructor
  · intro h
    obtain ⟨evs', r, h'⟩ := DynamicIs.exists fig t
    have := h'.run hf fl
    rw [h] at this
    simp only [Res.mk.injEq, true_and] at this
    obtain ⟨rfl, rfl⟩ := this
    exact ⟨r, rfl, h'⟩
  · rintro ⟨r, rfl, h⟩
    exact h.run hf fl

/-- two numbers with blanks, and text behind them: the range is reversed -/
example : letI := Uni.ascii
    RangeIs c!"5" c!"k" c!"03 : 12 (x)" [.lint (issue .rangeReversed c!"5" (some c!"k"))] (.ok (.int 12 3)) := by
  let _ := Uni.ascii
  refine .reversed c!"03" c!"12" 12 3 (.pair _ c!" " c!" " _ c!" (x)" (by decide) (by decide) (by decide) ?_ ?_ ⟨?_, ?_⟩) ⟨by decide, ?_, by decide⟩
    ⟨by decide, ?_, by decide⟩ (by decide) (by decide) (by decide) <;> decide

/-- a colon without a number behind it -/
example : letI := Uni.ascii
    RangeIs c!"5" c!"k" c!"7: x" [] (.ok (.int 7 7)) := by
  let _ := Uni.ascii
  refine .one c!"7" 7 (.single c!"7" c!": x" (by decide) (by decide) ⟨by decide, by decide⟩ ?_) ⟨by decide, by decide, by decide⟩ (by decide)
  intro ws₁ ws₂ rest e h c hc
  have hm : c ∈ c!": x" := by rw [e]; simp [List.mem_of_mem_head? hc]
  clear hc
  revert c
  decide

end Spex
