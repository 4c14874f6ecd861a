import Verif.Lemmas.Regex
import Verif.Lemmas.Monad
import Verif.Model.Ascii
/-
Lemmas about the string functions and `int()`.
-/
set_option autoImplicit false
namespace Spex

theorem replace1_nil_eq_filter (a : Char) (s : Str) : replace1 a [] s = s.filter (fun c => c != a) := by
  induction s with
  | nil => rfl
  | cons c s ih =>
    unfold replace1 at *
    rw [List.flatMap_cons, ih]
    by_cases h : c = a <;> simp [h]

theorem stripBy_self {p : Char → Bool} {s : Str} (h : ∀ c ∈ s, p c = false) : stripBy p s = s := by
  unfold stripBy rstripBy lstripBy
  have d : ∀ t : Str, (∀ c ∈ t, p c = false) → t.dropWhile p = t := by
    intro t ht
    cases t with
    | nil => rfl
    | cons c t => rw [List.dropWhile_cons, if_neg (by simp [ht c (by simp)])]
  rw [d s h, d s.reverse (by simpa using h), List.reverse_reverse]

theorem rstripBy_last {p : Char → Bool} {s : Str} {c : Char} (h : (rstripBy p s).getLast? = some c) : p c = false := by
  unfold rstripBy at h
  rw [List.getLast?_reverse] at h
  have := List.head?_dropWhile_not p s.reverse
  rw [h] at this
  simpa using this

theorem lstripBy_head {p : Char → Bool} {s : Str} {c : Char} (h : (lstripBy p s).head? = some c) : p c = false := by
  unfold lstripBy at h
  have := List.head?_dropWhile_not p s
  rw [h] at this
  simpa using this

theorem lstripBy_suffix (p : Char → Bool) (s : Str) : lstripBy p s <:+ s := List.dropWhile_suffix p

theorem rstripBy_prefix (p : Char → Bool) (s : Str) : rstripBy p s <+: s := by
  unfold rstripBy
  have := List.dropWhile_suffix p (l := s.reverse)
  rw [← List.reverse_prefix] at this
  simpa using this

theorem getLast?_of_suffix {s t : Str} (h : s <:+ t) (hs : s ≠ []) : s.getLast? = t.getLast? := by
  obtain ⟨u, rfl⟩ := h
  cases h : s.getLast? with
  | none => simp [List.getLast?_eq_none_iff] at h; exact absurd h hs
  | some c => simp [List.getLast?_append, h]

theorem head?_of_prefix {s t : Str} (h : s <+: t) (hs : s ≠ []) : s.head? = t.head? := by
  obtain ⟨u, rfl⟩ := h
  cases s with
  | nil => exact absurd rfl hs
  | cons c s => rfl

variable [Uni]

theorem isDigit_ascii {c : Char} (h : c.isDigit = true) : isDigit c = true ∧ digit c = some (c.toNat - 48) := by
  have hb := (isDigit_iff c).mp h
  have := Uni.digit_ascii c (by omega)
  rw [if_pos h] at this
  exact ⟨by simp [isDigit, this], this⟩

theorem isDigit_not_space {c : Char} (h : isDigit c = true) : isSpace c = false := by
  cases hs : isSpace c with
  | false => rfl
  | true =>
    have := Uni.space_not_word c hs
    rw [Uni.digit_word c h] at this
    exact absurd this (by decide)

/-- value of a string of digits -/
def digitsVal (acc : Nat) : Str → Nat
  | [] => acc
  | c :: s => digitsVal (acc * 10 + (digit c).getD 0) s

theorem intDigits_all {s : Str} (h : ∀ c ∈ s, isDigit c = true) (acc n : Nat) :
    intDigits acc n true s = .ok (digitsVal acc s, n + s.length) := by
  induction s generalizing acc n with
  | nil => simp [intDigits, digitsVal]
  | cons c s ih =>
    have hc := h c (by simp)
    unfold isDigit at hc
    cases hd : digit c with
    | none => simp [hd] at hc
    | some d =>
      simp only [intDigits, hd]
      rw [ih (fun x hx => h x (List.mem_cons_of_mem _ hx))]
      simp only [digitsVal, hd, Option.getD_some, List.length_cons]
      congr 2
      omega

theorem intDigits_digits {s : Str} (hne : s ≠ []) (h : ∀ c ∈ s, isDigit c = true) :
    intDigits 0 0 false s = .ok (digitsVal 0 s, s.length) := by
  cases s with
  | nil => exact absurd rfl hne
  | cons c s =>
    have hc := h c (by simp)
    unfold isDigit at hc
    cases hd : digit c with
    | none => simp [hd] at hc
    | some d =>
      simp only [intDigits, hd]
      rw [intDigits_all (fun x hx => h x (List.mem_cons_of_mem _ hx))]
      simp only [digitsVal, hd, Option.getD_some, List.length_cons]
      congr 2
      omega

theorem not_digit_plus : digit '+' = none := by
  rw [Uni.digit_ascii '+' (by decide)]; rfl

theorem not_digit_minus : digit '-' = none := by
  rw [Uni.digit_ascii '-' (by decide)]; rfl

/-- `int()` of a non-empty string of digits: its value, unless there are more than 4300 digits -/
theorem pyInt_digits {s : Str} (hne : s ≠ []) (h : ∀ c ∈ s, isDigit c = true) :
    pyInt s = if s.length > maxStrDigits then .error .valueError else .ok (Int.ofNat (digitsVal 0 s)) := by
  have hst : stripBy isIntSpace s = s := by
    apply stripBy_self
    intro c hc
    unfold isIntSpace
    rw [isDigit_not_space (h c hc)]
    rfl
  have hu : intUnsigned s = if s.length > maxStrDigits then .error .valueError else .ok (digitsVal 0 s) := by
    unfold intUnsigned
    rw [intDigits_digits hne h]
  cases s with
  | nil => exact absurd rfl hne
  | cons c s =>
    have hc := h c (by simp)
    unfold pyInt
    rw [hst]
    split
    · rename_i heq
      simp only [List.cons.injEq] at heq
      rw [heq.1] at hc
      simp [isDigit, not_digit_plus] at hc
    · rename_i heq
      simp only [List.cons.injEq] at heq
      rw [heq.1] at hc
      simp [isDigit, not_digit_minus] at hc
    · rw [hu]
      split <;> rfl

theorem digitsVal_ascii {s : Str} (h : ∀ c ∈ s, c.isDigit = true) (acc : Nat) : digitsVal acc s = Nat.ofDigitChars 10 s acc := by
  induction s generalizing acc with
  | nil => rfl
  | cons c s ih =>
    have hc := (isDigit_ascii (h c (by simp))).2
    rw [digitsVal, hc, ih (fun x hx => h x (List.mem_cons_of_mem _ hx))]
    simp [Nat.ofDigitChars, Nat.mul_comm]

end Spex
