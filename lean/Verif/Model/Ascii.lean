import Verif.Model.PyBasic
/-
A lawful instance of `Uni`: Unicode restricted to its ASCII part (all other characters are neither letters nor digits
and have no case). It shows that the laws are satisfiable and makes the model executable for the examples.
-/
set_option autoImplicit false
namespace Spex

theorem toUpper_cases (c : Char) : c.toUpper = c ∨ (97 ≤ c.toNat ∧ c.toNat ≤ 122 ∧ c.toUpper.toNat = c.toNat - 32) := by
  unfold Char.toUpper
  split
  · right
    rename_i h
    refine ⟨by simpa using UInt32.le_iff_toNat_le.mp h.1, by simpa using UInt32.le_iff_toNat_le.mp h.2, ?_⟩
    have h1 : 97 ≤ c.toNat := by simpa using UInt32.le_iff_toNat_le.mp h.1
    have h2 : c.toNat ≤ 122 := by simpa using UInt32.le_iff_toNat_le.mp h.2
    rw [← Char.toNat_val, UInt32.toNat_add]
    simp
    omega
  · left; rfl

theorem toLower_cases (c : Char) : c.toLower = c ∨ (65 ≤ c.toNat ∧ c.toNat ≤ 90 ∧ c.toLower.toNat = c.toNat + 32) := by
  unfold Char.toLower
  split
  · right
    rename_i h
    refine ⟨by simpa using UInt32.le_iff_toNat_le.mp h.1, by simpa using UInt32.le_iff_toNat_le.mp h.2, ?_⟩
    have h1 : 65 ≤ c.toNat := by simpa using UInt32.le_iff_toNat_le.mp h.1
    have h2 : c.toNat ≤ 90 := by simpa using UInt32.le_iff_toNat_le.mp h.2
    rw [← Char.toNat_val, UInt32.toNat_add]
    simp
    omega
  · left; rfl

theorem isAlpha_iff (c : Char) : c.isAlpha = true ↔ (65 ≤ c.toNat ∧ c.toNat ≤ 90) ∨ (97 ≤ c.toNat ∧ c.toNat ≤ 122) := by
  simp only [Char.isAlpha, Char.isUpper, Char.isLower, Bool.or_eq_true, Bool.and_eq_true, decide_eq_true_eq, ge_iff_le,
    UInt32.le_iff_toNat_le, Char.toNat]
  simp

theorem isDigit_iff (c : Char) : c.isDigit = true ↔ (48 ≤ c.toNat ∧ c.toNat ≤ 57) := by
  simp only [Char.isDigit, Bool.and_eq_true, decide_eq_true_eq, ge_iff_le, UInt32.le_iff_toNat_le, Char.toNat]
  simp

theorem toUpper_idem (c : Char) : c.toUpper.toUpper = c.toUpper := by
  rcases toUpper_cases c with h | ⟨h1, h2, h3⟩
  · rw [h, h]
  · rcases toUpper_cases c.toUpper with h | ⟨h4, h5, h6⟩
    · exact h
    · omega

theorem toLower_idem (c : Char) : c.toLower.toLower = c.toLower := by
  rcases toLower_cases c with h | ⟨h1, h2, h3⟩
  · rw [h, h]
  · rcases toLower_cases c.toLower with h | ⟨h4, h5, h6⟩
    · exact h
    · omega

theorem isSpace_range (c : Char) (h : isSpace c = true) : ¬ (33 ≤ c.toNat ∧ c.toNat ≤ 127) := by
  intro hr
  have hm : c.toNat ∈ _ := List.contains_iff_mem.mp h
  simp only [List.mem_cons, List.not_mem_nil, or_false] at hm
  omega

/-- the ASCII instance (no code of /repo: an instance of the class which stands for the Unicode tables of CPython, as used by str.lower,
str.upper, re and int, e.g. in extractors/helpers.py:97-103) -/
@[instance_reducible] def Uni.ascii : Uni where
  isWord c := c.isAlphanum || c == '_'
  digit c := if c.isDigit then some (c.toNat - 48) else none
  upperC c := [c.toUpper]
  lower s := s.map Char.toLower
  isWord_ascii _ _ := rfl
  digit_ascii _ _ := rfl
  digit_lt c d h := by
    split at h
    · rename_i hd
      rw [isDigit_iff] at hd
      cases h; omega
    · cases h
  digit_word c h := by
    by_cases hd : c.isDigit = true
    · simp [Char.isAlphanum, hd]
    · simp [hd] at h
  space_not_word c h := by
    have hs := isSpace_range c h
    have ha : c.isAlpha = false := by
      rw [Bool.eq_false_iff]; intro h'; rw [isAlpha_iff] at h'; omega
    have hd : c.isDigit = false := by
      rw [Bool.eq_false_iff]; intro h'; rw [isDigit_iff] at h'; omega
    have hu : (c == '_') = false := by
      rw [Bool.eq_false_iff]; intro h'; rw [beq_iff_eq] at h'; subst h'; revert hs; decide
    simp [Char.isAlphanum, ha, hd, hu]
  upper_ascii _ _ := rfl
  upper_idem c x h := by
    simp only [List.mem_cons, List.not_mem_nil, or_false] at h
    subst h; rw [toUpper_idem]
  upper_new c x h hx ha := by
    simp only [List.mem_cons, List.not_mem_nil, or_false] at h
    subst h
    rcases toUpper_cases c with h | ⟨h1, h2, h3⟩
    · exact h
    · have : c.toUpper.isAlpha = true := by rw [isAlpha_iff]; omega
      rw [this] at ha; cases ha
  upper_space c hs := by
    rcases toUpper_cases c with h | ⟨h1, h2, h3⟩
    · rw [h]
    · exact absurd hs (by intro h; exact isSpace_range _ h (by omega))
  lower_ascii _ _ := rfl
  lower_idem s := by
    simp [Function.comp_def, toLower_idem]
  lower_new s x h hx ha := by
    simp only [List.mem_map] at h
    obtain ⟨c, hc, rfl⟩ := h
    rcases toLower_cases c with h | ⟨h1, h2, h3⟩
    · rw [h]; exact hc
    · have : c.toLower.isAlpha = true := by rw [isAlpha_iff]; omega
      rw [this] at ha; cases ha
  lower_nil := rfl
  lower_prefix a b _ := by rw [List.map_append]; exact List.prefix_append _ _

end Spex
