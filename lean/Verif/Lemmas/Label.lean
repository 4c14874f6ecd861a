import Verif.Lemmas.Str
/-
Lemmas about label normalisation and extraction.
-/
set_option autoImplicit false
namespace Spex
variable [Uni]

theorem mem_upper {c : Char} {s : Str} : c ∈ upper s ↔ ∃ x ∈ s, c ∈ upperC x := by
  simp [upper, List.mem_flatMap]

theorem upper_upper (s : Str) : upper (upper s) = upper s := by
  unfold upper
  rw [List.flatMap_assoc]
  congr 1
  funext c
  have : ∀ t : Str, (∀ x ∈ t, upperC x = [x]) → t.flatMap upperC = t := by
    intro t ht
    induction t with
    | nil => rfl
    | cons x t ih =>
      rw [List.flatMap_cons, ht x (by simp), ih (fun y hy => ht y (List.mem_cons_of_mem _ hy))]
      rfl
  exact this _ (fun x hx => Uni.upper_idem c x hx)

omit [Uni] in
theorem not_mem_replace1 {a b : Char} {r s : Str} (hr : b ∉ r) (h : b = a ∨ b ∉ s) : b ∉ replace1 a r s := by
  intro hb
  unfold replace1 at hb
  rw [List.mem_flatMap] at hb
  obtain ⟨x, hx, hbx⟩ := hb
  split at hbx
  · exact hr hbx
  · rename_i hne
    rw [List.mem_singleton] at hbx
    subst hbx
    rcases h with h | h
    · exact hne h
    · exact h hx

omit [Uni] in
theorem mem_replace2 {a b : Char} {r : Str} (s : Str) (h : b ∈ replace2 a r s) : b ∈ r ∨ b ∈ s := by
  induction s using replace2.induct a with
  | case1 => simp [replace2] at h
  | case2 c => simp [replace2] at h; simp [h]
  | case3 c d s hc ih =>
    rw [replace2, if_pos hc] at h
    rcases List.mem_append.mp h with h | h
    · exact .inl h
    · rcases ih h with h | h
      · exact .inl h
      · exact .inr (by simp [h])
  | case4 c d s hc ih =>
    rw [replace2, if_neg hc] at h
    rcases List.mem_cons.mp h with h | h
    · exact .inr (by simp [h])
    · rcases ih h with h | h
      · exact .inl h
      · exact .inr (List.mem_cons_of_mem _ h)

/-- the normaliser removes blanks, slashes and hyphens -/
theorem normalizeLabel_chars (s : Str) : ' ' ∉ normalizeLabel s ∧ '/' ∉ normalizeLabel s ∧ '-' ∉ normalizeLabel s := by
  have key : ∀ b : Char, b.toNat < 128 → b.isAlpha = false → b ≠ '_' →
      (b = '-' ∨ b ∉ replace1 '/' [] (replace1 ' ' ['_'] (rstripBy isSpace (lstripBy isSpace s)))) →
      b ∉ normalizeLabel s := by
    intro b h1 h2 h3 h4 hb
    unfold normalizeLabel at hb
    obtain ⟨x, hx, hbx⟩ := mem_upper.mp hb
    have := Uni.upper_new x b hbx h1 h2
    subst this
    rcases mem_replace2 _ hx with h | h
    · simp at h; exact h3 h
    · exact not_mem_replace1 (by simpa using h3) h4 h
  refine ⟨?_, ?_, ?_⟩
  · apply key _ (by decide) (by decide) (by decide)
    right
    apply not_mem_replace1 (by simp)
    right
    apply not_mem_replace1 (by decide)
    exact .inl rfl
  · apply key _ (by decide) (by decide) (by decide)
    right
    apply not_mem_replace1 (by simp)
    exact .inl rfl
  · exact key _ (by decide) (by decide) (by decide) (.inl rfl)

theorem upper_normalizeLabel (s : Str) : upper (normalizeLabel s) = normalizeLabel s := by
  unfold normalizeLabel
  exact upper_upper _

theorem lower_chars {s : Str} {b : Char} (h1 : b.toNat < 128) (h2 : b.isAlpha = false) (h : b ∉ s) : b ∉ lower s :=
  fun hb => h (Uni.lower_new s b hb h1 h2)

/-! ### acronyms -/

theorem clsAcronym_sub {c : Char} (h : clsAcronym c = true) : clsStructLabel c = true := by
  unfold clsAcronym at h
  unfold clsStructLabel
  simp only [Bool.or_eq_true] at h ⊢
  rcases h with (h | h) | h
  · simp [h]
  · simp [h]
  · have : isWord c = true := Uni.digit_word c h
    simp [this]

/-- without an opening parenthesis behind the name there is no acronym -/
theorem structParts_no_acronym {s : Str} (h : (s.dropWhile clsStructLabel).head? ≠ some '(') : (structParts s).acronym = [] := by
  unfold structParts
  simp only [dropOne, if_neg h]
  rw [takeWhile_eq_nil]
  intro c hc
  cases ha : clsAcronym c with
  | false => rfl
  | true =>
    have h1 := clsAcronym_sub ha
    have h2 := List.head?_dropWhile_not clsStructLabel s
    rw [Option.mem_def] at hc
    rw [hc] at h2
    simp only at h2
    rw [h2] at h1
    exact absurd h1 (by decide)

theorem clsStructLabel_paren : clsStructLabel '(' = false := by
  unfold clsStructLabel
  rw [Uni.isWord_ascii '(' (by decide)]
  decide

theorem clsAcronym_paren : clsAcronym ')' = false := by
  unfold clsAcronym isDigit
  rw [Uni.isWord_ascii ')' (by decide), Uni.digit_ascii ')' (by decide)]
  decide

/-- closed form of _extract_label_same_column -/
theorem extractLabelSame_eq (fig label rowKey : Str) : extractLabelSame fig label rowKey =
    if (structParts label).acronym ≠ [] then Pure.pure (structParts label).acronym
    else if (structParts label).label ≠ [] then
      if SPECIAL_CASE_SET.contains (upper (structParts label).label) then Pure.pure (structParts label).label
      else Pure.pure (generateAcronym (structParts label).label)
    else do
      addIssue .lblExtractErr fig (some rowKey)
      return label := by
  unfold extractLabelSame
  obtain ⟨m, hm, h1, h2, -⟩ := structLabel_match label
  rw [hm]
  simp only [h1, h2, Option.getD_some]

/-- characters of the label part of a cell: word characters, white space, and , - . / & -/
def LabelChar (c : Char) : Prop := isWord c = true ∨ isSpace c = true ∨ c ∈ [',', '-', '.', '/', '&']

theorem clsStructLabel_iff (c : Char) : clsStructLabel c = true ↔ LabelChar c := by
  unfold clsStructLabel LabelChar
  have hrange : (decide (','.toNat ≤ c.toNat) && decide (c.toNat ≤ '/'.toNat)) = true ↔ c ∈ [',', '-', '.', '/'] := by
    simp only [Bool.and_eq_true, decide_eq_true_eq, List.mem_cons, List.not_mem_nil, or_false]
    constructor
    · rintro ⟨h1, h2⟩
      have h1 : 44 ≤ c.toNat := h1
      have h2 : c.toNat ≤ 47 := h2
      have : c.toNat = 44 ∨ c.toNat = 45 ∨ c.toNat = 46 ∨ c.toNat = 47 := by omega
      rcases this with h | h | h | h
      · left; exact Char.toNat_inj.mp h
      · right; left; exact Char.toNat_inj.mp h
      · right; right; left; exact Char.toNat_inj.mp h
      · right; right; right; exact Char.toNat_inj.mp h
    · rintro (rfl | rfl | rfl | rfl) <;> decide
  simp only [Bool.or_eq_true, hrange, beq_iff_eq]
  simp only [List.mem_cons, List.not_mem_nil, or_false]
  constructor
  · rintro (((h | h) | h) | h)
    · exact .inl h
    · exact .inr (.inl h)
    · exact .inr (.inr (by rcases h with h | h | h | h <;> simp [h]))
    · exact .inr (.inr (by simp [h]))
  · rintro (h | h | h | h | h | h | h) <;> simp [h]

end Spex
