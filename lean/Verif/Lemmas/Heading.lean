import Verif.Model.Document
import Verif.Lemmas.Str
/-
C15: the text of a heading.
-/
set_option autoImplicit false
namespace Spex
variable [Uni]

/-! ### C15: the text of a heading -/

/-- blanks and line breaks -/
def isGap (c : Char) : Bool := c == ' ' || c == '\n'

/-- the words of a text: what is between the blanks and line breaks -/
def headWords (s : Str) : List Str := (s.splitOnP isGap).filter (· ≠ [])

/-- the text of a heading: in lower case, without carriage returns, with single blanks between its words -/
def headingText (s : Str) : Str := [' '].intercalate (headWords ((strip (lower s)).filter (· ≠ '\r')))

omit [Uni] in
theorem headWords_gap {c : Char} (h : isGap c = true) (s : Str) : headWords (c :: s) = headWords s := by
  unfold headWords
  rw [List.splitOnP_cons_eq_if_modifyHead, if_pos h, List.filter_cons_of_neg (by simp)]

omit [Uni] in
theorem headWords_start {c d : Char} (h : isGap c = false) (hd : isGap d = true) (s : Str) : headWords (c :: d :: s) = [c] :: headWords (d :: s) := by
  unfold headWords
  rw [List.splitOnP_cons_eq_if_modifyHead, if_neg (by simp [h]), List.splitOnP_cons_eq_if_modifyHead, if_pos hd]
  simp

omit [Uni] in
theorem headWords_more {c d : Char} (h : isGap c = false) (hd : isGap d = false) (s : Str) :
    ∃ w ws, headWords (d :: s) = w :: ws ∧ headWords (c :: d :: s) = (c :: w) :: ws := by
  unfold headWords
  rw [List.splitOnP_cons_eq_if_modifyHead (x := c), if_neg (by simp [h]), List.splitOnP_cons_eq_if_modifyHead, if_neg (by simp [hd])]
  cases hs : List.splitOnP isGap s with
  | nil => exact absurd hs (List.splitOnP_ne_nil _ _)
  | cons w ws => exact ⟨d :: w, ws.filter (· ≠ []), by simp, by simp⟩

omit [Uni] in
theorem headWords_ne {c : Char} {s : Str} (h : ∀ x, (c :: s).getLast? = some x → isGap x = false) : headWords (c :: s) ≠ [] := by
  induction s generalizing c with
  | nil =>
    have := h c rfl
    unfold headWords
    rw [List.splitOnP_cons_eq_if_modifyHead, if_neg (by simp [this]), List.splitOnP_nil]
    simp
  | cons d s ih =>
    have ih' := ih (c := d) fun x hx => h x (by rw [List.getLast?_cons_cons]; exact hx)
    cases hc : isGap c with
    | true => rw [headWords_gap hc]; exact ih'
    | false =>
      cases hd : isGap d with
      | true => rw [headWords_start hc hd]; simp
      | false =>
        obtain ⟨w, ws, -, h2⟩ := headWords_more hc hd s
        rw [h2]; simp

omit [Uni] in
theorem collapse_words (s : Str) (h : ∀ x, s.getLast? = some x → isGap x = false) :
    collapseBlanks (s.map fun c => if c = '\n' then ' ' else c) =
      (if s.head?.any isGap then [' '] else []) ++ [' '].intercalate (headWords s) := by
  induction s with
  | nil => rfl
  | cons c s ih =>
    cases s with
    | nil =>
      have := h c rfl
      have hn : c ≠ '\n' := by rintro rfl; simp [isGap] at this
      simp [collapseBlanks, hn, this, headWords, List.splitOnP_cons_eq_if_modifyHead, List.splitOnP_nil]
    | cons d s =>
      have ih' := ih fun x hx => h x (by rw [List.getLast?_cons_cons]; exact hx)
      have hne := headWords_ne (c := d) (s := s) fun x hx => h x (by rw [List.getLast?_cons_cons]; exact hx)
      have hg : ∀ c : Char, isGap c = true ↔ (if c = '\n' then ' ' else c) = ' ' := by
        intro c
        by_cases hc : c = '\n' <;> simp [isGap, hc]
      rw [List.map_cons] at ih' ⊢
      rw [List.map_cons, collapseBlanks]
      cases hc : isGap c with
      | true =>
        rw [(hg c).1 hc]
        cases hd : isGap d with
        | true =>
          rw [if_pos ⟨rfl, (hg d).1 hd⟩, ih', headWords_gap hc]
          simp [hc, hd]
        | false =>
          rw [if_neg (by rintro ⟨-, h2⟩; rw [(hg d).2 h2] at hd; cases hd), ih', headWords_gap hc]
          simp [hc, hd]
      | false =>
        have hn : c ≠ '\n' := by rintro rfl; simp [isGap] at hc
        rw [if_neg (by rintro ⟨h2, -⟩; rw [(hg c).2 h2] at hc; cases hc), ih', if_neg hn]
        cases hd : isGap d with
        | true =>
          rw [headWords_start hc hd]
          obtain ⟨w, ws, hw⟩ := List.exists_cons_of_ne_nil hne
          rw [hw, List.intercalate_cons_cons]
          simp [hc, hd]
        | false =>
          obtain ⟨w, ws, h1, h2⟩ := headWords_more hc hd s
          rw [h1, h2]
          cases ws <;> simp [hc, hd, List.intercalate_cons_cons]

omit [Uni] in
theorem collapse_last (s : Str) : (collapseBlanks s).getLast? = s.getLast? := by
  induction s with
  | nil => rfl
  | cons c s ih =>
    cases s with
    | nil => rfl
    | cons d s =>
      rw [collapseBlanks]
      have hne : collapseBlanks (d :: s) ≠ [] := by
        intro h; rw [h] at ih; have := List.getLast?_eq_none_iff.1 ih.symm; cases this
      split
      · rw [ih, List.getLast?_cons_cons]
      · obtain ⟨x, xs, hx⟩ := List.exists_cons_of_ne_nil hne
        rw [hx, List.getLast?_cons_cons, ← hx, ih, List.getLast?_cons_cons]

omit [Uni] in
theorem strip_fix {s : Str} (h1 : ∀ c, s.head? = some c → isSpace c = false) (h2 : ∀ c, s.getLast? = some c → isSpace c = false) : strip s = s := by
  unfold strip stripBy
  have e1 : lstripBy isSpace s = s := by
    unfold lstripBy
    cases s with
    | nil => rfl
    | cons c s => rw [List.dropWhile_cons, if_neg (by simp [h1 c rfl])]
  rw [e1]
  unfold rstripBy
  rw [← List.head?_reverse] at h2
  cases hr : s.reverse with
  | nil => rw [List.reverse_eq_nil_iff.1 hr]; rfl
  | cons c t =>
    rw [hr] at h2
    rw [List.dropWhile_cons, if_neg (by simp [h2 c rfl]), ← hr, List.reverse_reverse]

/-- what is made of a heading cell -/
theorem hdrText_eq (cell : Node) : hdrText cell = headingText cell.toText := by
  unfold hdrText headingText
  have hE : (∀ c, (strip (lower cell.toText)).head? = some c → isSpace c = false) ∧
      (∀ c, (strip (lower cell.toText)).getLast? = some c → isSpace c = false) :=
    ⟨fun c h => (by
      unfold strip stripBy at h
      refine lstripBy_head (s := lower cell.toText) ((head?_of_prefix (rstripBy_prefix _ _) ?_).symm.trans h)
      intro e; rw [e] at h; cases h), fun c h => by unfold strip stripBy at h; exact rstripBy_last h⟩
  generalize strip (lower cell.toText) = s at hE
  have hr : ∀ s : Str, replace1 '\r' [] (replace1 '\n' [' '] s) = (s.filter (· ≠ '\r')).map fun c => if c = '\n' then ' ' else c := by
    intro s
    unfold replace1
    induction s with
    | nil => rfl
    | cons c s ih =>
      rw [List.flatMap_cons, List.flatMap_append, ih]
      by_cases h1 : c = '\n'
      · subst h1; simp
      · by_cases h2 : c = '\r'
        · subst h2; simp
        · simp [h1, h2]
  rw [hr]
  have hhead : ∀ c, (s.filter (· ≠ '\r')).head? = some c → isSpace c = false := by
    intro c hc
    cases s with
    | nil => cases hc
    | cons d s =>
      have := hE.1 d rfl
      rw [List.filter_cons_of_pos (by have : d ≠ '\r' := (by rintro rfl; revert this; decide); simpa using this)] at hc
      injection hc with hc; rw [← hc]; exact this
  have hlast : ∀ c, (s.filter (· ≠ '\r')).getLast? = some c → isSpace c = false := by
    intro c hc
    cases hl : s.getLast? with
    | none => rw [List.getLast?_eq_none_iff.1 hl] at hc; cases hc
    | some d =>
      have := hE.2 d hl
      obtain ⟨ys, rfl⟩ := List.getLast?_eq_some_iff.1 hl
      rw [List.filter_append, List.filter_cons_of_pos (by have : d ≠ '\r' := (by rintro rfl; revert this; decide); simpa using this)] at hc
      simp at hc
      rw [← hc]; exact this
  generalize s.filter (· ≠ '\r') = u at hhead hlast
  have hgap : ∀ c, isSpace c = false → isGap c = false := by
    intro c hc
    unfold isGap
    simp only [Bool.or_eq_false_iff, beq_eq_false_iff_ne]
    exact ⟨by rintro rfl; revert hc; decide, by rintro rfl; revert hc; decide⟩
  have hw := collapse_words u fun x hx => hgap x (hlast x hx)
  have h0 : u.head?.any isGap = false := by
    cases hu : u.head? with
    | none => rfl
    | some c => exact hgap c (hhead c hu)
  rw [h0] at hw
  simp only [Bool.false_eq_true, if_false, List.nil_append] at hw
  have hkeep : ∀ c, isSpace c = false → (if c = '\n' then ' ' else c) = c := by
    intro c hc
    rw [if_neg]; rintro rfl; revert hc; decide
  rw [strip_fix, hw]
  · intro c hc
    rw [hw] at hc
    cases u with
    | nil => cases hc
    | cons a u =>
      have ha := hhead a rfl
      have hag := hgap a ha
      have : ([' '].intercalate (headWords (a :: u))).head? = some a := by
        cases u with
        | nil => simp [headWords, List.splitOnP_cons_eq_if_modifyHead, hag, List.splitOnP_nil]
        | cons d u =>
          cases hd : isGap d with
          | true =>
            rw [headWords_start hag hd]
            cases headWords (d :: u) <;> simp [List.intercalate_cons_cons]
          | false =>
            obtain ⟨w, ws, -, h2⟩ := headWords_more hag hd u
            rw [h2]
            cases ws <;> simp [List.intercalate_cons_cons]
      rw [this] at hc
      injection hc with hc; rw [← hc]; exact ha
  · intro c hc
    rw [collapse_last, List.getLast?_map] at hc
    cases hu : u.getLast? with
    | none => rw [hu] at hc; cases hc
    | some x =>
      rw [hu] at hc
      have := hlast x hu
      rw [Option.map_some, hkeep x this] at hc
      injection hc with hc; rw [← hc]; exact this

end Spex
