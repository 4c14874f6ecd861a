import Verif.Lemmas.Label
import Verif.Lemmas.Hoare
import Mathlib.Data.List.TakeWhile
/-
C06 (normaliser; lifted to all entities in Props/Document), C07, C08, C09: labels.
-/
set_option autoImplicit false
namespace Spex
variable [Uni]

/-! ### C06 -/

/-- C06 (normaliser): no blank, slash or hyphen; upper case; and the lower-cased form (struct labels) is lower case and
has no blank, slash or hyphen either. -/
theorem C06_normalize_alphabet (s : Str) :
    (∀ c ∈ [' ', '/', '-'], c ∉ normalizeLabel s ∧ c ∉ lower (normalizeLabel s)) ∧
    upper (normalizeLabel s) = normalizeLabel s ∧
    lower (lower (normalizeLabel s)) = lower (normalizeLabel s) := by
  obtain ⟨h1, h2, h3⟩ := normalizeLabel_chars s
  refine ⟨?_, upper_normalizeLabel s, Uni.lower_idem _⟩
  intro c hc
  simp only [List.mem_cons, List.not_mem_nil, or_false] at hc
  rcases hc with rfl | rfl | rfl
  · exact ⟨h1, lower_chars (by decide) (by decide) h1⟩
  · exact ⟨h2, lower_chars (by decide) (by decide) h2⟩
  · exact ⟨h3, lower_chars (by decide) (by decide) h3⟩

/-- a character which separates words in a label: blank, hyphen, underscore, or slash -/
def isSep (c : Char) : Bool := c == ' ' || c == '-' || c == '_' || c == '/'

/-- How the text of a label is written: every run of separators becomes underscores, one for every two (rounded up) of its
blanks, hyphens and underscores; slashes do not count. All other characters stay. -/
inductive Joined : Str → Str → Prop
  | nil : Joined [] []
  | char (c : Char) (s t : Str) : isSep c = false → Joined s t → Joined (c :: s) (c :: t)
  | run (r s t : Str) : r ≠ [] → (∀ c ∈ r, isSep c = true) → (∀ c s', s = c :: s' → isSep c = false) → Joined s t →
      Joined (r ++ s) (List.replicate (((r.filter (· != '/')).length + 1) / 2) '_' ++ t)

omit [Uni] in
theorem replace2_char {c : Char} (h : c ≠ '_') (u : Str) : replace2 '_' ['_'] (c :: u) = c :: replace2 '_' ['_'] u := by
  cases u with
  | nil => rfl
  | cons d u => rw [replace2, if_neg (by simp [h])]

omit [Uni] in
theorem replace2_run (n : Nat) (u : Str) (h : ∀ c u', u = c :: u' → c ≠ '_') :
    replace2 '_' ['_'] (List.replicate n '_' ++ u) = List.replicate ((n + 1) / 2) '_' ++ replace2 '_' ['_'] u := by
  induction n using Nat.strong_induction_on with
  | _ n ih =>
    match n with
    | 0 => simp
    | 1 =>
      cases u with
      | nil => rfl
      | cons c u =>
        have hc := h c u rfl
        rw [List.replicate_one, List.singleton_append, replace2, if_neg (by simp [hc])]
        rfl
    | n + 2 =>
      have := ih n (by omega)
      rw [List.replicate_succ, List.replicate_succ, List.cons_append, List.cons_append, replace2, if_pos ⟨rfl, rfl⟩, this,
        show (n + 2 + 1) / 2 = (n + 1) / 2 + 1 by omega, List.replicate_succ]
      rfl

/-- one character before underscores are joined -/
def sepMap (c : Char) : Str := if c = ' ' ∨ c = '-' then ['_'] else if c = '/' then [] else [c]

omit [Uni] in
theorem replace1_three (s : Str) : replace1 '-' ['_'] (replace1 '/' [] (replace1 ' ' ['_'] s)) = s.flatMap sepMap := by
  induction s with
  | nil => rfl
  | cons c s ih =>
    unfold replace1 at ih ⊢
    simp only [List.flatMap_cons, List.flatMap_append, ih]
    congr 1
    unfold sepMap
    by_cases h1 : c = ' '
    · subst h1; rfl
    · by_cases h2 : c = '-'
      · subst h2; rfl
      · by_cases h3 : c = '/'
        · subst h3; rfl
        · simp [h1, h2, h3]

omit [Uni] in
theorem joined_exists (s : Str) : Joined s (replace2 '_' ['_'] (s.flatMap sepMap)) := by
  induction hn : s.length using Nat.strong_induction_on generalizing s with
  | _ n ih =>
    subst hn
    cases s with
    | nil => exact .nil
    | cons c s =>
      by_cases hc : isSep c = true
      · have hrun : ∀ r : Str, (∀ c ∈ r, isSep c = true) → r.flatMap sepMap = List.replicate (r.filter (· != '/')).length '_' := by
          intro r
          induction r with
          | nil => intro _; rfl
          | cons x r ihr =>
            intro h
            have hx := h x (by simp)
            rw [List.flatMap_cons, ihr (fun y hy => h y (by simp [hy]))]
            simp only [isSep, Bool.or_eq_true, beq_iff_eq] at hx
            rcases hx with ((rfl | rfl) | rfl) | rfl <;> simp [sepMap, List.replicate_succ]
        have hsplit : (c :: s) = (c :: s).takeWhile isSep ++ (c :: s).dropWhile isSep := List.takeWhile_append_dropWhile.symm
        have hne : (c :: s).takeWhile isSep ≠ [] := by rw [List.takeWhile_cons_of_pos hc]; simp
        have hall : ∀ x ∈ (c :: s).takeWhile isSep, isSep x = true := fun x hx => List.mem_takeWhile_imp hx
        have hrest : ∀ x s', (c :: s).dropWhile isSep = x :: s' → isSep x = false := by
          intro x s' h
          have := List.head?_dropWhile_not isSep (c :: s)
          rw [h] at this
          simpa using this
        have hlen : ((c :: s).dropWhile isSep).length < (c :: s).length := by
          have := congrArg List.length hsplit
          rw [List.length_append] at this
          have := List.length_pos_iff.2 hne
          omega
        generalize (c :: s).takeWhile isSep = r at hsplit hne hall
        generalize (c :: s).dropWhile isSep = u at hsplit hrest hlen
        rw [hsplit, List.flatMap_append, hrun r hall, replace2_run]
        · exact .run r u _ hne hall hrest (ih _ hlen u rfl)
        · intro x u' hx
          cases u with
          | nil => simp at hx
          | cons y u =>
            have hy := hrest y u rfl
            simp only [isSep, Bool.or_eq_false_iff, beq_eq_false_iff_ne, ne_eq] at hy
            rw [List.flatMap_cons, sepMap, if_neg (by simp [hy]), if_neg hy.2] at hx
            injection hx with hx
            rw [← hx]; exact hy.1.2
      · have hc' : isSep c = false := by simpa using hc
        have hy := hc'
        simp only [isSep, Bool.or_eq_false_iff, beq_eq_false_iff_ne, ne_eq] at hy
        rw [List.flatMap_cons, sepMap, if_neg (by simp [hy]), if_neg hy.2, List.singleton_append, replace2_char hy.1.2]
        exact .char c s _ hc' (ih _ (by simp) s rfl)

/-- **C06** What the normaliser makes of any text: white space around it is dropped, words are joined by underscores (see
`Joined`), and letters become capitals. -/
theorem C06_normalize_exact (s : Str) :
    ∃ l core r t, s = l ++ core ++ r ∧ (∀ c ∈ l, isSpace c = true) ∧ (∀ c ∈ r, isSpace c = true) ∧
      (∀ c, core.head? = some c ∨ core.getLast? = some c → isSpace c = false) ∧ Joined core t ∧ normalizeLabel s = upper t := by
  refine ⟨s.takeWhile isSpace, rstripBy isSpace (lstripBy isSpace s), (((s.dropWhile isSpace).reverse).takeWhile isSpace).reverse, _,
    ?_, ?_, ?_, ?_, joined_exists _, ?_⟩
  · unfold rstripBy lstripBy
    rw [List.append_assoc, ← List.reverse_append, List.takeWhile_append_dropWhile, List.reverse_reverse,
      List.takeWhile_append_dropWhile]
  · intro x hx; exact (List.mem_takeWhile_imp hx)
  · intro x hx; exact (List.mem_takeWhile_imp (List.mem_reverse.1 hx))
  · rintro c (h | h)
    · apply lstripBy_head (s := s)
      obtain ⟨t, ht⟩ := rstripBy_prefix isSpace (lstripBy isSpace s)
      rw [← ht, List.head?_append, h]; rfl
    · exact rstripBy_last h
  · rw [normalizeLabel, replace1_three]

example : letI := Uni.ascii
    normalizeLabel c!" Read/Write - limit " = c!"READWRITE__LIMIT" := by decide +kernel

/-! ### C07 -/

/-- an ASCII letter followed by word characters -/
def Identifier (l : Str) : Prop := ∃ c w, l = c :: w ∧ c.isAlpha = true ∧ ∀ x ∈ w, isWord x = true

/-- the event list contains a diagnostic of this kind -/
def HasLint (evs : List Ev) (err : LintErr) : Prop := ∃ l, Ev.lint l ∈ evs ∧ l.err = err

/-- the exact acceptance condition of the code (helpers.py:107-122) -/
def AcceptedLabel (l : Str) : Prop :=
  Identifier l ∨ (∃ w, Identifier w ∧ l = w ++ ['\n']) ∨
  (∃ w r, (∀ x ∈ w, isSpace x = true) ∧ l = w ++ '.' :: r) ∨ (∃ w, (∀ x ∈ w, isSpace x = true) ∧ l = '…' :: w)

theorem validateLabel_eq (lbl fig key : Str) (hf : fig ≠ []) :
    (AcceptedLabel lbl → validateLabel lbl fig key = Pure.pure ()) ∧
    (¬ AcceptedLabel lbl →
      validateLabel lbl fig key = M.emit (.lint (issue .lblInvalidChrs fig (some key) [(c!"label", .str lbl)]))) := by
  have hiff : AcceptedLabel lbl ↔ ((reLabelValidation.pmatch lbl).isSome = true ∨ (reEllipsisLabel.pmatch lbl).isSome = true) := by
    rw [labelValidation_iff, ellipsisLabel_iff]
    unfold AcceptedLabel Identifier
    constructor
    · rintro (⟨c, w, rfl, h1, h2⟩ | ⟨_, ⟨c, w, rfl, h1, h2⟩, rfl⟩ | h)
      · exact .inl ⟨c, w, h1, h2, .inl rfl⟩
      · exact .inl ⟨c, w, h1, h2, .inr rfl⟩
      · exact .inr h
    · rintro (⟨c, w, h1, h2, h3 | h3⟩ | h)
      · exact .inl ⟨c, w, h3, h1, h2⟩
      · exact .inr (.inl ⟨c :: w, ⟨c, w, rfl, h1, h2⟩, h3⟩)
      · exact .inr (.inr h)
  unfold validateLabel
  rw [hiff]
  constructor
  · rintro (h | h)
    · cases hh : reLabelValidation.pmatch lbl <;> simp_all
    · cases hh : reEllipsisLabel.pmatch lbl <;> simp_all
  · intro h
    rw [not_or] at h
    have h1 : (reLabelValidation.pmatch lbl).isNone = true := by
      cases hh : reLabelValidation.pmatch lbl <;> simp_all
    have h2 : (reEllipsisLabel.pmatch lbl).isNone = true := by
      cases hh : reEllipsisLabel.pmatch lbl <;> simp_all
    rw [h1, h2, addIssue_row hf]
    simp

/-- C07 (soundness): an identifier is never flagged. -/
theorem C07_identifier_silent (lbl fig key : Str) (hf : fig ≠ []) (h : Identifier lbl) (f : Bool) :
    (validateLabel lbl fig key f).evs = [] := by
  rw [(validateLabel_eq lbl fig key hf).1 (.inl h)]
  rfl

/-- C07 (completeness, partial): a label which is not an identifier is flagged with L1004 and quoted in the context,
unless it consists of leading white space followed by a period and anything, of an ellipsis and white space, or of an
identifier and a newline. Missing w.r.t. the full claim: labels starting with a period, labels ending with a newline
(for these the claim is false, see `C07_invalid_flagged_false`). -/
theorem C07_invalid_flagged_partial (lbl fig key : Str) (hf : fig ≠ []) (h : ¬ Identifier lbl)
    (hdot : (lbl.dropWhile isSpace).head? ≠ some '.') (hell : ∀ w, (∀ x ∈ w, isSpace x = true) → lbl ≠ '…' :: w)
    (hnl : lbl.getLast? ≠ some '\n') (f : Bool) :
    (validateLabel lbl fig key f).evs = [.lint (issue .lblInvalidChrs fig (some key) [(c!"label", .str lbl)])] := by
  rw [(validateLabel_eq lbl fig key hf).2 ?_]
  · rfl
  · rintro (h1 | ⟨w, -, rfl⟩ | ⟨w, r, hw, rfl⟩ | ⟨w, hw, rfl⟩)
    · exact h h1
    · simp at hnl
    · exact hdot (by rw [dropWhile_append_stop hw (by decide)]; rfl)
    · exact hell w hw rfl

/-- The emitted struct label is the lower case form of the validated one, and the diagnostics of the label step are, in
order, those of the extraction and at most the L1004 of the validation. -/
theorem parseLabel_validated (fig : Str) (cols : Cols) (label key : Str) (hf : fig ≠ []) (f : Bool) :
    ∃ x pre, (parseLabel fig cols label key f).out = .ok (lower (normalizeLabel x)) ∧
      (parseLabel fig cols label key f).evs = pre ++ (validateLabel (normalizeLabel x) fig key f).evs ∧
      (parseLabel fig cols label key f).flag = f := by
  have h : ∃ x evs, extractLabel fig cols label key f = ⟨evs, f, .ok x⟩ := by
    unfold extractLabel
    split
    · unfold extractLabelSeparate
      simp only
      split
      · rw [addIssue_row hf]
        exact ⟨_, _, rfl⟩
      · split
        · rw [addIssue_row hf]
          exact ⟨_, _, rfl⟩
        · exact ⟨_, _, rfl⟩
    · rw [extractLabelSame_eq]
      split
      · exact ⟨_, _, rfl⟩
      · split
        · split <;> exact ⟨_, _, rfl⟩
        · rw [addIssue_row hf]
          exact ⟨_, _, rfl⟩
  obtain ⟨x, evs, hx⟩ := h
  refine ⟨x, evs, ?_⟩
  unfold parseLabel
  simp only
  rw [M.bind_ok (by rw [hx])]
  rw [hx]
  have hv : (validateLabel (normalizeLabel x) fig key f).out = .ok () ∧
      (validateLabel (normalizeLabel x) fig key f).flag = f := by
    by_cases ha : AcceptedLabel (normalizeLabel x)
    · rw [(validateLabel_eq _ fig key hf).1 ha]; exact ⟨rfl, rfl⟩
    · rw [(validateLabel_eq _ fig key hf).2 ha]; exact ⟨rfl, rfl⟩
  rw [M.bind_ok hv.1]
  simp [M.pure_run, hv.2]

omit [Uni] in
/-- The full claim is false: the label of the cell ".5 foo" is ".f", which is neither an identifier nor an ellipsis, and
no diagnostic at all is raised for it (the class `[\.\.\.]` of the ellipsis expression matches one period, and the
expression is not anchored at the end). -/
theorem C07_invalid_flagged_false :
    ∃ (label : Str), letI := Uni.ascii
      let r := parseLabel c!"1" ⟨0, 1, 1⟩ label c!"0" false
      r.evs = [] ∧ r.out = .ok c!".f" ∧ ¬ Identifier c!".f" := by
  refine ⟨c!".5 foo", rfl, rfl, ?_⟩
  rintro ⟨c, w, h, ha, -⟩
  simp only [List.cons.injEq] at h
  rw [← h.1] at ha
  exact absurd ha (by decide)

example : ¬ Identifier c!"8_BITS" := by
  rintro ⟨c, w, h, ha, -⟩
  simp only [List.cons.injEq] at h
  rw [← h.1] at ha
  exact absurd ha (by decide)

example : letI := Uni.ascii
    (validateLabel c!"8_BITS" c!"1" c!"0" false).evs =
      [.lint (issue .lblInvalidChrs c!"1" (some c!"0") [(c!"label", .str c!"8_BITS")])] := rfl

example : letI := Uni.ascii; Identifier c!"OPC_2" :=
  ⟨_, c!"PC_2", rfl, by decide, by decide⟩

/-! ### C09 -/

omit [Uni] in
theorem stripBy_append_last {p : Char → Bool} {a : Str} {c : Char} (hne : a ≠ []) (hh : ∀ x ∈ a.head?, p x = false)
    (hc : p c = false) (b : Str) : stripBy p (a ++ b ++ [c]) = a ++ b ++ [c] := by
  unfold stripBy lstripBy rstripBy
  obtain ⟨x, a', rfl⟩ := List.exists_cons_of_ne_nil hne
  rw [List.cons_append, List.cons_append, List.dropWhile_cons_of_neg (by simp [hh x (by simp)]), ← List.cons_append,
    ← List.cons_append]
  simp [hc]

omit [Uni] in
theorem stripBy_head {p : Char → Bool} {s : Str} {c : Char} (h : (stripBy p s).head? = some c) : p c = false := by
  unfold stripBy at h
  have hne : rstripBy p (lstripBy p s) ≠ [] := by intro h0; simp [h0] at h
  rw [head?_of_prefix (rstripBy_prefix p _) hne] at h
  exact lstripBy_head h

omit [Uni] in
theorem stripBy_all {p : Char → Bool} {s : Str} : stripBy p s = [] ↔ ∀ c ∈ s, p c = true := by
  constructor
  · intro h c hc
    unfold stripBy rstripBy lstripBy at h
    have h1 : ∀ x ∈ s.dropWhile p, p x = true := by
      intro x hx
      have : (s.dropWhile p).reverse.dropWhile p = [] := by simpa using h
      have h3 := List.takeWhile_append_dropWhile (p := p) (l := (s.dropWhile p).reverse)
      rw [this, List.append_nil] at h3
      have hx' : x ∈ (s.dropWhile p).reverse := by simpa using hx
      rw [← h3] at hx'
      exact List.all_eq_true.mp (List.all_takeWhile (p := p)) x hx'
    have h2 := List.takeWhile_append_dropWhile (p := p) (l := s)
    rw [← h2] at hc
    rcases List.mem_append.mp hc with hc | hc
    · exact List.all_eq_true.mp (List.all_takeWhile (p := p) (l := s)) c hc
    · exact h1 c hc
  · intro h
    unfold stripBy lstripBy
    rw [dropWhile_all h]
    rfl

theorem isDigit_not_underscore {c : Char} (h : isDigit c = true) : (c == '_') = false := by
  rw [Bool.eq_false_iff]
  intro hc
  rw [beq_iff_eq] at hc
  subst hc
  unfold isDigit at h
  rw [Uni.digit_ascii '_' (by decide)] at h
  exact absurd h (by decide)

/-- C09: a label which starts with the decimal digits `ds` (all of them) followed by a one line text `rest` becomes the
text, freed from underscores at its ends, an underscore and the digits. A label without leading digit is unchanged, and a
label of digits (and underscores behind) only becomes these digits. -/
theorem C09_rearrange_num_label (ds rest : Str) (hd : ∀ c ∈ ds, isDigit c = true)
    (hrest : ∀ c ∈ rest.head?, isDigit c = false) (hnl : '\n' ∉ rest) :
    rearrangeNumLabel (ds ++ rest) =
      if ds = [] then rest
      else if ∀ c ∈ rest, c = '_' then ds
      else stripBy (· == '_') rest ++ '_' :: ds := by
  unfold rearrangeNumLabel
  have htw : (ds ++ rest).takeWhile isDigit = ds := by
    cases rest with
    | nil => simpa using takeWhile_all hd
    | cons c r => exact takeWhile_append_stop hd (hrest c (by simp))
  have hdw : (ds ++ rest).dropWhile isDigit = rest := by
    cases rest with
    | nil => simpa using dropWhile_all hd
    | cons c r => exact dropWhile_append_stop hd (hrest c (by simp))
  by_cases hne : ds = []
  · subst hne
    rw [numRearrange_none htw]
    simp
  · obtain ⟨m, hm, h1, h2⟩ := numRearrange_some (s := ds ++ rest) (by rw [htw]; exact hne)
    rw [htw] at h1
    rw [hdw, takeWhile_all (by
      intro x hx
      simp only [bne_iff_ne, ne_eq]
      rintro rfl
      exact hnl hx)] at h2
    rw [hm]
    simp only [h1, h2, Option.getD_some, if_neg hne]
    obtain ⟨ds', c, rfl⟩ : ∃ ds' c, ds = ds' ++ [c] := ⟨ds.dropLast, ds.getLast hne, (List.dropLast_concat_getLast hne).symm⟩
    have hcu := isDigit_not_underscore (hd c (by simp))
    split
    · rename_i hall
      rw [stripBy_all (p := (· == '_')) (s := rest) |>.mpr (by intro x hx; simpa using hall x hx)]
      rw [List.nil_append]
      have hall' : ∀ x ∈ ds' ++ [c], (x == '_') = false := fun x hx => isDigit_not_underscore (hd x hx)
      have hs : stripBy (· == '_') ('_' :: (ds' ++ [c])) = stripBy (· == '_') (ds' ++ [c]) := by
        unfold stripBy lstripBy
        rw [List.dropWhile_cons_of_pos (by simp)]
      rw [hs, stripBy_self hall']
    · rename_i hall
      have hsne : stripBy (· == '_') rest ≠ [] := by
        intro h
        exact hall (fun x hx => by simpa using stripBy_all.mp h x hx)
      have := stripBy_append_last (p := (· == '_')) (a := stripBy (· == '_') rest) (c := c) hsne
        (fun x hx => stripBy_head (p := (· == '_')) (Option.mem_def.mp hx)) hcu ('_' :: ds')
      simpa [List.append_assoc] using this

omit [Uni] in
/-- C09: no character of the text is lost, except underscores at its ends -/
theorem C09_text_kept (rest : Str) :
    ∃ a b, rest = a ++ stripBy (· == '_') rest ++ b ∧ (∀ c ∈ a, c = '_') ∧ (∀ c ∈ b, c = '_') := by
  unfold stripBy
  obtain ⟨b, hb⟩ := rstripBy_prefix (· == '_') (lstripBy (· == '_') rest)
  refine ⟨rest.takeWhile (· == '_'), b, ?_, ?_, ?_⟩
  · rw [List.append_assoc, hb]
    unfold lstripBy
    rw [List.takeWhile_append_dropWhile]
  · intro c hc
    simpa using List.all_eq_true.mp (List.all_takeWhile (p := (· == '_')) (l := rest)) c hc
  · intro c hc
    have h1 : lstripBy (· == '_') rest = (((lstripBy (· == '_') rest).reverse.dropWhile (· == '_')).reverse ++
        ((lstripBy (· == '_') rest).reverse.takeWhile (· == '_')).reverse) := by
      rw [← List.reverse_append, List.takeWhile_append_dropWhile, List.reverse_reverse]
    have h2 := hb.trans h1
    have h3 := List.append_cancel_left h2
    rw [h3, List.mem_reverse] at hc
    simpa using List.all_eq_true.mp (List.all_takeWhile (p := (· == '_')) (l := (lstripBy (· == '_') rest).reverse)) c hc

omit [Uni] in
/-- For a label of several lines the text behind the first line break is lost. -/
theorem C09_multiline_false : letI := Uni.ascii
    rearrangeNumLabel c!"8 bit\nmode" = c!" bit_8" := by decide +kernel

example : letI := Uni.ascii
    rearrangeNumLabel c!"512_byte_" = c!"byte_512" ∧ rearrangeNumLabel c!"64" = c!"64" ∧
    rearrangeNumLabel c!"byte_512" = c!"byte_512" := by decide +kernel

/-! ### C08 -/

/-- ASCII letters and digits only -/
def AsciiAlnum (s : Str) : Prop := ∀ c ∈ s, c.isAlphanum = true

omit [Uni] in
theorem alnum_lt {c : Char} (h : c.isAlphanum = true) : c.toNat < 128 := by
  unfold Char.isAlphanum at h
  rw [Bool.or_eq_true, isAlpha_iff, isDigit_iff] at h
  omega

omit [Uni] in
theorem alnum_not_space {c : Char} (h : c.isAlphanum = true) : isSpace c = false := by
  cases hs : isSpace c with
  | false => rfl
  | true =>
    have := isSpace_range c hs
    unfold Char.isAlphanum at h
    rw [Bool.or_eq_true, isAlpha_iff, isDigit_iff] at h
    omega

omit [Uni] in
theorem replace1_absent {a : Char} {r s : Str} (h : a ∉ s) : replace1 a r s = s := by
  induction s with
  | nil => rfl
  | cons c s ih =>
    simp only [List.mem_cons, not_or] at h
    unfold replace1 at *
    rw [List.flatMap_cons, ih h.2, if_neg (fun e => h.1 e.symm)]
    rfl

omit [Uni] in
theorem replace2_absent {a : Char} {r : Str} (s : Str) (h : a ∉ s) : replace2 a r s = s := by
  induction s using replace2.induct a with
  | case1 => rfl
  | case2 c => rfl
  | case3 c d s hc ih => exact absurd (by simp [hc.1]) h
  | case4 c d s hc ih =>
    rw [replace2, if_neg hc, ih]
    simp only [List.mem_cons, not_or] at h ⊢
    exact h.2

theorem upper_asciiAlnum {s : Str} (h : AsciiAlnum s) : upper s = s.map Char.toUpper := by
  unfold upper
  induction s with
  | nil => rfl
  | cons c s ih =>
    rw [List.flatMap_cons, ih (fun x hx => h x (List.mem_cons_of_mem _ hx)), Uni.upper_ascii c (alnum_lt (h c (by simp)))]
    rfl

theorem normalizeLabel_alnum {s : Str} (h : AsciiAlnum s) : normalizeLabel s = s.map Char.toUpper := by
  unfold normalizeLabel
  have hs : rstripBy isSpace (lstripBy isSpace s) = s :=
    stripBy_self (p := isSpace) (fun c hc => alnum_not_space (h c hc))
  have hno : ∀ a : Char, a.isAlphanum = false → a ∉ s := by
    intro a ha hm
    rw [h a hm] at ha
    cases ha
  rw [hs, replace1_absent (hno _ (by decide)), replace1_absent (hno _ (by decide)), replace1_absent (hno _ (by decide)),
    replace2_absent _ (hno _ (by decide)), upper_asciiAlnum h]

omit [Uni] in
theorem toUpper_alnum {c : Char} (h : c.isAlphanum = true) : c.toUpper.isAlphanum = true ∧ (c.isAlpha = true → c.toUpper.isAlpha = true) ∧
    c.toUpper.toLower = c.toLower := by
  have h0 := h
  unfold Char.isAlphanum at h
  rw [Bool.or_eq_true, isAlpha_iff, isDigit_iff] at h
  rcases toUpper_cases c with hu | ⟨h1, h2, h3⟩
  · rw [hu]
    exact ⟨h0, id, rfl⟩
  · have ha : c.toUpper.isAlpha = true := by rw [isAlpha_iff]; omega
    refine ⟨by unfold Char.isAlphanum; rw [ha]; rfl, fun _ => ha, ?_⟩
    rcases toLower_cases c with hl | hl
    · rw [hl]
      apply Char.toNat_inj.mp
      rcases toLower_cases c.toUpper with hl' | hl'
      · rw [hl']
        have : c.toUpper.toLower.toNat = c.toUpper.toNat + 32 := by
          have : c.toUpper.toNat - 65 ≤ 25 := by omega
          unfold Char.toLower
          rw [dif_pos]
          · rw [← Char.toNat_val, UInt32.toNat_add]
            simp
            omega
          · constructor
            · simp [UInt32.le_iff_toNat_le]; omega
            · simp [UInt32.le_iff_toNat_le]; omega
        rw [hl'] at this
        omega
      · omega
    · omega

/-- the label step on a text which extraction maps to ASCII letters and digits, starting with a letter -/
theorem parseLabel_alnum {fig : Str} {cols : Cols} {label key x : Str} (hf : fig ≠ [])
    (hx : extractLabel fig cols label key = Pure.pure x) (ha : AsciiAlnum x) (hh : ∃ c w, x = c :: w ∧ c.isAlpha = true) :
    parseLabel fig cols label key = Pure.pure (x.map Char.toLower) := by
  unfold parseLabel
  simp only [hx, pure_bind, normalizeLabel_alnum ha]
  have hid : Identifier (x.map Char.toUpper) := by
    obtain ⟨c, w, rfl, hc⟩ := hh
    refine ⟨c.toUpper, w.map Char.toUpper, rfl, (toUpper_alnum (ha c (by simp))).2.1 hc, ?_⟩
    intro y hy
    obtain ⟨z, hz, rfl⟩ := List.mem_map.mp hy
    have := (toUpper_alnum (ha z (by simp [hz]))).1
    rw [Uni.isWord_ascii _ (alnum_lt this), this]
    rfl
  rw [(validateLabel_eq _ fig key hf).1 (.inl hid), pure_bind]
  rw [Uni.lower_ascii]
  · rw [List.map_map]
    congr 1
    apply List.map_congr_left
    intro c hc
    exact (toUpper_alnum (ha c hc)).2.2
  · intro c hc
    obtain ⟨z, hz, rfl⟩ := List.mem_map.mp hc
    exact alnum_lt (toUpper_alnum (ha z hz)).1

/-- C08 (totality): whatever the text of the label paragraph, label extraction returns a label, leaves the unwind flag
alone, and with the label in the description column it never reports an imputed label. -/
theorem C08_total (fig : Str) (cols : Cols) (label key : Str) (hf : fig ≠ []) (f : Bool) :
    (∃ l, (parseLabel fig cols label key f).out = .ok l) ∧ (parseLabel fig cols label key f).flag = f ∧
    (cols.content = cols.label → ¬ HasLint (parseLabel fig cols label key f).evs .lblImputed) := by
  refine ⟨?_, ?_, ?_⟩
  · obtain ⟨x, pre, h, -, -⟩ := parseLabel_validated fig cols label key hf f
    exact ⟨_, h⟩
  · obtain ⟨x, pre, -, -, h⟩ := parseLabel_validated fig cols label key hf f
    exact h
  · rintro hc ⟨l, hl, he⟩
    have hsat : Sat (fun e => ∀ l, e = .lint l → l.err ≠ .lblImputed) (fun _ => True) (fun _ => True)
        (parseLabel fig cols label key) := by
      unfold parseLabel
      refine Sat.bind (Q := fun _ => True) ?_ ?_
      · unfold extractLabel
        rw [if_neg (by simpa using hc), extractLabelSame_eq]
        refine Sat.ite (fun _ => Sat.pure trivial) (fun _ => Sat.ite (fun _ => Sat.ite (fun _ => Sat.pure trivial)
          (fun _ => Sat.pure trivial)) (fun _ => Sat.bind (Q := fun _ => True) ?_ (fun _ _ => Sat.pure trivial)))
        refine Sat.addIssue hf (.inr rfl) ?_ trivial
        rintro l ⟨⟩
        simp [issue]
      · intro x _
        refine Sat.bind (Q := fun _ => True) ?_ (fun _ _ => Sat.pure trivial)
        unfold validateLabel
        refine Sat.ite (fun _ => ?_) (fun _ => Sat.pure trivial)
        refine Sat.addIssue hf (.inr rfl) ?_ trivial
        rintro l ⟨⟩
        simp [issue]
    exact (hsat f).1 _ hl l rfl he

/-- C08 (acronym): the text `name (ACR) rest` yields `acr`, without any diagnostic. -/
theorem C08_acronym (fig : Str) (cols : Cols) (key name acr rest : Str) (hf : fig ≠ []) (hcol : cols.content = cols.label)
    (hname : ∀ c ∈ name, LabelChar c) (hacr : AsciiAlnum acr) (hlet : ∃ c w, acr = c :: w ∧ c.isAlpha = true) :
    parseLabel fig cols (name ++ '(' :: acr ++ ')' :: rest) key = Pure.pure (acr.map Char.toLower) := by
  refine parseLabel_alnum hf ?_ hacr hlet
  unfold extractLabel
  rw [if_neg (by simpa using hcol), extractLabelSame_eq]
  have h1 : (name ++ '(' :: acr ++ ')' :: rest).dropWhile clsStructLabel = '(' :: (acr ++ ')' :: rest) := by
    rw [List.append_assoc]
    exact dropWhile_append_stop (fun c hc => (clsStructLabel_iff c).mpr (hname c hc)) clsStructLabel_paren
  have h2 : (structParts (name ++ '(' :: acr ++ ')' :: rest)).acronym = acr := by
    unfold structParts
    simp only [h1, dropOne, List.head?_cons, if_true, List.tail_cons]
    apply takeWhile_append_stop
    · intro c hc
      unfold clsAcronym
      rw [Uni.isWord_ascii c (alnum_lt (hacr c hc)), hacr c hc]
      rfl
    · exact clsAcronym_paren
  rw [h2]
  obtain ⟨c, w, rfl, -⟩ := hlet
  simp

/-! the words of a text -/

omit [Uni] in
theorem wordsAux_word (w s : Str) (hw : ∀ c ∈ w, isSpace c = false) (cur : Str) : wordsAux cur (w ++ s) = wordsAux (cur ++ w) s := by
  induction w generalizing cur with
  | nil => simp
  | cons c w ih =>
    rw [List.cons_append, wordsAux, if_neg (by simp [hw c (by simp)]), ih (fun x hx => hw x (List.mem_cons_of_mem _ hx))]
    simp

omit [Uni] in
theorem wordsAux_gap (g s : Str) (hg : ∀ c ∈ g, isSpace c = true) : wordsAux [] (g ++ s) = wordsAux [] s := by
  induction g with
  | nil => rfl
  | cons c g ih =>
    rw [List.cons_append, wordsAux, if_pos (hg c (by simp)), if_pos rfl, ih (fun x hx => hg x (List.mem_cons_of_mem _ hx))]

/-- a text written as words, each preceded by white space, and final white space -/
def spell : List (Str × Str) → Str → Str
  | [], fin => fin
  | (g, w) :: ws, fin => g ++ w ++ spell ws fin

/-- admissible spelling: words are not empty and free of white space, gaps are white space and, but for the first,
not empty -/
def Spelling : List (Str × Str) → Prop
  | [] => True
  | (g, w) :: ws => (∀ c ∈ g, isSpace c = true) ∧ w ≠ [] ∧ (∀ c ∈ w, isSpace c = false) ∧ Spelling ws ∧
      ∀ p ∈ ws, p.1 ≠ []

omit [Uni] in
theorem words_spell (ws : List (Str × Str)) (fin : Str) (h : Spelling ws) (hfin : ∀ c ∈ fin, isSpace c = true) :
    words (spell ws fin) = ws.map (·.2) := by
  have key : ∀ (ws : List (Str × Str)) (cur : Str), cur ≠ [] → Spelling ws → (∀ p ∈ ws, p.1 ≠ []) →
      wordsAux cur (spell ws fin) = cur :: ws.map (·.2) := by
    intro ws
    induction ws with
    | nil =>
      intro cur hc _ _
      cases hf' : fin with
      | nil => simp [spell, wordsAux, hc]
      | cons c g =>
        have hg : wordsAux [] g = [] := by
          have := wordsAux_gap g [] (fun x hx => hfin x (by simp [hf', hx]))
          rw [List.append_nil] at this
          rw [this]; rfl
        simp only [spell, wordsAux, if_pos (hfin c (by simp [hf'])), if_neg hc, hg, List.map_nil]
    | cons p ws ih =>
      obtain ⟨g, w⟩ := p
      rintro cur hc ⟨h1, h2, h3, h4, h5⟩ hp
      obtain ⟨c, g', rfl⟩ := List.exists_cons_of_ne_nil (hp (g, w) (by simp))
      simp only [spell, List.cons_append, wordsAux, if_pos (h1 c (by simp)), if_neg hc]
      rw [List.append_assoc, wordsAux_gap g' _ (fun x hx => h1 x (by simp [hx])), wordsAux_word w _ h3, List.nil_append,
        ih w h2 h4 h5]
      rfl
  unfold words
  cases ws with
  | nil =>
    have := wordsAux_gap fin [] hfin
    rw [List.append_nil] at this
    simp only [spell, List.map_nil]
    rw [this]; rfl
  | cons p ws =>
    obtain ⟨g, w⟩ := p
    obtain ⟨h1, h2, h3, h4, h5⟩ := h
    simp only [spell, List.append_assoc]
    rw [wordsAux_gap g _ h1, wordsAux_word w _ h3, List.nil_append, key ws w h2 h4 h5]
    rfl

/-- C08 (initials): a text which consists of a name, spelled as words with white space in between, and does not continue
with an acronym, yields the initials of the words in lower case, without any diagnostic. -/
theorem C08_initials (fig : Str) (cols : Cols) (key rest fin : Str) (ws : List (Str × Str)) (hf : fig ≠ [])
    (hcol : cols.content = cols.label)
    (hspell : Spelling ws) (hfin : ∀ c ∈ fin, isSpace c = true) (hname : ∀ c ∈ spell ws fin, LabelChar c)
    (hrest : ∀ c ∈ rest.head?, ¬ LabelChar c ∧ c ≠ '(')
    (hspecial : upper (spell ws fin) ∉ [RESERVED, ELLIPSIS, OBSOLETE])
    (hini : AsciiAlnum (ws.flatMap (·.2.take 1))) (hlet : ∃ c w, ws.flatMap (·.2.take 1) = c :: w ∧ c.isAlpha = true) :
    parseLabel fig cols (spell ws fin ++ rest) key = Pure.pure ((ws.flatMap (·.2.take 1)).map Char.toLower) := by
  have hne : spell ws fin ≠ [] := by
    cases ws with
    | nil => obtain ⟨c, w, h, -⟩ := hlet; simp at h
    | cons p ws => obtain ⟨g, w⟩ := p; simp [spell, hspell.2.1]
  have hcls : ∀ c ∈ spell ws fin, clsStructLabel c = true := fun c hc => (clsStructLabel_iff c).mpr (hname c hc)
  have hstop : ∀ c ∈ rest.head?, clsStructLabel c = false := by
    intro c hc
    rw [Bool.eq_false_iff]
    exact fun h => (hrest c hc).1 ((clsStructLabel_iff c).mp h)
  have h1 : (spell ws fin ++ rest).takeWhile clsStructLabel = spell ws fin := by
    cases rest with
    | nil => simpa using takeWhile_all hcls
    | cons c r => exact takeWhile_append_stop hcls (hstop c (by simp))
  have h2 : (spell ws fin ++ rest).dropWhile clsStructLabel = rest := by
    cases rest with
    | nil => simpa using dropWhile_all hcls
    | cons c r => exact dropWhile_append_stop hcls (hstop c (by simp))
  have h3 : (structParts (spell ws fin ++ rest)).acronym = [] := by
    apply structParts_no_acronym
    rw [h2]
    intro h
    exact (hrest '(' h).2 rfl
  have h4 : (structParts (spell ws fin ++ rest)).label = spell ws fin := by
    simp only [structParts, h1]
  have hlow : lower (ws.flatMap (·.2.take 1)) = (ws.flatMap (·.2.take 1)).map Char.toLower :=
    Uni.lower_ascii _ (fun c hc => alnum_lt (hini c hc))
  have hext : extractLabel fig cols (spell ws fin ++ rest) key = Pure.pure ((ws.flatMap (·.2.take 1)).map Char.toLower) := by
    unfold extractLabel
    rw [if_neg (by simpa using hcol), extractLabelSame_eq, h3, h4]
    rw [if_neg (by simp), if_pos hne, if_neg (by simpa [SPECIAL_CASE_SET] using hspecial)]
    unfold generateAcronym initials
    rw [words_spell ws fin hspell hfin, List.flatMap_map, hlow]
  have hlc : ∀ c : Char, c.isAlphanum = true → c.toLower.isAlphanum = true ∧ (c.isAlpha = true → c.toLower.isAlpha = true) := by
    intro c hc
    rcases toLower_cases c with h | ⟨a, b, d⟩
    · rw [h]; exact ⟨hc, id⟩
    · have ha : c.toLower.isAlpha = true := by rw [isAlpha_iff]; omega
      exact ⟨by unfold Char.isAlphanum; rw [ha]; rfl, fun _ => ha⟩
  rw [parseLabel_alnum hf hext]
  · rw [List.map_map]
    congr 1
    apply List.map_congr_left
    intro c _
    exact toLower_idem c
  · intro c hc
    obtain ⟨z, hz, rfl⟩ := List.mem_map.mp hc
    exact (hlc z (hini z hz)).1
  · obtain ⟨c, w, h, hc⟩ := hlet
    rw [h]
    exact ⟨_, _, rfl, (hlc c (by unfold Char.isAlphanum; rw [hc]; rfl)).2 hc⟩

example : letI := Uni.ascii
    parseLabel c!"5" ⟨0, 1, 1⟩ c!"Namespace Data Formats (NSDF): This field ..." c!"7" false = ⟨[], false, .ok c!"nsdf"⟩ ∧
    parseLabel c!"5" ⟨0, 1, 1⟩ c!"Total  Capacity Used: bytes (TCU)" c!"7" false = ⟨[], false, .ok c!"tcu"⟩ := by
  exact ⟨rfl, rfl⟩

example : letI := Uni.ascii
    Spelling [([], c!"Total"), (c!"  ", c!"Capacity"), (c!" ", c!"Used")] ∧
    spell [([], c!"Total"), (c!"  ", c!"Capacity"), (c!" ", c!"Used")] [] = c!"Total  Capacity Used" ∧
    ([(([] : Str), c!"Total"), (c!"  ", c!"Capacity"), (c!" ", c!"Used")] : List (Str × Str)).flatMap (·.2.take 1) = c!"TCU" := by
  refine ⟨?_, rfl, rfl⟩
  simp [Spelling]
  decide

end Spex
