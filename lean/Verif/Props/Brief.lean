import Verif.Lemmas.Label
/-
C04, C05: the brief of one cell. All fields of a document: Props/Fields.
-/
set_option autoImplicit false
namespace Spex
variable [Uni]

/-- Python's view of an admissible brief: short, not ending with a period, not starting with a blank. -/
def BriefOk (b : Str) : Prop := b.length ≤ 60 ∧ b.getLast? ≠ some '.' ∧ b.head? ≠ some ' '

theorem contentExtractBrief_eq (txt : Str) (n : Nat) : contentExtractBrief txt n =
    if ':' ∈ txt then
      match (structParts txt).brief with
      | none => none
      | some b =>
        let brief := lstripBy (· == ' ') (rstripBy (· == '.') b)
        if brief.length ≤ n then some brief
        else if (splitHead '.' brief).length ≤ n then some (splitHead '.' brief) else none
    else none := by
  unfold contentExtractBrief
  obtain ⟨m, hm, -, -, h3⟩ := structLabel_match txt
  rw [hm]
  simp only [h3, hasChar]
  by_cases h : ':' ∈ txt
  · simp [h]
    rfl
  · simp [h]

/-- C04 (one cell): every brief extracted from a content cell is admissible. -/
theorem C04_brief_ok (txt b : Str) (h : contentExtractBrief txt = some b) : BriefOk b := by
  rw [contentExtractBrief_eq] at h
  split at h
  · split at h
    · simp at h
    · rename_i bb hb
      simp only at h
      generalize hbr : lstripBy (· == ' ') (rstripBy (· == '.') bb) = br at h
      have hlast : br.getLast? ≠ some '.' := by
        intro hl
        have hne : br ≠ [] := by intro h0; simp [h0] at hl
        have hsuf : br <:+ rstripBy (· == '.') bb := hbr ▸ lstripBy_suffix _ _
        rw [getLast?_of_suffix hsuf hne] at hl
        have := rstripBy_last hl
        simp at this
      have hhead : br.head? ≠ some ' ' := by
        intro hl
        rw [← hbr] at hl
        have := lstripBy_head hl
        simp at this
      split at h
      · simp only [Option.some.injEq] at h
        subst h
        exact ⟨by assumption, hlast, hhead⟩
      · split at h
        · simp only [Option.some.injEq] at h
          subst h
          refine ⟨by assumption, ?_, ?_⟩
          · intro hl
            have hm := List.mem_of_getLast? hl
            unfold splitHead at hm
            have := List.all_takeWhile (p := (· != '.')) (l := br)
            have := List.all_eq_true.mp this _ hm
            simp at this
          · intro hl
            have hne : splitHead '.' br ≠ [] := by intro h0; simp [h0] at hl
            have hp : splitHead '.' br <+: br := List.takeWhile_prefix _
            rw [head?_of_prefix hp hne] at hl
            exact hhead hl
        · simp at h
  · simp at h

example : letI := Uni.ascii
    contentExtractBrief c!"Opcode (OPC): This field specifies the opcode. Refer to Figure 91 and to the other sections for details."
      = some c!"This field specifies the opcode" := by decide +kernel

/-- C05: a brief is a contiguous piece of the cell's text, behind the whole label part (the longest initial piece of
label characters); a text without a colon has no brief. -/
theorem C05_brief_quotation (txt b : Str) (h : contentExtractBrief txt = some b) :
    ':' ∈ txt ∧
    ∃ lbl mid post, txt = lbl ++ mid ++ b ++ post ∧ (∀ c ∈ lbl, LabelChar c) ∧
      (∀ c ∈ (mid ++ b ++ post).head?, ¬ LabelChar c) := by
  rw [contentExtractBrief_eq] at h
  split at h
  · rename_i hcol
    refine ⟨hcol, ?_⟩
    have hcls := clsStructLabel_iff
    have hsuf : ∀ bb, (structParts txt).brief = some bb → bb <:+ txt.dropWhile clsStructLabel := by
      intro bb hb
      simp only [structParts] at hb
      split at hb
      · simp at hb
      · simp only [Option.some.injEq] at hb
        rw [← hb]
        have d1 : ∀ (a : Char) (s : Str), dropOne a s <:+ s := by
          intro a s
          unfold dropOne
          split
          · exact List.tail_suffix s
          · exact List.suffix_refl s
        exact ((d1 _ _).trans (d1 _ _)).trans ((List.dropWhile_suffix _).trans (d1 _ _))
    have main : ∃ mid post, txt.dropWhile clsStructLabel = mid ++ b ++ post := by
      split at h
      · simp at h
      · rename_i bb hb
        simp only at h
        obtain ⟨mid, hmid⟩ := hsuf bb hb
        obtain ⟨post, hpost⟩ := rstripBy_prefix (· == '.') bb
        obtain ⟨mid2, hmid2⟩ := lstripBy_suffix (· == ' ') (rstripBy (· == '.') bb)
        generalize hbr : lstripBy (· == ' ') (rstripBy (· == '.') bb) = br at h hmid2
        have hbr' : txt.dropWhile clsStructLabel = (mid ++ mid2) ++ br ++ post := by
          rw [← hmid, ← hpost, ← hmid2]
          simp [List.append_assoc]
        split at h
        · simp only [Option.some.injEq] at h
          subst h
          exact ⟨_, _, hbr'⟩
        · split at h
          · simp only [Option.some.injEq] at h
            subst h
            obtain ⟨p2, hp2⟩ : splitHead '.' br <+: br := List.takeWhile_prefix _
            refine ⟨mid ++ mid2, p2 ++ post, ?_⟩
            rw [hbr']
            conv => lhs; rw [← hp2]
            simp [List.append_assoc]
          · simp at h
    obtain ⟨mid, post, hmain⟩ := main
    refine ⟨txt.takeWhile clsStructLabel, mid, post, ?_, ?_, ?_⟩
    · rw [List.append_assoc, List.append_assoc, ← List.append_assoc mid, ← hmain, List.takeWhile_append_dropWhile]
    · intro c hc
      have := List.all_takeWhile (p := clsStructLabel) (l := txt)
      exact (hcls c).mp (List.all_eq_true.mp this c hc)
    · intro c hc hl
      rw [← hmain] at hc
      have h2 := List.head?_dropWhile_not clsStructLabel txt
      rw [Option.mem_def] at hc
      rw [hc] at h2
      simp only at h2
      have := (hcls c).mpr hl
      rw [h2] at this
      exact absurd this (by decide)
  · simp at h

example : letI := Uni.ascii
    contentExtractBrief c!"Version (VER): Minor. " = some c!"Minor. " := by decide +kernel

/-! ### C05: just which piece it is -/

/-- `r` is the longest piece of such characters at the start of `r ++ rest` -/
def LongestRun (P : Char → Prop) (r rest : Str) : Prop := (∀ c ∈ r, P c) ∧ ∀ c ∈ rest.head?, ¬ P c

/-- `o` is the character `c`, or nothing if `c` does not come next -/
def MaybeChar (c : Char) (o rest : Str) : Prop := o = [c] ∨ o = [] ∧ rest.head? ≠ some c

/-- the description `body` without the blanks in front and the periods at the end -/
def Trimmed (body core : Str) : Prop :=
  ∃ blanks dots, body = blanks ++ core ++ dots ∧ (∀ c ∈ blanks, c = ' ') ∧ (∀ c ∈ dots, c = '.') ∧ core.head? ≠ some ' ' ∧ core.getLast? ≠ some '.'

/-- a description as long as allowed, or else its first sentence, or else nothing -/
inductive Shortened (core : Str) : Option Str → Prop
  | short : core.length ≤ 60 → Shortened core (some core)
  | sentence (first rest : Str) : 60 < core.length → core = first ++ rest → '.' ∉ first → (∀ c ∈ rest.head?, c = '.') → first.length ≤ 60 →
      Shortened core (some first)
  | long (first rest : Str) : core = first ++ rest → '.' ∉ first → (∀ c ∈ rest.head?, c = '.') → 60 < first.length → Shortened core none

/-- The brief of a cell with this text. The text is a name, an acronym in parentheses, a colon, and a description; each of these may be missing.
The brief is the shortened description. There is none without a description, or without any colon in the text. -/
inductive BriefIs (txt : Str) : Option Str → Prop
  | noColon : ':' ∉ txt → BriefIs txt none
  | noBody (name o acr c k : Str) : txt = name ++ o ++ acr ++ c ++ k → ':' ∈ txt → LongestRun LabelChar name (o ++ acr ++ c ++ k) →
      MaybeChar '(' o (acr ++ c ++ k) → LongestRun (fun x => isWord x = true ∨ isSpace x = true) acr (c ++ k) → MaybeChar ')' c k →
      MaybeChar ':' k [] → BriefIs txt none
  | body (name o acr c k body core : Str) (b : Option Str) : txt = name ++ o ++ acr ++ c ++ k ++ body → ':' ∈ txt →
      LongestRun LabelChar name (o ++ acr ++ c ++ k ++ body) → MaybeChar '(' o (acr ++ c ++ k ++ body) →
      LongestRun (fun x => isWord x = true ∨ isSpace x = true) acr (c ++ k ++ body) → MaybeChar ')' c (k ++ body) → MaybeChar ':' k body →
      body ≠ [] → Trimmed body core → Shortened core b → BriefIs txt b

theorem clsAcronym_iff (c : Char) : clsAcronym c = true ↔ isWord c = true ∨ isSpace c = true := by
  unfold clsAcronym
  rw [Bool.or_eq_true, Bool.or_eq_true]
  constructor
  · rintro (h | h)
    · exact h
    · exact .inl (Uni.digit_word c h)
  · exact .inl

omit [Uni] in
theorem LongestRun.parts {P : Char → Prop} {p : Char → Bool} (hp : ∀ c, p c = true ↔ P c) {r rest : Str} (h : LongestRun P r rest) :
    (r ++ rest).takeWhile p = r ∧ (r ++ rest).dropWhile p = rest := by
  have h1 : (r ++ rest).takeWhile p = r := by
    cases rest with
    | nil =>
      rw [List.append_nil]
      have : ∀ l : Str, (∀ c ∈ l, p c = true) → l.takeWhile p = l := by
        intro l
        induction l with
        | nil => intro _; rfl
        | cons c l ih => intro h; rw [List.takeWhile_cons_of_pos (h c List.mem_cons_self), ih (fun x hx => h x (List.mem_cons_of_mem _ hx))]
      exact this r (fun c hc => (hp c).2 (h.1 c hc))
    | cons c s =>
      refine takeWhile_append_stop (fun c hc => (hp c).2 (h.1 c hc)) ?_
      rw [Bool.eq_false_iff]
      exact fun e => h.2 c rfl ((hp c).1 e)
  refine ⟨h1, ?_⟩
  have := List.takeWhile_append_dropWhile (p := p) (l := r ++ rest)
  rw [h1, List.append_cancel_left_eq] at this
  exact this

omit [Uni] in
theorem LongestRun.exists {P : Char → Prop} {p : Char → Bool} (hp : ∀ c, p c = true ↔ P c) (s : Str) :
    ∃ r rest, s = r ++ rest ∧ LongestRun P r rest := by
  refine ⟨s.takeWhile p, s.dropWhile p, List.takeWhile_append_dropWhile.symm, fun c hc => ?_, fun c hc h => ?_⟩
  · exact (hp c).1 (List.all_eq_true.mp List.all_takeWhile c hc)
  · have h2 := List.head?_dropWhile_not p s
    rw [Option.mem_def] at hc
    rw [hc] at h2
    simp only at h2
    rw [(hp c).2 h] at h2
    cases h2

omit [Uni] in
theorem MaybeChar.drop {c : Char} {o rest : Str} (h : MaybeChar c o rest) : dropOne c (o ++ rest) = rest := by
  unfold dropOne
  rcases h with rfl | ⟨rfl, h⟩
  · simp
  · rw [List.nil_append, if_neg h]

omit [Uni] in
theorem MaybeChar.exists (c : Char) (s : Str) : ∃ o rest, s = o ++ rest ∧ MaybeChar c o rest := by
  by_cases h : s.head? = some c
  · cases s with
    | nil => cases h
    | cons d s => simp at h; subst h; exact ⟨[d], s, rfl, .inl rfl⟩
  · exact ⟨[], s, rfl, .inr ⟨rfl, h⟩⟩

omit [Uni] in
theorem Trimmed.eq {body core : Str} (h : Trimmed body core) : lstripBy (· == ' ') (rstripBy (· == '.') body) = core := by
  obtain ⟨blanks, dots, rfl, h1, h2, h3, h4⟩ := h
  have e1 : rstripBy (· == '.') (blanks ++ core ++ dots) = blanks ++ core := by
    unfold rstripBy
    rw [List.reverse_append, List.dropWhile_append_of_pos (by intro x hx; rw [h2 x (List.mem_reverse.1 hx)]; rfl)]
    have : (blanks ++ core).reverse.dropWhile (· == '.') = (blanks ++ core).reverse := by
      cases hr : (blanks ++ core).reverse with
      | nil => rfl
      | cons x xs =>
        rw [List.dropWhile_cons_of_neg]
        intro hx
        have hl : (blanks ++ core).getLast? = some x := by rw [List.getLast?_eq_head?_reverse, hr]; rfl
        rw [List.getLast?_append] at hl
        cases hc : core.getLast? with
        | none =>
          rw [hc, Option.none_or] at hl
          rw [h1 x (List.mem_of_getLast? hl)] at hx
          revert hx; decide
        | some y =>
          rw [hc, Option.some_or] at hl
          injection hl with hl
          subst hl
          rw [beq_iff_eq] at hx
          rw [hx] at hc
          exact h4 hc
    rw [this, List.reverse_reverse]
  rw [e1]
  unfold lstripBy
  rw [List.dropWhile_append_of_pos (by intro x hx; rw [h1 x hx]; rfl)]
  cases core with
  | nil => rfl
  | cons x xs =>
    rw [List.dropWhile_cons_of_neg]
    intro hx
    rw [beq_iff_eq] at hx
    exact h3 (by rw [hx]; rfl)

omit [Uni] in
theorem Trimmed.exists (body : Str) : ∃ core, Trimmed body core := by
  obtain ⟨dots, hd⟩ := rstripBy_prefix (· == '.') body
  obtain ⟨blanks, hb⟩ := lstripBy_suffix (· == ' ') (rstripBy (· == '.') body)
  refine ⟨lstripBy (· == ' ') (rstripBy (· == '.') body), blanks, dots, ?_, ?_, ?_, ?_, ?_⟩
  · rw [hb, hd]
  · intro c hc
    have : blanks = (rstripBy (· == '.') body).takeWhile (· == ' ') := by
      have h2 := List.takeWhile_append_dropWhile (p := (· == ' ')) (l := rstripBy (· == '.') body)
      have h3 : blanks ++ lstripBy (· == ' ') (rstripBy (· == '.') body) =
          (rstripBy (· == '.') body).takeWhile (· == ' ') ++ lstripBy (· == ' ') (rstripBy (· == '.') body) := hb.trans h2.symm
      exact List.append_cancel_right h3
    rw [this] at hc
    simpa using List.all_eq_true.mp List.all_takeWhile c hc
  · intro c hc
    have : dots = ((body.reverse).takeWhile (· == '.')).reverse := by
      have h2 := List.takeWhile_append_dropWhile (p := (· == '.')) (l := body.reverse)
      have h3 := congrArg List.reverse h2
      rw [List.reverse_append, List.reverse_reverse] at h3
      have h4 : rstripBy (· == '.') body ++ dots = rstripBy (· == '.') body ++ ((body.reverse).takeWhile (· == '.')).reverse := hd.trans h3.symm
      exact List.append_cancel_left h4
    rw [this, List.mem_reverse] at hc
    simpa using List.all_eq_true.mp List.all_takeWhile c hc
  · intro h
    have := lstripBy_head h
    simp at this
  · intro hl
    have hne : lstripBy (· == ' ') (rstripBy (· == '.') body) ≠ [] := by intro h0; rw [h0] at hl; cases hl
    rw [getLast?_of_suffix (lstripBy_suffix _ _) hne] at hl
    have := rstripBy_last hl
    simp at this

omit [Uni] in
theorem first_sentence {first rest : Str} (h1 : '.' ∉ first) (h2 : ∀ c ∈ rest.head?, c = '.') : splitHead '.' (first ++ rest) = first := by
  unfold splitHead
  refine (LongestRun.parts (P := fun c => c ≠ '.') (p := (· != '.')) (by simp) ⟨fun c hc e => h1 (e ▸ hc), fun c hc h => h (h2 c hc)⟩).1

omit [Uni] in
theorem Shortened.eq {core : Str} {b : Option Str} (h : Shortened core b) :
    (if core.length ≤ 60 then some core else if (splitHead '.' core).length ≤ 60 then some (splitHead '.' core) else none) = b := by
  cases h with
  | short h => rw [if_pos h]
  | sentence first rest h1 h2 h3 h4 h5 =>
    rw [if_neg (by omega), h2, first_sentence h3 h4, if_pos h5]
  | long first rest h2 h3 h4 h5 =>
    have : first.length ≤ core.length := by rw [h2, List.length_append]; omega
    rw [if_neg (by omega), h2, first_sentence h3 h4, if_neg (by omega)]

omit [Uni] in
theorem Shortened.exists (core : Str) : ∃ b, Shortened core b := by
  by_cases h : core.length ≤ 60
  · exact ⟨_, .short h⟩
  · obtain ⟨first, rest, h1, h2, h3⟩ := LongestRun.exists (P := fun c => c ≠ '.') (p := (· != '.')) (by simp) core
    by_cases hf : first.length ≤ 60
    · exact ⟨_, .sentence first rest (by omega) h1 (fun h => h2 _ h rfl) (fun c hc => by simpa using h3 c hc) hf⟩
    · exact ⟨_, .long first rest h1 (fun h => h2 _ h rfl) (fun c hc => by simpa using h3 c hc) (by omega)⟩

/-- the parts of the text -/
theorem briefIs_parts {name o acr c k body : Str} (h1 : LongestRun LabelChar name (o ++ acr ++ c ++ k ++ body))
    (h2 : MaybeChar '(' o (acr ++ c ++ k ++ body)) (h3 : LongestRun (fun x => isWord x = true ∨ isSpace x = true) acr (c ++ k ++ body))
    (h4 : MaybeChar ')' c (k ++ body)) (h5 : MaybeChar ':' k body) :
    (structParts (name ++ o ++ acr ++ c ++ k ++ body)).brief = if body = [] then none else some body := by
  have e1 := (h1.parts clsStructLabel_iff).2
  have e2 := h2.drop
  have e3 := (h3.parts clsAcronym_iff).2
  have e4 := h4.drop
  have e5 := h5.drop
  simp only [List.append_assoc] at e1 e2 e3 e4 e5 ⊢
  unfold structParts
  simp only [e1, e2, e3, e4, e5]

theorem BriefIs.eq {txt : Str} {b : Option Str} (h : BriefIs txt b) : contentExtractBrief txt = b := by
  rw [contentExtractBrief_eq]
  cases h with
  | noColon h => rw [if_neg h]
  | noBody name o acr c k h0 hc h1 h2 h3 h4 h5 =>
    have := briefIs_parts (body := []) (by simpa using h1) (by simpa using h2) (by simpa using h3) (by simpa using h4) h5
    rw [List.append_nil, ← h0, if_pos rfl] at this
    rw [if_pos hc, this]
  | body name o acr c k body core b h0 hc h1 h2 h3 h4 h5 hne ht hs =>
    have := briefIs_parts h1 h2 h3 h4 h5
    rw [← h0, if_neg hne] at this
    rw [if_pos hc, this]
    simp only [ht.eq]
    exact hs.eq

/-- **C05** (exactness): just which brief a cell has. -/
theorem C05_brief_exact (txt : Str) (b : Option Str) : contentExtractBrief txt = b ↔ BriefIs txt b := by
  refine ⟨?_, BriefIs.eq⟩
  suffices h : ∃ b, BriefIs txt b by
    obtain ⟨b', h⟩ := h
    intro hb
    rw [h.eq] at hb
    exact hb ▸ h
  by_cases hc : ':' ∈ txt
  · obtain ⟨name, r1, e1, h1⟩ := LongestRun.exists clsStructLabel_iff txt
    obtain ⟨o, r2, e2, h2⟩ := MaybeChar.exists '(' r1
    obtain ⟨acr, r3, e3, h3⟩ := LongestRun.exists clsAcronym_iff r2
    obtain ⟨c, r4, e4, h4⟩ := MaybeChar.exists ')' r3
    obtain ⟨k, body, e5, h5⟩ := MaybeChar.exists ':' r4
    by_cases hb : body = []
    · rw [hb] at e5 h5
      simp only [e2, e3, e4, e5] at e1 h1 h2 h3 h4
      refine ⟨none, .noBody name o acr c k ?_ hc ?_ ?_ ?_ ?_ h5⟩
      · simpa using e1
      · simpa using h1
      · simpa using h2
      · simpa using h3
      · simpa using h4
    · obtain ⟨core, ht⟩ := Trimmed.exists body
      obtain ⟨b, hs⟩ := Shortened.exists core
      simp only [e2, e3, e4, e5] at e1 h1 h2 h3 h4
      refine ⟨b, .body name o acr c k body core b ?_ hc ?_ ?_ ?_ ?_ h5 hb ht hs⟩
      · simpa using e1
      · simpa using h1
      · simpa using h2
      · simpa using h3
      · simpa using h4
  · exact ⟨none, .noColon hc⟩

/-- a name with an acronym, and a description of two sentences which is not too long -/
example : letI := Uni.ascii
    BriefIs c!"Power State (PS): The state. Zero is full power.." (some c!"The state. Zero is full power") ∧
    BriefIs c!"Note: " (some []) ∧ BriefIs c!"Note:" none := by
  let _ := Uni.ascii
  exact ⟨(C05_brief_exact _ _).1 (by decide +kernel), (C05_brief_exact _ _).1 (by decide +kernel), (C05_brief_exact _ _).1 (by decide +kernel)⟩

end Spex
