import Verif.Props.Label
import Verif.Props.Brief
/-
C06, C08, C09: just which label a row has, for every text of its cells. All fields of a document: Props/Fields.
-/
set_option autoImplicit false
namespace Spex
variable [Uni]

/-! ### Specification -/

/-- `t` is the text `s` without such characters at its ends -/
def Bared (P : Char → Prop) (s t : Str) : Prop :=
  ∃ l r, s = l ++ t ++ r ∧ (∀ c ∈ l, P c) ∧ (∀ c ∈ r, P c) ∧ ∀ c, t.head? = some c ∨ t.getLast? = some c → ¬ P c

/-- the label `n` made of the text `s`: without white space at the ends, separators joined, in upper case -/
def NormalOf (s n : Str) : Prop := ∃ core t, Bared (fun c => isSpace c = true) s core ∧ Joined core t ∧ n = upper t

/-- `x` are the first characters of the words of `s` -/
def InitialsOf (s x : Str) : Prop :=
  ∃ ws fin, Spelling ws ∧ (∀ c ∈ fin, isSpace c = true) ∧ s = spell ws fin ∧ x = ws.flatMap (·.2.take 1)

/-- the name at the start of the text, and the acronym behind it, in parentheses -/
def NameAcronym (txt name acr : Str) : Prop :=
  ∃ o rest, txt = name ++ o ++ acr ++ rest ∧ LongestRun LabelChar name (o ++ acr ++ rest) ∧ MaybeChar '(' o (acr ++ rest) ∧
    LongestRun (fun x => isWord x = true ∨ isSpace x = true) acr rest

/-- The label in a text of the column of the descriptions, and what is reported: the acronym, or else the initials of the name. A name which
only marks the row stays. Without any name, the text itself is the label. -/
inductive NamedText (txt : Str) : Str → Option LintErr → Prop
  | acronym (name acr : Str) : NameAcronym txt name acr → acr ≠ [] → NamedText txt acr none
  | mark (name : Str) : NameAcronym txt name [] → name ≠ [] → upper name ∈ [RESERVED, ELLIPSIS, OBSOLETE] → NamedText txt name none
  | initials (name x : Str) : NameAcronym txt name [] → name ≠ [] → upper name ∉ [RESERVED, ELLIPSIS, OBSOLETE] → InitialsOf name x →
      NamedText txt (lower x) none
  | bare : NameAcronym txt [] [] → NamedText txt txt (some .lblExtractErr)

/-- The label in a text of a column of its own, and what is reported: the text up to the colon, or the initials. -/
inductive ColumnText (txt : Str) : Str → Option LintErr → Prop
  | colon (name rest : Str) : txt = name ++ ':' :: rest → ':' ∉ name → ' ' ∉ name → ColumnText txt name none
  | blank (name rest : Str) : txt = name ++ ':' :: rest → ':' ∉ name → ' ' ∈ name → ColumnText txt name (some .lblInvalidChrs)
  | initials (x : Str) : ':' ∉ txt → InitialsOf txt x → ColumnText txt x (some .lblImputed)

/-- the reports on the label `n` of a row: this one, and one which quotes the label if it is not accepted -/
def LabelReports (fig key : Str) (e : Option LintErr) (n : Str) (evs : List Ev) : Prop :=
  ∃ post, evs = (e.toList.map fun k => .lint (issue k fig (some key))) ++ post ∧
    (AcceptedLabel n ∧ post = [] ∨ ¬ AcceptedLabel n ∧ post = [.lint (issue .lblInvalidChrs fig (some key) [(c!"label", .str n)])])

/-- the label of a row of a bits or bytes figure, in upper case, and the reports on it -/
def StructLabelIs (own : Prop) (fig key txt n : Str) (evs : List Ev) : Prop :=
  ∃ x e, (¬ own ∧ NamedText txt x e ∨ own ∧ ColumnText txt x e) ∧ NormalOf x n ∧ LabelReports fig key e n evs

/-- a number at the start of the label is moved to its end; what follows the first line is lost -/
inductive NumberMoved (s : Str) : Str → Prop
  | none : (∀ c ∈ s.head?, isDigit c = false) → NumberMoved s s
  | only (ds line rest : Str) : s = ds ++ line ++ rest → ds ≠ [] → LongestRun (fun c => isDigit c = true) ds (line ++ rest) →
      LongestRun (fun c => c ≠ '\n') line rest → (∀ c ∈ line, c = '_') → NumberMoved s ds
  | moved (ds line rest core : Str) : s = ds ++ line ++ rest → ds ≠ [] → LongestRun (fun c => isDigit c = true) ds (line ++ rest) →
      LongestRun (fun c => c ≠ '\n') line rest → Bared (fun c => c = '_') line core → core ≠ [] → NumberMoved s (core ++ '_' :: ds)

/-- the label in a text of the column of the descriptions of a table of values, and what is reported -/
inductive ValueText (txt : Str) : Str → Option LintErr → Prop
  | name (name rest : Str) : txt = name ++ rest → LongestRun (fun c => isWord c = true ∨ isSpace c = true ∨ c = '/' ∨ c = '-') name rest →
      name ≠ [] → ValueText txt name none
  | bare : (∀ c ∈ txt.head?, ¬ (isWord c = true ∨ isSpace c = true ∨ c = '/' ∨ c = '-')) → ValueText txt txt (some .lblExtractErr)

/-- the label in a text of a column of its own, and what is reported -/
inductive ValueColumnText (txt : Str) : Str → Option LintErr → Prop
  | colon (name rest : Str) : lower txt = name ++ ':' :: rest → ':' ∉ name →
      ValueColumnText txt (upper (name.map fun c => if c = ' ' then '_' else c)) none
  | whole : ':' ∉ lower txt → ValueColumnText txt (upper ((lower txt).map fun c => if c = ' ' then '_' else c)) (some .lblImputed)

/-- the label of a row of a table of values, and the reports on it -/
inductive ValueLabelIs (own : Prop) (fig key txt : Str) : Str → List Ev → Prop
  | reserved : ¬ own → upper txt = RESERVED → ValueLabelIs own fig key txt RESERVED []
  | reservedOwn : own → lower txt = c!"reserved" → ValueLabelIs own fig key txt RESERVED []
  | reservedName (x : Str) (e : Option LintErr) : own → lower txt ≠ c!"reserved" → ValueColumnText txt x e → x = RESERVED →
      ValueLabelIs own fig key txt RESERVED (e.toList.map fun k => .lint (issue k fig (some key)))
  | label (x y n : Str) (e : Option LintErr) (evs : List Ev) :
      (¬ own ∧ upper txt ≠ RESERVED ∧ ValueText txt x e ∨ own ∧ lower txt ≠ c!"reserved" ∧ ValueColumnText txt x e ∧ x ≠ RESERVED) →
      NumberMoved x y → NormalOf y n → LabelReports fig key e n evs → ValueLabelIs own fig key txt n evs

/-! ### The parts -/

omit [Uni] in
theorem takeWhile_before {p : Char → Bool} {u s : Str} (hu : ∀ x ∈ u, p x = true) (hs : ∀ c ∈ s.head?, p c = false) :
    (u ++ s).takeWhile p = u := by
  cases s with
  | nil => rw [List.append_nil, List.takeWhile_eq_self_iff]; exact hu
  | cons c s => exact takeWhile_append_stop hu (hs c rfl)

omit [Uni] in
theorem Joined.head {c : Char} {s u : Str} (h : Joined (c :: s) u) (hc : isSep c = false) : ∃ v, u = c :: v ∧ Joined s v := by
  generalize hs : c :: s = s' at h
  cases h with
  | nil => cases hs
  | char d s t h1 h2 => cases hs; exact ⟨t, rfl, h2⟩
  | run r s t h1 h2 h3 h4 =>
    obtain ⟨x, xs, rfl⟩ := List.exists_cons_of_ne_nil h1
    cases hs
    rw [h2 c List.mem_cons_self] at hc
    cases hc

omit [Uni] in
/-- a text is written in one way only -/
theorem Joined.unique {s u v : Str} (h1 : Joined s u) (h2 : Joined s v) : u = v := by
  induction h1 generalizing v with
  | nil =>
    generalize hs : ([] : Str) = s' at h2
    cases h2 with
    | nil => rfl
    | char => cases hs
    | run r s t h1 => exact absurd (List.append_eq_nil_iff.1 hs.symm).1 h1
  | char c s t hc _ ih =>
    obtain ⟨w, rfl, hw⟩ := h2.head hc
    rw [ih hw]
  | run r s t g1 g2 g3 g4 ih =>
    generalize hs : r ++ s = s' at h2
    cases h2 with
    | nil => exact absurd (List.append_eq_nil_iff.1 hs).1 g1
    | char d s2 t2 hd _ =>
      obtain ⟨x, xs, rfl⟩ := List.exists_cons_of_ne_nil g1
      rw [List.cons_append, List.cons.injEq] at hs
      rw [← hs.1, g2 _ List.mem_cons_self] at hd
      cases hd
    | run r2 s2 t2 k1 k2 k3 k4 =>
      have e1 : ∀ (r s : Str), (∀ c ∈ r, isSep c = true) → (∀ c s', s = c :: s' → isSep c = false) →
          (r ++ s).takeWhile isSep = r := by
        intro r s h1 h2
        refine takeWhile_before h1 ?_
        intro c hc
        cases s with
        | nil => cases hc
        | cons d s => simp at hc; exact h2 c s (by rw [hc])
      have e2 := e1 r s g2 g3
      rw [hs, e1 r2 s2 k2 k3] at e2
      subst e2
      rw [List.append_cancel_left_eq] at hs
      subst hs
      rw [ih k4]

omit [Uni] in
theorem Bared.eq {P : Char → Prop} {p : Char → Bool} (hp : ∀ c, p c = true ↔ P c) {s t : Str} (h : Bared P s t) :
    rstripBy p (lstripBy p s) = t := by
  obtain ⟨l, r, rfl, h1, h2, h3⟩ := h
  have hr : r.reverse.dropWhile p = [] := List.dropWhile_eq_nil_iff.2 (fun x hx => (hp x).2 (h2 x (List.mem_reverse.1 hx)))
  have hl : lstripBy p (l ++ t ++ r) = if t = [] then [] else t ++ r := by
    unfold lstripBy
    rw [List.append_assoc, List.dropWhile_append_of_pos (fun x hx => (hp x).2 (h1 x hx))]
    cases t with
    | nil => rw [List.nil_append, if_pos rfl]; exact List.dropWhile_eq_nil_iff.2 (fun x hx => (hp x).2 (h2 x hx))
    | cons c t =>
      rw [List.cons_append, List.dropWhile_cons_of_neg, if_neg (by simp)]
      exact fun hc => h3 c (.inl rfl) ((hp c).1 hc)
  rw [hl]
  by_cases ht : t = []
  · rw [if_pos ht, ht]; rfl
  · rw [if_neg ht]
    unfold rstripBy
    rw [List.reverse_append, List.dropWhile_append_of_pos (fun x hx => (hp x).2 (h2 x (List.mem_reverse.1 hx)))]
    cases hc : t.reverse with
    | nil => exact absurd (List.reverse_eq_nil_iff.1 hc) ht
    | cons c u =>
      rw [List.dropWhile_cons_of_neg, ← hc, List.reverse_reverse]
      refine fun h => h3 c (.inr ?_) ((hp c).1 h)
      rw [List.getLast?_eq_head?_reverse, hc]; rfl

omit [Uni] in
theorem Bared.strip {P : Char → Prop} {p : Char → Bool} (hp : ∀ c, p c = true ↔ P c) (s : Str) : Bared P s (rstripBy p (lstripBy p s)) := by
  refine ⟨s.takeWhile p, (((s.dropWhile p).reverse).takeWhile p).reverse, ?_, ?_, ?_, ?_⟩
  · unfold rstripBy lstripBy
    rw [List.append_assoc, ← List.reverse_append, List.takeWhile_append_dropWhile, List.reverse_reverse,
      List.takeWhile_append_dropWhile]
  · intro x hx; exact (hp x).1 (List.mem_takeWhile_imp hx)
  · intro x hx; exact (hp x).1 (List.mem_takeWhile_imp (List.mem_reverse.1 hx))
  · rintro c (h | h) hc
    · have := lstripBy_head (p := p) (s := s) (c := c) (by
        obtain ⟨t, ht⟩ := rstripBy_prefix p (lstripBy p s)
        rw [← ht, List.head?_append, h]; rfl)
      rw [(hp c).2 hc] at this
      cases this
    · have := rstripBy_last h
      rw [(hp c).2 hc] at this
      cases this

/-- **C06** (exactness): the label made of a text. -/
theorem C06_normal_iff (s n : Str) : normalizeLabel s = n ↔ NormalOf s n := by
  have e : normalizeLabel s = upper (replace2 '_' ['_'] ((rstripBy isSpace (lstripBy isSpace s)).flatMap sepMap)) := by
    rw [normalizeLabel, replace1_three]
  constructor
  · rintro rfl
    exact ⟨_, _, Bared.strip (fun _ => Iff.rfl) s, joined_exists _, e⟩
  · rintro ⟨core, t, h1, h2, rfl⟩
    rw [e, h1.eq (fun _ => Iff.rfl), h2.unique (joined_exists core)]

omit [Uni] in
theorem spelling_exists (s : Str) : ∃ ws fin, Spelling ws ∧ (∀ c ∈ fin, isSpace c = true) ∧ s = spell ws fin ∧
    ((∀ c ∈ s.head?, isSpace c = true) → ∀ p ∈ ws, p.1 ≠ []) := by
  induction hn : s.length using Nat.strong_induction_on generalizing s with
  | _ n ih =>
    obtain ⟨g, r1, e1, h1, h2⟩ := LongestRun.exists (P := fun c => isSpace c = true) (p := isSpace) (fun _ => Iff.rfl) s
    by_cases hr : r1 = []
    · exact ⟨[], g, trivial, h1, by simpa [hr, spell] using e1, by simp⟩
    · obtain ⟨w, r2, e2, h3, h4⟩ := LongestRun.exists (P := fun c => isSpace c = false) (p := fun c => !isSpace c) (by simp) r1
      have hw : w ≠ [] := by
        rintro rfl
        obtain ⟨c, t, hc⟩ := List.exists_cons_of_ne_nil hr
        have ha := h2 c (by rw [hc]; simp)
        have hb := h4 c (by rw [← List.nil_append r2, ← e2, hc]; simp)
        cases h : isSpace c <;> simp_all
      have hl : r2.length < n := by
        have := List.length_pos_iff.2 hw
        rw [← hn, e1, e2, List.length_append, List.length_append]
        omega
      obtain ⟨ws, fin, k1, k2, k3, k4⟩ := ih _ hl r2 rfl
      have k5 := k4 (fun c hc => by simpa using h4 c hc)
      refine ⟨(g, w) :: ws, fin, ⟨h1, hw, h3, k1, k5⟩, k2, ?_, ?_⟩
      · rw [spell, e1, e2, ← k3, List.append_assoc]
      · intro hs p hp
        rcases List.mem_cons.1 hp with rfl | hp
        · rintro rfl
          obtain ⟨c, t, hc⟩ := List.exists_cons_of_ne_nil hr
          have ha := h2 c (by rw [hc]; simp)
          exact ha (hs c (by rw [e1, hc]; simp))
        · exact k5 p hp

omit [Uni] in
theorem initialsOf_iff (s x : Str) : initials s = x ↔ InitialsOf s x := by
  have key : ∀ ws fin, Spelling ws → (∀ c ∈ fin, isSpace c = true) → initials (spell ws fin) = ws.flatMap (·.2.take 1) := by
    intro ws fin h1 h2
    rw [initials, words_spell ws fin h1 h2, List.flatMap_map]
  constructor
  · rintro rfl
    obtain ⟨ws, fin, h1, h2, h3, -⟩ := spelling_exists s
    exact ⟨ws, fin, h1, h2, h3, by rw [h3, key ws fin h1 h2]⟩
  · rintro ⟨ws, fin, h1, h2, rfl, rfl⟩
    exact key ws fin h1 h2

theorem NameAcronym.eq {txt name acr : Str} (h : NameAcronym txt name acr) :
    (structParts txt).label = name ∧ (structParts txt).acronym = acr := by
  obtain ⟨o, rest, rfl, h1, h2, h3⟩ := h
  have e1 := h1.parts clsStructLabel_iff
  have e2 := h2.drop
  have e3 := (h3.parts clsAcronym_iff).1
  simp only [List.append_assoc] at e1 e2 e3 ⊢
  unfold structParts
  simp only [e1.1, e1.2, e2, e3, and_self]

theorem NameAcronym.exists (txt : Str) : NameAcronym txt (structParts txt).label (structParts txt).acronym := by
  obtain ⟨name, r1, e1, h1⟩ := LongestRun.exists clsStructLabel_iff txt
  obtain ⟨o, r2, e2, h2⟩ := MaybeChar.exists '(' r1
  obtain ⟨acr, r3, e3, h3⟩ := LongestRun.exists clsAcronym_iff r2
  have h : NameAcronym txt name acr := by
    refine ⟨o, r3, ?_, ?_, ?_, h3⟩
    · rw [e1, e2, e3]; simp
    · rw [e2, e3] at h1; simpa using h1
    · rw [e3] at h2; exact h2
  rw [h.eq.1, h.eq.2]
  exact h

/-- what the code makes of a text of the column of the descriptions -/
theorem namedText_run (fig txt key : Str) (hf : fig ≠ []) (x : Str) (e : Option LintErr) (h : NamedText txt x e) (fl : Bool) :
    extractLabelSame fig txt key fl = ⟨e.toList.map fun k => .lint (issue k fig (some key)), fl, .ok x⟩ := by
  rw [extractLabelSame_eq]
  have hset : ∀ s, SPECIAL_CASE_SET.contains s = true ↔ s ∈ [RESERVED, ELLIPSIS, OBSOLETE] := by
    intro s; rw [List.contains_iff_mem]; rfl
  cases h with
  | acronym name acr h hne => rw [h.eq.2, if_pos hne]; rfl
  | mark name h hne hs => rw [h.eq.2, if_neg (by simp), h.eq.1, if_pos hne, if_pos ((hset _).2 hs)]; rfl
  | initials name x h hne hs hi =>
    rw [h.eq.2, if_neg (by simp), h.eq.1, if_pos hne, if_neg (fun hh => hs ((hset _).1 hh)), generateAcronym, (initialsOf_iff _ _).2 hi]; rfl
  | bare h => rw [h.eq.2, if_neg (by simp), h.eq.1, if_neg (by simp), addIssue_row hf]; rfl

theorem NamedText.exists (txt : Str) : ∃ x e, NamedText txt x e := by
  have h := NameAcronym.exists txt
  by_cases h1 : (structParts txt).acronym = []
  · rw [h1] at h
    by_cases h2 : (structParts txt).label = []
    · rw [h2] at h; exact ⟨_, _, .bare h⟩
    · by_cases h3 : upper (structParts txt).label ∈ [RESERVED, ELLIPSIS, OBSOLETE]
      · exact ⟨_, _, .mark _ h h2 h3⟩
      · exact ⟨_, _, .initials _ _ h h2 h3 ((initialsOf_iff _ _).1 rfl)⟩
  · exact ⟨_, _, .acronym _ _ h h1⟩

omit [Uni] in
theorem splitHead_colon {name rest : Str} (h : ':' ∉ name) : splitHead ':' (name ++ ':' :: rest) = name := by
  unfold splitHead
  refine takeWhile_append_stop (fun c hc => ?_) (by simp)
  rw [bne_iff_ne]; rintro rfl; exact h hc

omit [Uni] in
theorem splitHead_none {s : Str} (h : ':' ∉ s) : splitHead ':' s = s := by
  unfold splitHead
  rw [List.takeWhile_eq_self_iff]
  intro c hc
  rw [bne_iff_ne]; rintro rfl; exact h hc

omit [Uni] in
theorem colon_split {s : Str} (h : ':' ∈ s) : ∃ name rest, s = name ++ ':' :: rest ∧ ':' ∉ name := by
  obtain ⟨a, b, h1, h2⟩ := List.eq_append_cons_of_mem h
  exact ⟨a, b, h1, h2⟩

/-- what the code makes of a text of a column of its own -/
theorem columnText_run (fig txt key : Str) (hf : fig ≠ []) (x : Str) (e : Option LintErr) (h : ColumnText txt x e) (fl : Bool) :
    extractLabelSeparate fig txt key fl = ⟨e.toList.map fun k => .lint (issue k fig (some key)), fl, .ok x⟩ := by
  unfold extractLabelSeparate
  have hc : ∀ (c : Char) (s : Str), hasChar c s = true ↔ c ∈ s := by intro c s; unfold hasChar; rw [List.contains_iff_mem]
  simp only
  cases h with
  | colon rest h1 h2 h3 =>
    have e1 : hasChar ':' txt = true := (hc _ _).2 (by rw [h1]; simp)
    have e2 : hasChar ' ' x = false := by rw [Bool.eq_false_iff, ne_eq, hc]; exact h3
    rw [e1, h1, splitHead_colon h2, e2]; rfl
  | blank rest h1 h2 h3 =>
    have e1 : hasChar ':' txt = true := (hc _ _).2 (by rw [h1]; simp)
    have e2 : hasChar ' ' x = true := (hc _ _).2 h3
    rw [e1, h1, splitHead_colon h2, e2]
    simp only [Bool.not_true, Bool.false_eq_true, if_false, if_true]
    rw [addIssue_row hf]; rfl
  | initials h1 h2 =>
    have e1 : hasChar ':' txt = false := by rw [Bool.eq_false_iff, ne_eq, hc]; exact h1
    rw [e1, splitHead_none h1, (initialsOf_iff _ _).2 h2]
    simp only [Bool.not_false, if_true]
    rw [addIssue_row hf]; rfl

omit [Uni] in
theorem ColumnText.exists (txt : Str) : ∃ x e, ColumnText txt x e := by
  by_cases h : ':' ∈ txt
  · obtain ⟨name, rest, h1, h2⟩ := colon_split h
    by_cases h3 : ' ' ∈ name
    · exact ⟨_, _, .blank name rest h1 h2 h3⟩
    · exact ⟨_, _, .colon name rest h1 h2 h3⟩
  · exact ⟨_, _, .initials _ h ((initialsOf_iff _ _).1 rfl)⟩

theorem labelReports_iff {fig key : Str} (hf : fig ≠ []) (e : Option LintErr) (n : Str) (evs : List Ev) (fl : Bool) :
    LabelReports fig key e n evs ↔
      evs = (e.toList.map fun k => .lint (issue k fig (some key))) ++ (validateLabel n fig key fl).evs := by
  unfold LabelReports
  by_cases ha : AcceptedLabel n
  · rw [(validateLabel_eq n fig key hf).1 ha]
    simp [ha, M.pure_run]
  · rw [(validateLabel_eq n fig key hf).2 ha]
    simp [ha, M.emit_run]

theorem validateLabel_flag {fig key x : Str} (hf : fig ≠ []) (fl : Bool) : (validateLabel x fig key fl).flag = fl := by
  by_cases ha : AcceptedLabel x
  · rw [(validateLabel_eq _ fig key hf).1 ha]; rfl
  · rw [(validateLabel_eq _ fig key hf).2 ha]; rfl

theorem validateLabel_out {fig key x : Str} (hf : fig ≠ []) (fl : Bool) : (validateLabel x fig key fl).out = .ok () := by
  by_cases ha : AcceptedLabel x
  · rw [(validateLabel_eq _ fig key hf).1 ha]; rfl
  · rw [(validateLabel_eq _ fig key hf).2 ha]; rfl

/-- **C08** (exactness), bits and bytes figures: just which label a row has, whatever the text of its cell, and just which reports there
are on it. -/
theorem C08_label_exact (fig : Str) (cols : Cols) (txt key : Str) (hf : fig ≠ []) (fl : Bool) (evs : List Ev) (l : Str) :
    parseLabel fig cols txt key fl = ⟨evs, fl, .ok l⟩ ↔
    ∃ n, StructLabelIs (cols.content ≠ cols.label) fig key txt n evs ∧ l = lower n := by
  have run : ∀ n evs, StructLabelIs (cols.content ≠ cols.label) fig key txt n evs →
      parseLabel fig cols txt key fl = ⟨evs, fl, .ok (lower n)⟩ := by
    rintro n evs ⟨x, e, hx, hn, hr⟩
    have h1 : extractLabel fig cols txt key fl = ⟨e.toList.map fun k => .lint (issue k fig (some key)), fl, .ok x⟩ := by
      unfold extractLabel
      rcases hx with ⟨ho, hx⟩ | ⟨ho, hx⟩
      · rw [if_neg ho]; exact namedText_run fig txt key hf x e hx fl
      · rw [if_pos ho]; exact columnText_run fig txt key hf x e hx fl
    unfold parseLabel
    rw [M.bind_ok (by rw [h1]), h1]
    simp only
    rw [(C06_normal_iff x n).2 hn, M.bind_ok (validateLabel_out hf _)]
    simp only [M.pure_run, List.append_nil, validateLabel_flag hf]
    rw [(labelReports_iff hf e n evs fl).1 hr]
  constructor
  · intro h
    obtain ⟨x, e, hx⟩ : ∃ x e, (¬ cols.content ≠ cols.label ∧ NamedText txt x e ∨ cols.content ≠ cols.label ∧ ColumnText txt x e) := by
      by_cases ho : cols.content ≠ cols.label
      · obtain ⟨x, e, hx⟩ := ColumnText.exists txt
        exact ⟨x, e, .inr ⟨ho, hx⟩⟩
      · obtain ⟨x, e, hx⟩ := NamedText.exists txt
        exact ⟨x, e, .inl ⟨ho, hx⟩⟩
    have hs : StructLabelIs (cols.content ≠ cols.label) fig key txt (normalizeLabel x) _ :=
      ⟨x, e, hx, (C06_normal_iff _ _).1 rfl, (labelReports_iff hf e _ _ fl).2 rfl⟩
    have h2 := run _ _ hs
    rw [h] at h2
    simp only [Res.mk.injEq, Except.ok.injEq, true_and] at h2
    obtain ⟨rfl, rfl⟩ := h2
    exact ⟨_, hs, rfl⟩
  · rintro ⟨n, h, rfl⟩
    exact run n evs h

/-! ### Tables of values -/

/-- **C09** (exactness): where the number at the start of a label goes, whatever the label. -/
theorem C09_exact (s t : Str) : rearrangeNumLabel s = t ↔ NumberMoved s t := by
  have hd : ∀ {ds rest : Str}, LongestRun (fun c => isDigit c = true) ds rest → (ds ++ rest).takeWhile isDigit = ds ∧
      (ds ++ rest).dropWhile isDigit = rest := fun h => h.parts (fun _ => Iff.rfl)
  have hln : ∀ {line rest : Str}, LongestRun (fun c => c ≠ '\n') line rest → (line ++ rest).takeWhile (· != '\n') = line :=
    fun h => (h.parts (p := (· != '\n')) (by simp)).1
  have hrun : ∀ {ds line rest : Str}, ds ≠ [] → LongestRun (fun c => isDigit c = true) ds (line ++ rest) →
      LongestRun (fun c => c ≠ '\n') line rest → rearrangeNumLabel (ds ++ line ++ rest) = rearrangeNumLabel (ds ++ line) := by
    intro ds line rest h0 h1 h2
    have h1' : LongestRun (fun c => isDigit c = true) ds line := by
      refine ⟨h1.1, fun c hc => ?_⟩
      cases line with
      | nil => cases hc
      | cons d line => exact h1.2 c hc
    have h2' : LongestRun (fun c => c ≠ '\n') line [] := ⟨h2.1, by simp⟩
    unfold rearrangeNumLabel
    obtain ⟨m1, a1, a2, a3⟩ := numRearrange_some (s := ds ++ line ++ rest) (by rw [List.append_assoc, (hd h1).1]; exact h0)
    obtain ⟨m2, b1, b2, b3⟩ := numRearrange_some (s := ds ++ line) (by rw [(hd h1').1]; exact h0)
    rw [a1, b1]
    rw [List.append_assoc, (hd h1).1] at a2
    rw [List.append_assoc, (hd h1).2, hln h2] at a3
    rw [(hd h1').1] at b2
    have := hln h2'
    rw [List.append_nil] at this
    rw [(hd h1').2, this] at b3
    simp only [a2, a3, b2, b3]
  have hu : ∀ c : Char, (c == '_') = true ↔ c = '_' := by simp
  have eq : ∀ t, NumberMoved s t → rearrangeNumLabel s = t := by
    intro t h
    cases h with
    | none h =>
      have : s.takeWhile isDigit = [] := by
        cases s with
        | nil => rfl
        | cons c s => rw [List.takeWhile_cons_of_neg]; rw [h c rfl]; simp
      unfold rearrangeNumLabel
      rw [numRearrange_none this]
    | only ds line rest h1 h2 h3 h4 h5 =>
      rw [h1, hrun h2 h3 h4, C09_rearrange_num_label t line h3.1 ?_ (fun h => h4.1 _ h rfl), if_neg h2, if_pos h5]
      intro c hc
      cases line with
      | nil => cases hc
      | cons d line => exact Bool.eq_false_iff.2 (h3.2 c hc)
    | moved ds line rest core h1 h2 h3 h4 h5 h6 =>
      have hs : stripBy (· == '_') line = core := h5.eq hu
      rw [h1, hrun h2 h3 h4, C09_rearrange_num_label ds line h3.1 ?_ (fun h => h4.1 _ h rfl), if_neg h2, if_neg, hs]
      · intro hall
        apply h6
        rw [← hs]
        exact stripBy_all.2 (fun c hc => (hu c).2 (hall c hc))
      · intro c hc
        cases line with
        | nil => cases hc
        | cons d line => exact Bool.eq_false_iff.2 (h3.2 c hc)
  refine ⟨?_, eq t⟩
  rintro rfl
  obtain ⟨t, h⟩ : ∃ t, NumberMoved s t := by
    obtain ⟨ds, r1, e1, h1⟩ := LongestRun.exists (P := fun c => isDigit c = true) (p := isDigit) (fun _ => Iff.rfl) s
    by_cases hds : ds = []
    · refine ⟨s, .none (fun c hc => Bool.eq_false_iff.2 (h1.2 c ?_))⟩
      rw [e1, hds] at hc
      exact hc
    · obtain ⟨line, rest, e2, h2⟩ := LongestRun.exists (P := fun c => c ≠ '\n') (p := (· != '\n')) (by simp) r1
      rw [e2] at e1 h1
      rw [← List.append_assoc] at e1
      by_cases hall : ∀ c ∈ line, c = '_'
      · exact ⟨_, .only ds line rest e1 hds h1 h2 hall⟩
      · refine ⟨_, .moved ds line rest _ e1 hds h1 h2 (Bared.strip hu line) ?_⟩
        intro h
        exact hall (fun c hc => (hu c).1 (stripBy_all.1 h c hc))
  rw [eq t h]
  exact h

theorem upper_reserved : upper RESERVED = RESERVED := by
  have : AsciiAlnum RESERVED := by unfold AsciiAlnum; decide
  rw [upper_asciiAlnum this]
  decide

theorem clsValueLabel_iff (c : Char) : clsValueLabel c = true ↔ isWord c = true ∨ isSpace c = true ∨ c = '/' ∨ c = '-' := by
  unfold clsValueLabel
  simp only [Bool.or_eq_true, beq_iff_eq, or_assoc]

theorem valueText_run (fig key txt : Str) (hf : fig ≠ []) (data : Node) (hd : extractContent data = some txt) (hr : upper txt ≠ RESERVED)
    (x : Str) (e : Option LintErr) (h : ValueText txt x e) (fl : Bool) :
    labelTextSame fig key data fl = ⟨e.toList.map fun k => .lint (issue k fig (some key)), fl, .ok (some x)⟩ := by
  unfold labelTextSame
  rw [hd]
  simp only
  rw [if_neg hr]
  obtain ⟨m, hm, hg⟩ := valueLabel_match txt
  rw [hm]
  simp only [hg, Option.getD_some]
  cases h with
  | name x rest h1 h2 h3 =>
    have := (h2.parts clsValueLabel_iff).1
    rw [h1, this, if_pos h3]; rfl
  | bare h =>
    have : txt.takeWhile clsValueLabel = [] := by
      have := (LongestRun.parts (r := []) (rest := txt) clsValueLabel_iff ⟨by simp, h⟩).1
      simpa using this
    rw [this, if_neg (by simp), addIssue_row hf]; rfl

theorem ValueText.exists (txt : Str) : ∃ x e, ValueText txt x e := by
  obtain ⟨name, rest, e1, h1⟩ := LongestRun.exists clsValueLabel_iff txt
  by_cases h : name = []
  · refine ⟨_, _, .bare ?_⟩
    rw [e1, h]
    exact h1.2
  · exact ⟨_, _, .name name rest e1 h1 h⟩

omit [Uni] in
theorem replace1_map (s : Str) : replace1 ' ' ['_'] s = s.map fun c => if c = ' ' then '_' else c := by
  unfold replace1
  induction s with
  | nil => rfl
  | cons c s ih =>
    rw [List.flatMap_cons, ih, List.map_cons]
    by_cases h : c = ' ' <;> simp [h]

theorem valueColumn_run (fig key : Str) (hf : fig ≠ []) (cols : Cols) (row p : Node)
    (hp : (row.nthChild tTd (cols.label + 1)).bind (·.nthChild tP 1) = some p) (hr : lower p.toText ≠ c!"reserved")
    (x : Str) (e : Option LintErr) (h : ValueColumnText p.toText x e) (fl : Bool) :
    labelTextDedicated fig cols row key fl = ⟨e.toList.map fun k => .lint (issue k fig (some key)), fl,
      .ok (if x = RESERVED then none else some x)⟩ := by
  have h1 : extractLabelDedicated fig cols row key fl = ⟨e.toList.map fun k => .lint (issue k fig (some key)), fl, .ok x⟩ := by
    unfold extractLabelDedicated
    rw [hp, req, M.bind_ok (by rfl)]
    simp only
    rw [if_neg hr]
    have hc : ∀ (c : Char) (s : Str), hasChar c s = true ↔ c ∈ s := by intro c s; unfold hasChar; rw [List.contains_iff_mem]
    cases h with
    | colon name rest h1 h2 =>
      have e1 : hasChar ':' (lower p.toText) = true := (hc _ _).2 (by rw [h1]; simp)
      rw [e1, h1, splitHead_colon h2, replace1_map]; rfl
    | whole h1 =>
      have e1 : hasChar ':' (lower p.toText) = false := by rw [Bool.eq_false_iff, ne_eq, hc]; exact h1
      rw [e1, splitHead_none h1, replace1_map]
      simp only [Bool.not_false, if_true]
      rw [addIssue_row hf]; rfl
  have hux : upper x = x := by
    cases h <;> exact upper_upper _
  unfold labelTextDedicated
  rw [M.bind_ok (by rw [h1]), h1, hux]
  simp [M.pure_run]

theorem ValueColumnText.exists (txt : Str) : ∃ x e, ValueColumnText txt x e := by
  by_cases h : ':' ∈ lower txt
  · obtain ⟨name, rest, h1, h2⟩ := colon_split h
    exact ⟨_, _, .colon name rest h1 h2⟩
  · exact ⟨_, _, .whole h⟩

/-- the text of a row from which its label is read: the first paragraph of the cell of the labels; in the column of the descriptions, of the cell
of the description -/
def LabelParagraph (cols : Cols) (row data p : Node) : Prop :=
  (cols.content ≠ cols.label ∧ ∃ lc, row.nthChild tTd (cols.label + 1) = some lc ∧ lc.nthChild tP 1 = some p) ∨
  (cols.content = cols.label ∧ data.nthChild tP 1 = some p)

theorem valueLabel_run (fig key : Str) (hf : fig ≠ []) (cols : Cols) (row data p : Node) (hp : LabelParagraph cols row data p) (fl : Bool)
    (n : Str) (evs : List Ev) (h : ValueLabelIs (cols.content ≠ cols.label) fig key p.toText n evs) :
    extractLabelValue fig cols row key data fl = ⟨evs, fl, .ok n⟩ := by
  have hsame : ¬ cols.content ≠ cols.label → extractContent data = some p.toText := by
    intro ho
    rcases hp with ⟨h, -⟩ | ⟨-, h⟩
    · exact absurd h ho
    · rw [extractContent, h]; rfl
  have hown : cols.content ≠ cols.label → (row.nthChild tTd (cols.label + 1)).bind (·.nthChild tP 1) = some p := by
    intro ho
    rcases hp with ⟨-, lc, h1, h2⟩ | ⟨h, -⟩
    · rw [h1, Option.bind_some, h2]
    · exact absurd h ho
  have fin : ∀ (o : Option Str) (pre : List Ev), labelText fig cols row key data fl = ⟨pre, fl, .ok o⟩ →
      extractLabelValue fig cols row key data fl = ⟨pre ++ (match o with
        | none => [] | some x => (validateLabel (normalizeLabel (rearrangeNumLabel x)) fig key fl).evs), fl, .ok (match o with
        | none => RESERVED | some x => normalizeLabel (rearrangeNumLabel x))⟩ := by
    intro o pre h
    unfold extractLabelValue
    rw [M.bind_ok (by rw [h]), h]
    cases o with
    | none => simp [M.pure_run]
    | some x =>
      simp only
      rw [M.bind_ok (validateLabel_out hf _)]
      simp only [M.pure_run, List.append_nil, validateLabel_flag hf]
  cases h with
  | reserved ho hr =>
    have := fin none [] (by
      unfold labelText labelTextSame
      rw [if_neg ho, hsame ho]
      simp only
      rw [if_pos hr]; rfl)
    simpa using this
  | reservedOwn ho hr =>
    have := fin none [] (by
      unfold labelText labelTextDedicated extractLabelDedicated
      rw [if_pos ho, hown ho, req, M.bind_ok (a := RESERVED)]
      · rw [M.bind_ok (by rfl)]
        simp only
        rw [if_pos hr]
        simp only [M.pure_run]
        rw [if_pos upper_reserved]
        rfl
      · rw [M.bind_ok (by rfl)]
        simp only
        rw [if_pos hr]
        rfl)
    simpa using this
  | reservedName x e ho hr hx hxr =>
    have h1 := valueColumn_run fig key hf cols row p (hown ho) hr x e hx fl
    rw [if_pos hxr] at h1
    have := fin none _ (by unfold labelText; rw [if_pos ho]; exact h1)
    simpa using this
  | label x y n e evs hx hy hn hr =>
    have := fin (some x) (e.toList.map fun k => .lint (issue k fig (some key))) (by
      unfold labelText
      rcases hx with ⟨ho, hr, hx⟩ | ⟨ho, hr, hx, hxr⟩
      · rw [if_neg ho]; exact valueText_run fig key p.toText hf data (hsame ho) hr x e hx fl
      · rw [if_pos ho]
        have h1 := valueColumn_run fig key hf cols row p (hown ho) hr x e hx fl
        rw [if_neg hxr] at h1
        exact h1)
    rw [this]
    simp only
    rw [(C09_exact x y).2 hy, (C06_normal_iff y _).2 hn, (labelReports_iff hf e _ _ fl).1 hr]

theorem ValueLabelIs.exists (own : Prop) (fig key : Str) (hf : fig ≠ []) (txt : Str) : ∃ n evs, ValueLabelIs own fig key txt n evs := by
  by_cases ho : own
  · by_cases hr : lower txt = c!"reserved"
    · exact ⟨_, _, .reservedOwn ho hr⟩
    · obtain ⟨x, e, hx⟩ := ValueColumnText.exists txt
      by_cases hxr : x = RESERVED
      · exact ⟨_, _, .reservedName x e ho hr hx hxr⟩
      · exact ⟨_, _, .label x _ _ e _ (.inr ⟨ho, hr, hx, hxr⟩) ((C09_exact _ _).1 rfl) ((C06_normal_iff _ _).1 rfl)
          ((labelReports_iff hf e _ _ false).2 rfl)⟩
  · by_cases hr : upper txt = RESERVED
    · exact ⟨_, _, .reserved ho hr⟩
    · obtain ⟨x, e, hx⟩ := ValueText.exists txt
      exact ⟨_, _, .label x _ _ e _ (.inl ⟨ho, hr, hx⟩) ((C09_exact _ _).1 rfl) ((C06_normal_iff _ _).1 rfl)
          ((labelReports_iff hf e _ _ false).2 rfl)⟩

/-- **C08** (exactness), tables of values: just which label a row has, whatever the text of its cell, and just which reports there are on
it. -/
theorem C08_value_label_exact (fig key : Str) (hf : fig ≠ []) (cols : Cols) (row data p : Node) (hp : LabelParagraph cols row data p) (fl : Bool)
    (n : Str) (evs : List Ev) :
    extractLabelValue fig cols row key data fl = ⟨evs, fl, .ok n⟩ ↔ ValueLabelIs (cols.content ≠ cols.label) fig key p.toText n evs := by
  refine ⟨?_, valueLabel_run fig key hf cols row data p hp fl n evs⟩
  intro h
  obtain ⟨n', evs', hs⟩ := ValueLabelIs.exists (cols.content ≠ cols.label) fig key hf p.toText
  have := valueLabel_run fig key hf cols row data p hp fl n' evs' hs
  rw [h] at this
  simp only [Res.mk.injEq, Except.ok.injEq, true_and] at this
  obtain ⟨rfl, rfl⟩ := this
  exact hs

/-- a label is only found in a paragraph -/
theorem valueLabel_paragraph {fig key : Str} {cols : Cols} {row data : Node} {fl : Bool} {n : Str}
    (h : (extractLabelValue fig cols row key data fl).out = .ok n) : ∃ p, LabelParagraph cols row data p := by
  unfold extractLabelValue at h
  obtain ⟨o, h1, -, -⟩ := M.bind_out_ok h
  unfold labelText at h1
  by_cases ho : cols.content ≠ cols.label
  · rw [if_pos ho] at h1
    unfold labelTextDedicated at h1
    obtain ⟨o, h1, -, -⟩ := M.bind_out_ok h1
    unfold extractLabelDedicated at h1
    obtain ⟨o, h1, -, -⟩ := M.bind_out_ok h1
    cases h2 : row.nthChild tTd (cols.label + 1) with
    | none => rw [h2] at h1; cases h1
    | some lc =>
      rw [h2, Option.bind_some] at h1
      cases h3 : lc.nthChild tP 1 with
      | none => rw [h3] at h1; cases h1
      | some p => exact ⟨p, .inl ⟨ho, lc, h2, h3⟩⟩
  · rw [if_neg ho] at h1
    unfold labelTextSame at h1
    cases h2 : data.nthChild tP 1 with
    | none =>
      rw [show extractContent data = none by rw [extractContent, h2]; rfl] at h1
      simp only at h1
      obtain ⟨o, -, h1, -⟩ := M.bind_out_ok h1
      cases h1
    | some p => exact ⟨p, .inr ⟨by simpa using ho, h2⟩⟩

/-! ### Examples -/

theorem nameAcronym_of {txt name acr : Str} (h1 : (structParts txt).label = name) (h2 : (structParts txt).acronym = acr) :
    NameAcronym txt name acr := by
  have := NameAcronym.exists txt
  rwa [h1, h2] at this

example : letI := Uni.ascii
    NamedText c!"Power State (PS): x" c!"PS" none ∧ NamedText c!"Read-Only Memory: x" (lower c!"RM") none ∧
    NamedText c!"Reserved" c!"Reserved" none ∧ NamedText c!"(!): x" c!"(!): x" (some .lblExtractErr) := by
  let _ := Uni.ascii
  refine ⟨.acronym c!"Power State " c!"PS" (nameAcronym_of (by decide) (by decide)) (by decide),
    .initials c!"Read-Only Memory" c!"RM" (nameAcronym_of (by decide) (by decide)) (by decide) (by decide)
      ⟨[([], c!"Read-Only"), (c!" ", c!"Memory")], [], ?_, by simp, by decide, by decide⟩,
    .mark c!"Reserved" (nameAcronym_of (by decide) (by decide)) (by decide) (by decide),
    .bare (nameAcronym_of (by decide) (by decide))⟩
  simp only [Spelling]
  decide

/-- the whole label step, in both kinds of columns -/
example : letI := Uni.ascii
    (∃ evs, parseLabel c!"1" ⟨0, 1, 1⟩ c!"Power State (PS): x" c!"0" false = ⟨evs, false, .ok c!"ps"⟩ ∧ evs.length = 0) ∧
    (∃ evs, parseLabel c!"1" ⟨0, 1, 2⟩ c!"Write Protect: x" c!"0" false = ⟨evs, false, .ok c!"write_protect"⟩ ∧ evs.length = 1) := by
  let _ := Uni.ascii
  refine ⟨⟨_, (C08_label_exact _ ⟨0, 1, 1⟩ _ _ (by decide) _ _ _).2 ⟨c!"PS", ⟨c!"PS", none, .inl ⟨by decide,
      .acronym c!"Power State " c!"PS" (nameAcronym_of (by decide) (by decide)) (by decide)⟩, (C06_normal_iff _ _).1 (by decide),
      ⟨[], rfl, .inl ⟨.inl ⟨'P', c!"S", rfl, by decide, by decide⟩, rfl⟩⟩⟩, by decide⟩, rfl⟩,
    ⟨_, (C08_label_exact _ ⟨0, 1, 2⟩ _ _ (by decide) _ _ _).2 ⟨c!"WRITE_PROTECT", ⟨c!"Write Protect", some .lblInvalidChrs, .inr ⟨by decide,
      .blank c!"Write Protect" c!" x" (by decide) (by decide) (by decide)⟩, (C06_normal_iff _ _).1 (by decide),
      ⟨[], rfl, .inl ⟨.inl ⟨'W', c!"RITE_PROTECT", rfl, by decide, by decide⟩, rfl⟩⟩⟩, by decide⟩, rfl⟩⟩

/-- labels of values: a number at the start, in both kinds of columns -/
example : letI := Uni.ascii
    ValueLabelIs False c!"7" c!"0h" c!"16-bit / Guard: y." c!"_BIT_GUARD_16" [.lint (issue .lblInvalidChrs c!"7" (some c!"0h")
      [(c!"label", .str c!"_BIT_GUARD_16")])] ∧
    ValueLabelIs True c!"7" c!"0h" c!"Ready state" c!"READY_STATE" [.lint (issue .lblImputed c!"7" (some c!"0h"))] := by
  let _ := Uni.ascii
  refine ⟨.label c!"16-bit / Guard" c!"-bit / Guard_16" _ none _ (.inl ⟨not_false, by decide, .name _ c!": y." (by decide)
      ⟨fun c hc => (clsValueLabel_iff c).1 (by revert c; decide), fun c hc h => ?_⟩ (by decide)⟩)
      ((C09_exact _ _).1 (by decide)) ((C06_normal_iff _ _).1 (by decide)) ⟨_, rfl, .inr ⟨?_, rfl⟩⟩,
    .label c!"READY_STATE" c!"READY_STATE" _ (some .lblImputed) _ (.inr ⟨trivial, by decide, ?_, by decide⟩)
      (.none (by decide)) ((C06_normal_iff _ _).1 (by decide)) ⟨[], rfl, .inl ⟨.inl ⟨'R', c!"EADY_STATE", rfl, by decide, by decide⟩, rfl⟩⟩⟩
  · have := (clsValueLabel_iff c).2 h
    revert c
    decide
  · rintro (⟨c, w, h, ha, -⟩ | ⟨_, ⟨c, w, rfl, ha, -⟩, h⟩ | ⟨w, r, hw, h⟩ | ⟨w, -, h⟩)
    · cases h; revert ha; decide
    · have := (List.cons.inj h).1; subst this; revert ha; decide
    · cases w with
      | nil => cases h
      | cons c w => have := (List.cons.inj h).1; subst this; have := hw '_' (by simp); revert this; decide
    · cases h
  · have : ValueColumnText c!"Ready state" _ _ := .whole (by decide)
    exact this

end Spex
