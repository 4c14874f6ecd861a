import Verif.Model.Args
/-
How argparse sees the words of a command line.
-/
set_option autoImplicit false
namespace Spex
variable [Uni]

/-! ### Specification -/

omit [Uni] in
/-- the options without an argument: name, letter, meaning -/
def flagOptions : List (Str × Option Char × ArgAct) :=
  [(c!"--help", some 'h', .help), (c!"--skip-figure-on-error", some 's', .skip), (c!"--validate-json", none, .validate true),
   (c!"--no-validate-json", none, .validate false), (c!"--verbose", some 'v', .verbose true), (c!"--no-verbose", none, .verbose false)]

omit [Uni] in
/-- the options with an argument: name, meaning. The first one has the letter `o`. -/
def valueOptions : List (Str × (Str → ArgAct)) := [(c!"--output", .output), (c!"--lint-ignore", .lint)]

omit [Uni] in
/-- the names of the options -/
def optionNames : List Str := flagOptions.map (·.1) ++ valueOptions.map (·.1)

omit [Uni] in
/-- `t` is the name `n` or the beginning of it, and of no other name -/
def Abbreviates (t n : Str) : Prop := t <+: n ∧ ∀ m ∈ optionNames, t <+: m → m = n

/-- a text of digits, perhaps with a decimal point which is not at the end -/
def NumberText (t : Str) : Prop :=
  (t ≠ [] ∧ ∀ c ∈ t, isDigit c = true) ∨ ∃ a b, t = a ++ '.' :: b ∧ b ≠ [] ∧ (∀ c ∈ a, isDigit c = true) ∧ ∀ c ∈ b, isDigit c = true

/-- A word which is no option: it does not begin with `-`, or it is only this; or it looks like no option which there is, and has a blank
or is a negative number (perhaps with a newline after it). -/
def Positional (s : Str) : Prop :=
  (∀ t, s ≠ '-' :: t) ∨ s = ['-'] ∨
    ((∀ c ∈ ['h', 's', 'o', 'v'], ∀ t, s ≠ '-' :: c :: t) ∧ (∀ t, s = '-' :: '-' :: t → ∀ n ∈ optionNames, ¬ s.takeWhile (· ≠ '=') <+: n) ∧
      (' ' ∈ s ∨ ∃ t, NumberText t ∧ (s = '-' :: t ∨ s = '-' :: (t ++ ['\n']))))

/-! ### Words -/

omit [Uni] in
theorem cutEq_eq (s : Str) : cutEq s = (s.takeWhile (· ≠ '='), (s.dropWhile (· ≠ '=')).tail?) := by
  induction s with
  | nil => rfl
  | cons c s ih =>
    rw [cutEq]
    by_cases h : c = '='
    · subst h; rfl
    · rw [if_neg h, ih, List.takeWhile_cons, List.dropWhile_cons]
      simp [h]

theorem not_digit_nl : isDigit '\n' = false := by
  rw [isDigit, Uni.digit_ascii _ (by decide)]; rfl

theorem not_digit_dot : isDigit '.' = false := by
  rw [isDigit, Uni.digit_ascii _ (by decide)]; rfl

/-- the number without a newline -/
theorem numberText_iff (t : Str) : NumberText t ↔ (match t.dropWhile isDigit with
    | [] => t ≠ []
    | c :: ds => (c == '.' && ds ≠ [] && ds.all isDigit) = true) := by
  have hsplit : t = t.takeWhile isDigit ++ t.dropWhile isDigit := (List.takeWhile_append_dropWhile).symm
  have htake : ∀ c ∈ t.takeWhile isDigit, isDigit c = true := fun c hc => List.all_eq_true.1 List.all_takeWhile c hc
  cases hd : t.dropWhile isDigit with
  | nil =>
    rw [hd, List.append_nil] at hsplit
    constructor
    · rintro (⟨h, -⟩ | ⟨a, b, rfl, -⟩)
      · exact h
      · simp
    · intro h
      exact .inl ⟨h, by rw [hsplit]; exact htake⟩
  | cons c ds =>
    simp only [Bool.and_eq_true, beq_iff_eq, decide_eq_true_eq, List.all_eq_true, ne_eq]
    have hc : isDigit c = false := by
      have := List.head?_dropWhile_not isDigit t
      rw [hd] at this
      simpa using this
    constructor
    · rintro (⟨-, h⟩ | ⟨a, b, rfl, h1, h2, h3⟩)
      · exact absurd (h c (by rw [hsplit, hd]; simp)) (by rw [hc]; decide)
      · have e : (a ++ '.' :: b).dropWhile isDigit = '.' :: b := by
          rw [List.dropWhile_append_of_pos h2, List.dropWhile_cons, not_digit_dot]; rfl
        rw [e] at hd
        cases hd
        exact ⟨⟨rfl, h1⟩, h3⟩
    · rintro ⟨⟨rfl, h1⟩, h2⟩
      exact .inr ⟨t.takeWhile isDigit, ds, by rw [← hd]; exact hsplit, h1, htake, h2⟩

theorem numberText_last {t : Str} (h : NumberText t) : t.getLast? ≠ some '\n' := by
  intro hl
  have hm := List.mem_of_getLast? hl
  rcases h with ⟨-, h⟩ | ⟨a, b, rfl, hb, -, h⟩
  · exact absurd (h _ hm) (by rw [not_digit_nl]; decide)
  · rw [List.getLast?_append, List.getLast?_cons] at hl
    cases hb' : b.getLast? with
    | none => exact hb (List.getLast?_eq_none_iff.1 hb')
    | some x =>
      rw [hb'] at hl
      simp at hl
      subst hl
      exact absurd (h _ (List.mem_of_getLast? hb')) (by rw [not_digit_nl]; decide)

theorem negNumber_iff (s : Str) : negNumber s = true ↔ ∃ t, NumberText t ∧ (s = t ∨ s = t ++ ['\n']) := by
  have key : ∀ t : Str, (match t.dropWhile isDigit with
      | [] => decide (t ≠ [])
      | c :: ds => c == '.' && ds ≠ [] && ds.all isDigit) = true ↔ NumberText t := by
    intro t
    rw [numberText_iff]
    cases t.dropWhile isDigit with
    | nil => simp
    | cons c ds => rfl
  rw [negNumber]
  by_cases h : s.getLast? = some '\n'
  · simp only [h, if_true]
    obtain ⟨u, rfl⟩ := List.getLast?_eq_some_iff.1 h
    rw [List.dropLast_concat]
    refine (key u).trans ⟨fun hu => ⟨u, hu, .inr rfl⟩, ?_⟩
    rintro ⟨t, ht, rfl | he⟩
    · exact absurd h (numberText_last ht)
    · rw [List.append_cancel_right_eq] at he
      exact he ▸ ht
  · simp only [h, if_false]
    refine (key s).trans ⟨fun hu => ⟨s, hu, .inl rfl⟩, ?_⟩
    rintro ⟨t, ht, rfl | rfl⟩
    · exact ht
    · simp at h

/-! ### Long options -/

omit [Uni] in
theorem longOpts_names (n : Str) : n ∈ optionNames ↔ ∃ p ∈ longOpts, p.1 = n := by
  have h1 : ∀ n ∈ optionNames, ∃ p ∈ longOpts, p.1 = n := by decide
  have h2 : ∀ p ∈ longOpts, p.1 ∈ optionNames := by decide
  exact ⟨h1 n, fun ⟨p, hp, e⟩ => e ▸ h2 p hp⟩

omit [Uni] in
theorem longOpts_none (t : Str) : longOpts.filter (fun p => t.isPrefixOf p.1) = [] ↔ ∀ n ∈ optionNames, ¬ t <+: n := by
  rw [List.filter_eq_nil_iff]
  simp only [List.isPrefixOf_iff_prefix, longOpts_names]
  exact ⟨fun h n ⟨p, hp, e⟩ => e ▸ h p hp, fun h p hp => h p.1 ⟨p, hp, rfl⟩⟩

omit [Uni] in
theorem longOpts_one (t : Str) (p : Str × ArgOpt) :
    longOpts.filter (fun p => t.isPrefixOf p.1) = [p] ↔ p ∈ longOpts ∧ Abbreviates t p.1 := by
  constructor
  · intro h
    have hp : p ∈ longOpts.filter (fun p => t.isPrefixOf p.1) := by rw [h]; simp
    rw [List.mem_filter, List.isPrefixOf_iff_prefix] at hp
    refine ⟨hp.1, hp.2, fun m hm ht => ?_⟩
    obtain ⟨q, hq, rfl⟩ := (longOpts_names m).1 hm
    have : q ∈ longOpts.filter (fun p => t.isPrefixOf p.1) := List.mem_filter.2 ⟨hq, List.isPrefixOf_iff_prefix.2 ht⟩
    rw [h, List.mem_singleton] at this
    rw [this]
  · rintro ⟨hp, h1, h2⟩
    have e : longOpts.filter (fun q => t.isPrefixOf q.1) = longOpts.filter (fun q => q.1 = p.1) := by
      apply List.filter_congr
      intro q hq
      rw [Bool.eq_iff_iff, List.isPrefixOf_iff_prefix, decide_eq_true_iff]
      exact ⟨fun h => h2 _ ((longOpts_names _).2 ⟨q, hq, rfl⟩) h, fun h => h ▸ h1⟩
    rw [e]
    revert hp
    clear e h1 h2
    revert p
    decide

/-! ### The kinds of words -/

omit [Uni] in
theorem shortOpt_iff (c : Char) : shortOpt c = none ↔ c ∉ ['h', 's', 'o', 'v'] := by
  unfold shortOpt
  by_cases h1 : c = 'h'
  · simp [h1]
  by_cases h2 : c = 's'
  · simp [h2]
  by_cases h3 : c = 'o'
  · simp [h3]
  by_cases h4 : c = 'v'
  · simp [h4]
  simp [h1, h2, h3, h4]

/-- a word which begins with `-` and is no option which there is -/
theorem other_iff (s : Str) (c : Char) (rest : Str) (hs : s = '-' :: c :: rest) :
    ((' ' ∈ s ∨ ∃ t, NumberText t ∧ (s = '-' :: t ∨ s = '-' :: (t ++ ['\n']))) ∧
      (if negNumber (c :: rest) then ArgTok.arg s else if s.contains ' ' then .arg s else .unknown) = .arg s) ∨
    (if negNumber (c :: rest) then ArgTok.arg s else if s.contains ' ' then .arg s else .unknown) = .unknown := by
  have h : (∃ t, NumberText t ∧ (s = '-' :: t ∨ s = '-' :: (t ++ ['\n']))) ↔ negNumber (c :: rest) = true := by
    rw [negNumber_iff, hs]
    simp only [List.cons.injEq, true_and]
  rw [h]
  by_cases h1 : negNumber (c :: rest) = true
  · exact .inl ⟨.inr h1, if_pos h1⟩
  · rw [if_neg h1]
    by_cases h2 : ' ' ∈ s
    · exact .inl ⟨.inl h2, if_pos (List.contains_iff_mem.2 h2)⟩
    · exact .inr (if_neg (fun h => h2 (List.contains_iff_mem.1 h)))

/-- a word: a plain one, an option of one letter, a long option, or one which is refused or left over -/
theorem argTok_cases (s : Str) :
    (Positional s ∧ argTok s = some (.arg s)) ∨
    (∃ c o rest, s = '-' :: c :: rest ∧ shortOpt c = some o ∧ argTok s = some (.short o rest)) ∨
    (∃ p t v, p ∈ longOpts ∧ Abbreviates t p.1 ∧ ((v = none ∧ s = t) ∨ ∃ x, v = some x ∧ s = t ++ '=' :: x) ∧ argTok s = some (.long p.2 v)) ∨
    argTok s = some .unknown ∨ argTok s = none := by
  match hs : s with
  | [] => exact .inl ⟨.inl (by simp), rfl⟩
  | [c] =>
    by_cases hc : c = '-'
    · subst hc; exact .inl ⟨.inr (.inl rfl), rfl⟩
    · refine .inl ⟨.inl (by intro t h; cases h; exact hc rfl), ?_⟩
      unfold argTok
      split
      · next h => cases h
      · rfl
  | d :: c :: rest =>
    by_cases hd : d = '-'
    · subst hd
      by_cases hc : c = '-'
      · subst hc
        rw [argTok]
        simp only [if_true]
        have hother := other_iff _ '-' rest rfl
        cases hf : longOpts.filter (fun p => (cutEq ('-' :: '-' :: rest)).1.isPrefixOf p.1) with
        | nil =>
          simp only
          rw [longOpts_none, cutEq_eq] at hf
          rcases hother with ⟨h, e⟩ | e
          · refine .inl ⟨.inr (.inr ⟨?_, fun _ _ => hf, h⟩), by rw [e]⟩
            intro c hc t he
            simp only [List.cons.injEq, true_and] at he
            rw [← he.1] at hc
            exact absurd hc (by decide)
          · exact .inr (.inr (.inr (.inl (by rw [e]))))
        | cons p ps =>
          cases ps with
          | nil =>
            simp only
            have hp := (longOpts_one _ _).1 hf
            refine .inr (.inr (.inl ⟨p, (cutEq ('-' :: '-' :: rest)).1, _, hp.1, hp.2, ?_, rfl⟩))
            rw [cutEq_eq]
            generalize '-' :: '-' :: rest = s
            cases hdw : s.dropWhile (· ≠ '=') with
            | nil =>
              left
              refine ⟨rfl, ?_⟩
              have := List.takeWhile_append_dropWhile (p := (· ≠ '=')) (l := s)
              rw [hdw, List.append_nil] at this
              exact this.symm
            | cons x xs =>
              right
              refine ⟨xs, rfl, ?_⟩
              have hx := List.head?_dropWhile_not (· ≠ '=') s
              rw [hdw] at hx
              simp only [List.head?_cons, ne_eq, decide_not, Bool.not_eq_eq_eq_not, Bool.not_false, decide_eq_true_eq] at hx
              have := List.takeWhile_append_dropWhile (p := (· ≠ '=')) (l := s)
              rw [hdw, show x = '=' by simpa using hx] at this
              exact this.symm
          | cons q ps => exact .inr (.inr (.inr (.inr rfl)))
      · rw [argTok]
        simp only [if_neg hc]
        have hother := other_iff _ c rest rfl
        cases ho : shortOpt c with
        | some o => exact .inr (.inl ⟨c, o, rest, rfl, ho, rfl⟩)
        | none =>
          simp only
          rcases hother with ⟨h, e⟩ | e
          · refine .inl ⟨.inr (.inr ⟨?_, ?_, h⟩), by rw [e]⟩
            · intro c' hc' t he
              simp only [List.cons.injEq, true_and] at he
              exact (shortOpt_iff c).1 ho (he.1 ▸ hc')
            · intro t he
              simp only [List.cons.injEq, true_and] at he
              exact absurd he.1 hc
          · exact .inr (.inr (.inr (.inl (by rw [e]))))
    · refine .inl ⟨.inl (by intro t h; cases h; exact hd rfl), ?_⟩
      unfold argTok
      split
      · next h => cases h; exact absurd rfl hd
      · rfl

theorem argTok_positional {s : Str} (h : Positional s) : argTok s = some (.arg s) := by
  rcases h with h | rfl | ⟨h1, h2, h3⟩
  · unfold argTok
    split
    · exact absurd rfl (h _)
    · rfl
  · rfl
  · match s, h1, h2, h3 with
    | [], _, _, h3 => exact rfl
    | [c], _, _, h3 => unfold argTok; split <;> first | (next h => cases h) | rfl
    | d :: c :: rest, h1, h2, h3 =>
      by_cases hd : d = '-'
      · subst hd
        have hother : (if negNumber (c :: rest) then ArgTok.arg ('-' :: c :: rest)
            else if ('-' :: c :: rest).contains ' ' then .arg ('-' :: c :: rest) else .unknown) = .arg ('-' :: c :: rest) := by
          by_cases hn : negNumber (c :: rest) = true
          · rw [if_pos hn]
          · rw [if_neg hn, if_pos]
            rw [negNumber_iff] at hn
            rcases h3 with h3 | ⟨t, ht, e⟩
            · exact List.contains_iff_mem.2 h3
            · exact absurd ⟨t, ht, by simpa using e⟩ hn
        by_cases hc : c = '-'
        · subst hc
          have := h2 rest rfl
          rw [argTok]
          simp only [if_true]
          rw [hother, cutEq_eq, (longOpts_none _).2 this]
        · rw [argTok]
          simp only [if_neg hc]
          have : shortOpt c = none := (shortOpt_iff c).2 fun hm => h1 c hm rest rfl
          rw [this, hother]
      · unfold argTok
        split
        · next h => cases h; exact absurd rfl hd
        · rfl

omit [Uni] in
/-- an abbreviation begins with `--`, and is more than this -/
theorem abbreviates_dashes {t n : Str} (hn : n ∈ optionNames) (h : Abbreviates t n) :
    ∃ c u, t = '-' :: '-' :: c :: u ∧ ∀ x ∈ t, x ≠ '=' := by
  have h1 : ∀ n ∈ optionNames, (∀ c ∈ n, c ≠ '=') ∧ ∃ m ∈ optionNames, m ≠ n := by decide
  have h2 : ∀ n ∈ optionNames, n.take 2 = c!"--" := by decide
  have hsplit : ∀ m ∈ optionNames, ∃ r, m = '-' :: '-' :: r := fun m hm => ⟨m.drop 2, by
    conv => lhs; rw [← List.take_append_drop 2 m, h2 m hm]
    rfl⟩
  have heq : ∀ x ∈ t, x ≠ '=' := fun x hx => (h1 n hn).1 x (h.1.subset hx)
  obtain ⟨m, hm, hne⟩ := (h1 n hn).2
  obtain ⟨r, hr⟩ := hsplit n hn
  obtain ⟨r', hr'⟩ := hsplit m hm
  obtain ⟨u, hu⟩ := h.1
  have hnot : ¬ t <+: m := fun hp => hne (h.2 m hm hp)
  match t, heq, hu, hnot with
  | [], _, _, hnot => exact absurd (List.nil_prefix) hnot
  | [a], _, hu, hnot =>
    rw [hr] at hu
    simp only [List.cons_append, List.cons.injEq] at hu
    exact absurd ⟨'-' :: r', by rw [hr', hu.1]; rfl⟩ hnot
  | [a, b], _, hu, hnot =>
    rw [hr] at hu
    simp only [List.cons_append, List.cons.injEq] at hu
    exact absurd ⟨r', by rw [hr', hu.1, hu.2.1]; rfl⟩ hnot
  | a :: b :: c :: u', heq, hu, _ =>
    rw [hr] at hu
    simp only [List.cons_append, List.cons.injEq] at hu
    exact ⟨c, u', by rw [hu.1, hu.2.1], heq⟩

theorem argTok_long {t : Str} {p : Str × ArgOpt} (hp : p ∈ longOpts) (h : Abbreviates t p.1) :
    (t ≠ c!"--" ∧ argTok t = some (.long p.2 none)) ∧
      ∀ x, t ++ '=' :: x ≠ c!"--" ∧ argTok (t ++ '=' :: x) = some (.long p.2 (some x)) := by
  obtain ⟨c, u, e, hne⟩ := abbreviates_dashes ((longOpts_names _).2 ⟨p, hp, rfl⟩) h
  have hall : ∀ a ∈ t, (fun a => decide (a ≠ '=')) a = true := fun a ha => by simpa using hne a ha
  have h1 : cutEq t = (t, none) := by
    clear e h
    induction t with
    | nil => rfl
    | cons a t ih =>
      rw [cutEq, if_neg (hne a (by simp)), ih (fun x hx => hne x (by simp [hx])) (fun x hx => hall x (by simp [hx]))]
  have h2 : ∀ x, cutEq (t ++ '=' :: x) = (t, some x) := by
    intro x
    clear e h h1
    induction t with
    | nil => rfl
    | cons a t ih =>
      rw [List.cons_append, cutEq, if_neg (hne a (by simp)), ih (fun x hx => hne x (by simp [hx])) (fun x hx => hall x (by simp [hx]))]
  have hf := (longOpts_one t p).2 ⟨hp, h⟩
  refine ⟨⟨?_, ?_⟩, fun x => ⟨?_, ?_⟩⟩
  · rw [e]; simp
  · subst e
    rw [argTok]
    simp only [if_true]
    rw [h1, hf]
  · rw [e]; simp
  · have h2 := h2 x
    subst e
    simp only [List.cons_append] at h2 ⊢
    rw [argTok]
    simp only [if_true]
    rw [h2, hf]

end Spex
