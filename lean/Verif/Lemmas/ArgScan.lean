import Verif.Lemmas.ArgWords
/-
Which command lines argparse accepts.
-/
set_option autoImplicit false
namespace Spex
variable [Uni]

/-! ### Specification -/

omit [Uni] in
/-- letters of options without an argument, and the meanings of these -/
def FlagLetters (ls : Str) (as : List ArgAct) : Prop :=
  ∃ fs : List (Str × Option Char × ArgAct), (∀ f ∈ fs, f ∈ flagOptions) ∧ fs.map (·.2.1) = ls.map some ∧ fs.map (·.2.2) = as

/-- the ways to write an option -/
inductive Spells : List Str → List ArgAct → Prop
  /-- `--verbose`, `--verb` -/
  | flag {f t} : f ∈ flagOptions → Abbreviates t f.1 → Spells [t] [f.2.2]
  /-- `--output DIR` -/
  | word {f t v} : f ∈ valueOptions → Abbreviates t f.1 → Positional v → Spells [t, v] [f.2 v]
  /-- `--output=DIR` -/
  | equal {f t v} : f ∈ valueOptions → Abbreviates t f.1 → Spells [t ++ '=' :: v] [f.2 v]
  /-- `-s`, `-sv` -/
  | letters {ls as} : FlagLetters ls as → ls ≠ [] → Spells ['-' :: ls] as
  /-- `-o DIR`, `-svo DIR` -/
  | lettersWord {ls as v} : FlagLetters ls as → Positional v → Spells ['-' :: (ls ++ ['o']), v] (as ++ [.output v])
  /-- `-o=DIR` -/
  | lettersEqual {ls as v} : FlagLetters ls as → Spells ['-' :: (ls ++ 'o' :: '=' :: v)] (as ++ [.output v])
  /-- `-oDIR` -/
  | lettersGlued {ls as v} : FlagLetters ls as → v ≠ [] → v.head? ≠ some '=' → Spells ['-' :: (ls ++ 'o' :: v)] (as ++ [.output v])

/-- options, one after the other -/
inductive OptionsFor : List Str → List ArgAct → Prop
  | nil : OptionsFor [] []
  | cons {x a y b} : Spells x a → OptionsFor y b → OptionsFor (x ++ y) (a ++ b)

/-- The command lines: options, inputs in one place, options; or options, inputs and `--`, after which every word is an input. -/
inductive CommandFor : List Str → List ArgAct → Prop
  | plain {x a ins y b} : OptionsFor x a → ins ≠ [] → (∀ s ∈ ins, Positional s) → OptionsFor y b →
      CommandFor (x ++ ins ++ y) (a ++ .inputs ins :: b)
  | dashed {x a ins more} : OptionsFor x a → ins ++ more ≠ [] → (∀ s ∈ ins, Positional s) →
      CommandFor (x ++ ins ++ c!"--" :: more) (a ++ [.inputs (ins ++ more)])

/-! ### Letters -/

omit [Uni] in
theorem flagLetters_nil : FlagLetters [] [] := ⟨[], by simp, rfl, rfl⟩

omit [Uni] in
theorem flagLetters_cons {c : Char} {ls : Str} {as : List ArgAct} :
    FlagLetters (c :: ls) as ↔ ∃ a as', (∃ n, (n, some c, a) ∈ flagOptions) ∧ FlagLetters ls as' ∧ as = a :: as' := by
  constructor
  · rintro ⟨fs, h1, h2, h3⟩
    cases fs with
    | nil => cases h2
    | cons f fs =>
      simp only [List.map_cons, List.cons.injEq] at h2 h3
      obtain ⟨n, l, a⟩ := f
      simp only at h2
      have hf := h1 _ (List.mem_cons_self)
      rw [h2.1] at hf
      exact ⟨a, fs.map (·.2.2), ⟨n, hf⟩, ⟨fs, fun f hf => h1 f (List.mem_cons_of_mem _ hf), h2.2, rfl⟩, h3.symm⟩
  · rintro ⟨a, as', ⟨n, hn⟩, ⟨fs, h1, h2, h3⟩, rfl⟩
    refine ⟨(n, some c, a) :: fs, ?_, by simp [h2], by simp [h3]⟩
    intro f hf
    rcases List.mem_cons.1 hf with rfl | hf
    · exact hn
    · exact h1 f hf

omit [Uni] in
theorem flagLetters_empty {as : List ArgAct} : FlagLetters [] as ↔ as = [] := by
  constructor
  · rintro ⟨fs, _, h2, h3⟩
    rw [List.map_nil, List.map_eq_nil_iff] at h2
    subst h2
    exact h3.symm
  · rintro rfl; exact flagLetters_nil

omit [Uni] in
/-- an option of one letter: one without an argument, or `o` -/
theorem shortOpt_cases (c : Char) (o : ArgOpt) :
    shortOpt c = some o ↔ (o.takes = false ∧ ∃ n, (n, some c, o.act []) ∈ flagOptions) ∨ (c = 'o' ∧ o = .output) := by
  unfold shortOpt
  have hf : ∀ n a, (n, some c, a) ∈ flagOptions ↔
      (n = c!"--help" ∧ c = 'h' ∧ a = .help) ∨ (n = c!"--skip-figure-on-error" ∧ c = 's' ∧ a = .skip) ∨
        (n = c!"--verbose" ∧ c = 'v' ∧ a = .verbose true) := by
    intro n a
    simp [flagOptions]
  simp only [hf]
  by_cases h1 : c = 'h'
  · subst h1
    cases o <;> simp [ArgOpt.takes, ArgOpt.act]
  by_cases h2 : c = 's'
  · subst h2
    cases o <;> simp [ArgOpt.takes, ArgOpt.act]
  by_cases h3 : c = 'o'
  · subst h3
    cases o <;> simp [ArgOpt.takes, ArgOpt.act]
  by_cases h4 : c = 'v'
  · subst h4
    cases o <;> simp [ArgOpt.takes, ArgOpt.act]
  simp [h1, h2, h3, h4]

omit [Uni] in
theorem letter_of_flag {c : Char} {a : ArgAct} {n : Str} (h : (n, some c, a) ∈ flagOptions) :
    ∃ o, shortOpt c = some o ∧ o.takes = false ∧ (∀ v, o.act v = a) ∧ c ≠ '=' ∧ c ≠ '-' := by
  have hf : (n = c!"--help" ∧ c = 'h' ∧ a = .help) ∨ (n = c!"--skip-figure-on-error" ∧ c = 's' ∧ a = .skip) ∨
        (n = c!"--verbose" ∧ c = 'v' ∧ a = .verbose true) := by
    simpa [flagOptions] using h
  rcases hf with ⟨-, rfl, rfl⟩ | ⟨-, rfl, rfl⟩ | ⟨-, rfl, rfl⟩
  · exact ⟨.help, rfl, rfl, fun _ => rfl, by decide, by decide⟩
  · exact ⟨.skip, rfl, rfl, fun _ => rfl, by decide, by decide⟩
  · exact ⟨.verbose, rfl, rfl, fun _ => rfl, by decide, by decide⟩

omit [Uni] in
theorem act_flag {o : ArgOpt} (h : o.takes = false) (v : Str) : o.act v = o.act [] := by
  cases o <;> first | rfl | cases h

omit [Uni] in
/-- a word of letters which is complete -/
def LetterWord (s : Str) (acts : List ArgAct) : Prop :=
  (FlagLetters s acts ∧ s ≠ []) ∨ ∃ ls as v, FlagLetters ls as ∧ acts = as ++ [.output v] ∧
    (s = ls ++ 'o' :: '=' :: v ∨ (v ≠ [] ∧ v.head? ≠ some '=' ∧ s = ls ++ 'o' :: v))

theorem letterWord_spells {s : Str} {acts : List ArgAct} (h : LetterWord s acts) : Spells ['-' :: s] acts := by
  rcases h with ⟨h, hn⟩ | ⟨ls, as, v, h, rfl, rfl | ⟨h1, h2, rfl⟩⟩
  · exact .letters h hn
  · exact .lettersEqual h
  · exact .lettersGlued h h1 h2

omit [Uni] in
/-- what the reading of the letters yields -/
def RunOf (s : Str) : ShortRun → Prop
  | .refused => True
  | .done _ true => True
  | .done acts false => LetterWord s acts
  | .wants acts o => o = .output ∧ ∃ ls, FlagLetters ls acts ∧ s = ls ++ ['o']

omit [Uni] in
theorem runOf_cons {c : Char} {a : ArgAct} {n : Str} (h : (n, some c, a) ∈ flagOptions) {s : Str} {r : ShortRun} (hr : RunOf s r) :
    RunOf (c :: s) (r.cons a) := by
  have hl : ∀ {ls as}, FlagLetters ls as → FlagLetters (c :: ls) (a :: as) := fun hls =>
    flagLetters_cons.2 ⟨a, _, ⟨n, h⟩, hls, rfl⟩
  cases r with
  | refused => trivial
  | done acts x =>
    cases x with
    | true => trivial
    | false =>
      rcases hr with ⟨h, hn⟩ | ⟨ls, as, v, h, rfl, h'⟩
      · exact .inl ⟨hl h, by simp⟩
      · refine .inr ⟨c :: ls, a :: as, v, hl h, rfl, ?_⟩
        rcases h' with rfl | ⟨h1, h2, rfl⟩
        · exact .inl rfl
        · exact .inr ⟨h1, h2, rfl⟩
  | wants acts o =>
    obtain ⟨rfl, ls, h1, rfl⟩ := hr
    exact ⟨rfl, c :: ls, hl h1, rfl⟩

omit [Uni] in
theorem runOf_shortRun (c : Char) (o : ArgOpt) (rest : Str) (h : shortOpt c = some o) : RunOf (c :: rest) (shortRun o rest) := by
  induction rest generalizing c o with
  | nil =>
    rcases (shortOpt_cases c o).1 h with ⟨ht, n, hn⟩ | ⟨rfl, rfl⟩
    · rw [shortRun, if_neg (by rw [ht]; simp)]
      exact .inl ⟨flagLetters_cons.2 ⟨_, [], ⟨n, hn⟩, flagLetters_nil, rfl⟩, by simp⟩
    · exact ⟨rfl, [], flagLetters_nil, rfl⟩
  | cons d rest ih =>
    rcases (shortOpt_cases c o).1 h with ⟨ht, n, hn⟩ | ⟨rfl, rfl⟩
    · rw [shortRun]
      simp only [ht]
      by_cases hd : d = '='
      · rw [if_pos hd]; trivial
      rw [if_neg hd]
      by_cases hd2 : d = '-'
      · rw [if_pos hd2]; trivial
      rw [if_neg hd2]
      simp only [Bool.false_eq_true, if_false]
      cases ho : shortOpt d with
      | none => trivial
      | some o' => exact runOf_cons hn (ih d o' ho)
    · rw [shortRun]
      simp only [ArgOpt.takes, if_true]
      by_cases hd : d = '='
      · subst hd
        exact .inr ⟨[], [], rest, flagLetters_nil, rfl, .inl rfl⟩
      · rw [if_neg hd]
        exact .inr ⟨[], [], d :: rest, flagLetters_nil, rfl, .inr ⟨by simp, by simpa using hd, rfl⟩⟩

omit [Uni] in
/-- flags before a word of letters -/
theorem shortRun_flags {ls : Str} {as : List ArgAct} (h : FlagLetters ls as) (tail : Str) (c : Char) (o : ArgOpt) (ho : shortOpt c = some o)
    (hc : c ≠ '=' ∧ c ≠ '-') (r : ShortRun) (hr : shortRun o tail = r) :
    ∃ c' o' rest', ls ++ c :: tail = c' :: rest' ∧ shortOpt c' = some o' ∧ (c' ≠ '=' ∧ c' ≠ '-') ∧ shortRun o' rest' = as.foldr ShortRun.cons r := by
  induction ls generalizing as with
  | nil =>
    rw [flagLetters_empty] at h
    subst h
    exact ⟨c, o, tail, rfl, ho, hc, hr⟩
  | cons d ls ih =>
    obtain ⟨a, as', ⟨n, hn⟩, h', rfl⟩ := flagLetters_cons.1 h
    obtain ⟨c', o', rest', e, h1, h2, h3⟩ := ih h'
    obtain ⟨od, hod, htd, had, hd⟩ := letter_of_flag hn
    refine ⟨d, od, ls ++ c :: tail, rfl, hod, hd, ?_⟩
    rw [e, shortRun]
    simp only [htd, if_neg h2.1, if_neg h2.2, h1, Bool.false_eq_true, if_false, had, h3, List.foldr_cons]

omit [Uni] in
theorem foldr_done (as bs : List ArgAct) (x : Bool) : as.foldr ShortRun.cons (.done bs x) = .done (as ++ bs) x := by
  induction as with
  | nil => rfl
  | cons a as ih => rw [List.foldr_cons, ih]; rfl

omit [Uni] in
theorem foldr_wants (as bs : List ArgAct) (o : ArgOpt) : as.foldr ShortRun.cons (.wants bs o) = .wants (as ++ bs) o := by
  induction as with
  | nil => rfl
  | cons a as ih => rw [List.foldr_cons, ih]; rfl

omit [Uni] in
theorem flagLetters_snoc {ls : Str} {as : List ArgAct} (h : FlagLetters ls as) (hn : ls ≠ []) :
    ∃ ls' as' c n a, ls = ls' ++ [c] ∧ as = as' ++ [a] ∧ FlagLetters ls' as' ∧ (n, some c, a) ∈ flagOptions := by
  induction ls generalizing as with
  | nil => exact absurd rfl hn
  | cons c ls ih =>
    obtain ⟨a, as', ⟨n, hn'⟩, h', rfl⟩ := flagLetters_cons.1 h
    by_cases hl : ls = []
    · subst hl
      rw [flagLetters_empty] at h'
      subst h'
      exact ⟨[], [], c, n, a, rfl, rfl, flagLetters_nil, hn'⟩
    · obtain ⟨ls', as'', c', n', a', rfl, rfl, h1, h2⟩ := ih h' hl
      exact ⟨c :: ls', a :: as'', c', n', a', rfl, rfl, flagLetters_cons.2 ⟨a, as'', ⟨n, hn'⟩, h1, rfl⟩, h2⟩

omit [Uni] in
theorem letterWord_run {s : Str} {acts : List ArgAct} (h : LetterWord s acts) :
    ∃ c o rest, s = c :: rest ∧ shortOpt c = some o ∧ (c ≠ '=' ∧ c ≠ '-') ∧ shortRun o rest = .done acts false := by
  rcases h with ⟨h, hn⟩ | ⟨ls, as, v, h, rfl, rfl | ⟨h1, h2, rfl⟩⟩
  · obtain ⟨ls', as', c, n, a, rfl, rfl, h1, h2⟩ := flagLetters_snoc h hn
    obtain ⟨o, ho, ht, ha, hc⟩ := letter_of_flag h2
    obtain ⟨c', o', rest', e, e1, e2, e3⟩ := shortRun_flags h1 [] c o ho hc (.done [a] false) (by
      rw [shortRun, if_neg (by rw [ht]; simp), ha])
    exact ⟨c', o', rest', e, e1, e2, by rw [e3, foldr_done]⟩
  · obtain ⟨c', o', rest', e, e1, e2, e3⟩ := shortRun_flags h ('=' :: v) 'o' .output rfl (by decide) (.done [.output v] false) rfl
    exact ⟨c', o', rest', e, e1, e2, by rw [e3, foldr_done]⟩
  · obtain ⟨c', o', rest', e, e1, e2, e3⟩ := shortRun_flags h v 'o' .output rfl (by decide) (.done [.output v] false) (by
      cases v with
      | nil => exact absurd rfl h1
      | cons d v =>
        rw [shortRun, if_neg (by simpa using h2)]
        rfl)
    exact ⟨c', o', rest', e, e1, e2, by rw [e3, foldr_done]⟩

omit [Uni] in
theorem letters_wants {ls : Str} {as : List ArgAct} (h : FlagLetters ls as) :
    ∃ c o rest, ls ++ ['o'] = c :: rest ∧ shortOpt c = some o ∧ (c ≠ '=' ∧ c ≠ '-') ∧ shortRun o rest = .wants as .output := by
  obtain ⟨c', o', rest', e, e1, e2, e3⟩ := shortRun_flags h [] 'o' .output rfl (by decide) (.wants [] .output) rfl
  exact ⟨c', o', rest', e, e1, e2, by rw [e3, foldr_wants, List.append_nil]⟩

/-! ### Long options -/

omit [Uni] in
theorem long_flag {p : Str × ArgOpt} (hp : p ∈ longOpts) (h : p.2.takes = false) : ∃ f ∈ flagOptions, f.1 = p.1 ∧ f.2.2 = p.2.act [] := by
  have : ∀ p ∈ longOpts, p.2.takes = false → ∃ f ∈ flagOptions, f.1 = p.1 ∧ f.2.2 = p.2.act [] := by decide
  exact this p hp h

omit [Uni] in
theorem flag_long {f : Str × Option Char × ArgAct} (hf : f ∈ flagOptions) :
    ∃ p ∈ longOpts, p.2.takes = false ∧ f.1 = p.1 ∧ f.2.2 = p.2.act [] := by
  have : ∀ f ∈ flagOptions, ∃ p ∈ longOpts, p.2.takes = false ∧ f.1 = p.1 ∧ f.2.2 = p.2.act [] := by decide
  exact this f hf

omit [Uni] in
theorem long_value {p : Str × ArgOpt} (hp : p ∈ longOpts) (h : p.2.takes = true) : ∃ f ∈ valueOptions, f.1 = p.1 ∧ ∀ v, f.2 v = p.2.act v := by
  have : ∀ p ∈ longOpts, p.2.takes = true → p = (c!"--output", .output) ∨ p = (c!"--lint-ignore", .lint) := by decide
  rcases this p hp h with rfl | rfl
  · exact ⟨(c!"--output", .output), by simp [valueOptions], rfl, fun _ => rfl⟩
  · exact ⟨(c!"--lint-ignore", .lint), by simp [valueOptions], rfl, fun _ => rfl⟩

omit [Uni] in
theorem value_long {f : Str × (Str → ArgAct)} (hf : f ∈ valueOptions) :
    ∃ p ∈ longOpts, p.2.takes = true ∧ f.1 = p.1 ∧ ∀ v, f.2 v = p.2.act v := by
  simp only [valueOptions, List.mem_cons, List.not_mem_nil, or_false] at hf
  rcases hf with rfl | rfl
  · exact ⟨(c!"--output", .output), by decide, rfl, rfl, fun _ => rfl⟩
  · exact ⟨(c!"--lint-ignore", .lint), by decide, rfl, rfl, fun _ => rfl⟩

/-! ### Reading -/

/-- a state of the reading where all is well so far -/
abbrev goodSt (acts : List ArgAct) (p : Bool) (w : List Str) (d : Bool) : ArgSt := ⟨acts, p, false, w, d, none, false⟩

theorem argToks_cons {s : Str} {t : ArgTok} (h : s ≠ c!"--") (ht : argTok s = some t) (ss : List Str) :
    argToks (s :: ss) = (argToks ss).map (t :: ·) := by
  rw [argToks, if_neg h, ht]
  rfl

theorem positional_ne {s : Str} (h : Positional s) : s ≠ c!"--" := by
  rintro rfl
  rcases h with h | h | ⟨-, h, -⟩
  · exact h _ rfl
  · cases h
  · exact h _ rfl c!"--help" (by decide) (by decide)

theorem toks_positional {p : List Str} (h : ∀ s ∈ p, Positional s) (rest : List Str) :
    argToks (p ++ rest) = (argToks rest).map (p.map .arg ++ ·) := by
  induction p with
  | nil => simp
  | cons s p ih =>
    have hs := h s (by simp)
    rw [List.cons_append, argToks_cons (positional_ne hs) (argTok_positional hs), ih (fun x hx => h x (by simp [hx]))]
    rw [Option.map_map]
    rfl

omit [Uni] in
theorem run_words (p : List Str) (acts : List ArgAct) (b : Bool) (w : List Str) (d : Bool) :
    (p.map ArgTok.arg).foldl argStep (goodSt acts b w d) = goodSt acts b (w ++ p) d := by
  induction p generalizing w with
  | nil => simp
  | cons s p ih =>
    rw [List.map_cons, List.foldl_cons, show argStep (goodSt acts b w d) (.arg s) = goodSt acts b (w ++ [s]) d from rfl, ih]
    simp

/-- the words of an option are read, and the inputs before them -/
theorem spells_run {x : List Str} {a : List ArgAct} (h : Spells x a) :
    ∃ ts : List ArgTok, (∀ rest, argToks (x ++ rest) = (argToks rest).map (ts ++ ·)) ∧
      ∀ st acts p, st.refused = false → st.wants = none → st.flush = goodSt acts p [] false →
        ts.foldl argStep st = goodSt (acts ++ a) p [] false := by
  have one : ∀ {s : Str} {t : ArgTok}, s ≠ c!"--" → argTok s = some t → (∀ st acts p, st.refused = false → st.wants = none → st.flush = goodSt acts p [] false →
        argStep st t = goodSt (acts ++ a) p [] false) → ∃ ts : List ArgTok, (∀ rest, argToks ([s] ++ rest) = (argToks rest).map (ts ++ ·)) ∧
      ∀ st acts p, st.refused = false → st.wants = none → st.flush = goodSt acts p [] false →
        ts.foldl argStep st = goodSt (acts ++ a) p [] false :=
    fun {s t} hs ht hst => ⟨[t], fun rest => argToks_cons hs ht rest, hst⟩
  have two : ∀ {s v : Str} {t : ArgTok}, s ≠ c!"--" → argTok s = some t → Positional v →
      (∀ st acts p, st.refused = false → st.wants = none → st.flush = goodSt acts p [] false →
        argStep (argStep st t) (.arg v) = goodSt (acts ++ a) p [] false) → ∃ ts : List ArgTok, (∀ rest, argToks ([s, v] ++ rest) = (argToks rest).map (ts ++ ·)) ∧
      ∀ st acts p, st.refused = false → st.wants = none → st.flush = goodSt acts p [] false →
        ts.foldl argStep st = goodSt (acts ++ a) p [] false :=
    fun {s v t} hs ht hv hst => ⟨[t, .arg v], fun rest => by
      rw [List.cons_append, List.cons_append, List.nil_append, argToks_cons hs ht, argToks_cons (positional_ne hv) (argTok_positional hv), Option.map_map]
      rfl, hst⟩
  have short_ne : ∀ {c : Char} (rest : Str), c ≠ '-' → '-' :: c :: rest ≠ c!"--" := by
    intro c rest hc e
    cases e
    exact hc rfl
  have short_tok : ∀ {c : Char} {o : ArgOpt} (rest : Str), c ≠ '-' → shortOpt c = some o → argTok ('-' :: c :: rest) = some (.short o rest) := by
    intro c o rest hc ho
    rw [argTok]
    simp only [if_neg hc, ho]
  have word : ∀ {s : Str}, LetterWord s a → ∃ ts : List ArgTok, (∀ rest, argToks (['-' :: s] ++ rest) = (argToks rest).map (ts ++ ·)) ∧
      ∀ st acts p, st.refused = false → st.wants = none → st.flush = goodSt acts p [] false →
        ts.foldl argStep st = goodSt (acts ++ a) p [] false := by
    intro s hs
    obtain ⟨c, o, rest, rfl, ho, hc, hr⟩ := letterWord_run hs
    refine one (short_ne rest hc.2) (short_tok rest hc.2 ho) ?_
    intro st acts p h1 h2 h3
    rw [argStep, if_neg (by rw [h1]; simp), h2]
    simp only
    rw [h3, hr]
    rfl
  cases h with
  | @flag f t hf ht =>
    obtain ⟨p, hp, htk, hn, ha⟩ := flag_long hf
    rw [hn] at ht
    have hl := (argTok_long hp ht).1
    refine one hl.1 hl.2 ?_
    intro st acts p' h1 h2 h3
    rw [argStep, if_neg (by rw [h1]; simp), h2]
    simp only [htk, Bool.false_eq_true, if_false]
    rw [h3, ha]
    rfl
  | @word f t v hf ht hv =>
    obtain ⟨p, hp, htk, hn, ha⟩ := value_long hf
    rw [hn] at ht
    have hl := (argTok_long hp ht).1
    refine two hl.1 hl.2 hv ?_
    intro st acts p' h1 h2 h3
    have e : argStep st (.long p.2 none) = ⟨acts, p', false, [], false, some ([], p.2), false⟩ := by
      rw [argStep, if_neg (by rw [h1]; simp), h2]
      simp only [htk, if_true]
      rw [h3]
      rfl
    rw [e, ha]
    rfl
  | @equal f t v hf ht =>
    obtain ⟨p, hp, htk, hn, ha⟩ := value_long hf
    rw [hn] at ht
    have hl := (argTok_long hp ht).2 v
    refine one hl.1 hl.2 ?_
    intro st acts p' h1 h2 h3
    rw [argStep, if_neg (by rw [h1]; simp), h2]
    simp only [htk, if_true]
    rw [h3, ha]
    rfl
  | letters hl hn => exact word (.inl ⟨hl, hn⟩)
  | @lettersWord ls as v hl hv =>
    obtain ⟨c, o, rest, e, ho, hc, hr⟩ := letters_wants hl
    rw [e]
    refine two (short_ne rest hc.2) (short_tok rest hc.2 ho) hv ?_
    intro st acts p' h1 h2 h3
    have e : argStep st (.short o rest) = ⟨acts, p', false, [], false, some (as, .output), false⟩ := by
      rw [argStep, if_neg (by rw [h1]; simp), h2]
      simp only
      rw [h3, hr]
      rfl
    rw [e]
    rfl
  | lettersEqual hl => exact word (.inr ⟨_, _, _, hl, rfl, .inl rfl⟩)
  | lettersGlued hl h1 h2 => exact word (.inr ⟨_, _, _, hl, rfl, .inr ⟨h1, h2, rfl⟩⟩)

theorem options_run {x : List Str} {a : List ArgAct} (h : OptionsFor x a) :
    ∃ ts : List ArgTok, (∀ rest, argToks (x ++ rest) = (argToks rest).map (ts ++ ·)) ∧
      (∀ acts p, ts.foldl argStep (goodSt acts p [] false) = goodSt (acts ++ a) p [] false) ∧
      ∀ st acts p, st.refused = false → st.wants = none → st.flush = goodSt acts p [] false →
        (ts.foldl argStep st).flush = goodSt (acts ++ a) p [] false ∧ (ts.foldl argStep st).refused = false ∧
          (ts.foldl argStep st).wants = none := by
  induction h with
  | nil => exact ⟨[], by simp, by simp, fun st acts p h1 h2 h3 => ⟨by simpa using h3, h1, h2⟩⟩
  | @cons x a y b hx hy ih =>
    obtain ⟨ts, h1, h2⟩ := spells_run hx
    obtain ⟨us, h3, h4, -⟩ := ih
    refine ⟨ts ++ us, ?_, ?_, ?_⟩
    · intro rest
      rw [List.append_assoc, h1, h3, Option.map_map]
      congr 1
      funext l
      simp
    · intro acts p
      rw [List.foldl_append, h2 _ acts p rfl rfl rfl, h4, List.append_assoc]
    · intro st acts p g1 g2 g3
      rw [List.foldl_append, h2 st acts p g1 g2 g3, h4, List.append_assoc]
      exact ⟨rfl, rfl, rfl⟩

/-- a command line which is written as described is accepted -/
theorem command_accepted {argv : List Str} {acts : List ArgAct} (h : CommandFor argv acts) : argScan argv = (acts, true) := by
  cases h with
  | @plain x a ins y b hx hne hins hy =>
    obtain ⟨ts, h1, h2, -⟩ := options_run hx
    obtain ⟨us, h3, -, h4⟩ := options_run hy
    have e : argToks (x ++ ins ++ y) = some (ts ++ (ins.map .arg ++ us)) := by
      have := h3 []
      rw [List.append_nil] at this
      rw [List.append_assoc, h1, toks_positional hins, this]
      simp [argToks]
    have g : ts.foldl argStep (goodSt [] true [] false) = goodSt a true [] false := h2 [] true
    rw [argScan, e]
    simp only [List.foldl_append]
    rw [g, run_words]
    obtain ⟨k1, k2, k3⟩ := h4 (goodSt a true ([] ++ ins) false) (a ++ [.inputs ins]) false rfl rfl (by
      rw [ArgSt.flush, if_neg (by simp [hne]), if_pos (by simp [hne])]
      rfl)
    rw [ArgSt.finish, if_neg (by rw [k2]; simp), k3, k1]
    simp
  | @dashed x a ins more hx hne hins =>
    obtain ⟨ts, h1, h2, -⟩ := options_run hx
    have e : argToks (x ++ ins ++ c!"--" :: more) = some (ts ++ (ins.map .arg ++ .dashes :: more.map .arg)) := by
      rw [List.append_assoc, h1, toks_positional hins, argToks, if_pos rfl]
      rfl
    have g : ts.foldl argStep (goodSt [] true [] false) = goodSt a true [] false := h2 [] true
    rw [argScan, e]
    simp only [List.foldl_append, List.foldl_cons]
    rw [g, run_words]
    have e2 : argStep (goodSt a true ([] ++ ins) false) .dashes = goodSt a true ins true := rfl
    rw [e2, run_words, ArgSt.finish, if_neg (by simp)]
    simp only
    have e3 : (goodSt a true (ins ++ more) true).flush = goodSt (a ++ [.inputs (ins ++ more)]) false [] false := by
      rw [ArgSt.flush, if_neg (by simp), if_pos (by simpa using hne)]
    rw [e3]
    rfl

/-! ### Only these -/

omit [Uni] in
/-- nothing good can come of this any more -/
def Lost (st : ArgSt) : Prop := st.refused = true ∨ st.extra = true ∨ (st.pending = false ∧ (st.words ≠ [] ∨ st.dashes = true))

omit [Uni] in
theorem lost_flush {st : ArgSt} (h : Lost st) : st.flush.refused = true ∨ st.flush.extra = true := by
  rw [ArgSt.flush]
  by_cases h1 : st.words = [] ∧ st.dashes = false
  · rw [if_pos h1]
    rcases h with h | h | ⟨-, h | h⟩
    · exact .inl h
    · exact .inr h
    · exact absurd h1.1 h
    · rw [h1.2] at h; cases h
  · rw [if_neg h1]
    by_cases h2 : st.pending = true ∧ st.words ≠ []
    · rw [if_pos h2]
      rcases h with h | h | ⟨h, -⟩
      · exact .inl h
      · exact .inr h
      · rw [h] at h2; cases h2.1
    · rw [if_neg h2]
      exact .inr rfl

omit [Uni] in
theorem lost_option {st : ArgSt} (r : ShortRun) (h : st.refused = true ∨ st.extra = true) : Lost (st.option r) := by
  cases r with
  | refused => exact .inl rfl
  | done acts x =>
    rcases h with h | h
    · exact .inl h
    · exact .inr (.inl (by simp [ArgSt.option, h]))
  | wants acts o =>
    rcases h with h | h
    · exact .inl h
    · exact .inr (.inl h)

omit [Uni] in
theorem lost_step {st : ArgSt} (t : ArgTok) (h : Lost st) : Lost (argStep st t) := by
  unfold argStep
  by_cases hr : st.refused = true
  · rw [if_pos hr]; exact h
  rw [if_neg hr]
  cases hw : st.wants with
  | some w =>
    obtain ⟨acts, o⟩ := w
    cases t with
    | arg v => exact h.imp_right (·.imp_right id)
    | dashes => exact .inl rfl
    | short o rest => exact .inl rfl
    | long o v => exact .inl rfl
    | unknown => exact .inl rfl
  | none =>
    cases t with
    | arg v =>
      rcases h with h | h | ⟨h, -⟩
      · exact .inl h
      · exact .inr (.inl h)
      · exact .inr (.inr ⟨h, .inl (by simp)⟩)
    | dashes =>
      rcases h with h | h | ⟨h, -⟩
      · exact .inl h
      · exact .inr (.inl h)
      · exact .inr (.inr ⟨h, .inr rfl⟩)
    | short o rest => exact lost_option _ (lost_flush h)
    | long o v => exact lost_option _ (lost_flush h)
    | unknown => exact .inr (.inl rfl)

omit [Uni] in
theorem lost_run {st : ArgSt} (ts : List ArgTok) (h : Lost st) : (ts.foldl argStep st).finish.2 = false := by
  induction ts generalizing st with
  | nil =>
    rw [List.foldl_nil, ArgSt.finish]
    by_cases hr : st.refused = true
    · rw [if_pos hr]
    rw [if_neg hr]
    cases st.wants with
    | some w => rfl
    | none =>
      rcases lost_flush h with h | h
      · have : st.flush.refused = st.refused := by
          rw [ArgSt.flush]; split
          · rfl
          · split <;> rfl
        rw [this] at h
        exact absurd h hr
      · simp [h]
  | cons t ts ih => exact ih (lost_step t h)

omit [Uni] in
/-- the token of an option -/
def ArgTok.isOption : ArgTok → Bool
  | .short _ _ | .long _ _ | .unknown => true
  | _ => false

omit [Uni] in
theorem flush_flush (st : ArgSt) : st.flush.flush = st.flush := by
  have h : st.flush.words = [] ∧ st.flush.dashes = false := by
    rw [ArgSt.flush]
    split
    · next h => exact h
    · split <;> exact ⟨rfl, rfl⟩
  generalize st.flush = s at h
  rw [ArgSt.flush, if_pos h]

omit [Uni] in
theorem option_step {st : ArgSt} {t : ArgTok} (h : t.isOption = true) (h1 : st.refused = false) (h2 : st.wants = none) :
    argStep st t = argStep st.flush t := by
  have e1 : st.flush.refused = st.refused := by
    rw [ArgSt.flush]; split
    · rfl
    · split <;> rfl
  have e2 : st.flush.wants = st.wants := by
    rw [ArgSt.flush]; split
    · rfl
    · split <;> rfl
  unfold argStep
  rw [if_neg (by rw [h1]; simp), if_neg (by rw [e1, h1]; simp), h2, e2, h2]
  cases t with
  | arg v => cases h
  | dashes => cases h
  | short o rest => simp only [flush_flush]
  | long o v => simp only [flush_flush]
  | unknown => simp only [flush_flush]

omit [Uni] in
/-- an option which wants a word has to get one -/
theorem wants_run {acts as : List ArgAct} {p : Bool} {o : ArgOpt} {ts : List ArgTok} {res : List ArgAct}
    (h : (ts.foldl argStep ⟨acts, p, false, [], false, some (as, o), false⟩).finish = (res, true)) :
    ∃ v us, ts = .arg v :: us ∧ (us.foldl argStep (goodSt (acts ++ (as ++ [o.act v])) p [] false)).finish = (res, true) := by
  cases ts with
  | nil => simp [ArgSt.finish] at h
  | cons t ts =>
    rw [List.foldl_cons] at h
    cases t with
    | arg v => exact ⟨v, ts, rfl, h⟩
    | dashes =>
      have := lost_run ts (st := argStep ⟨acts, p, false, [], false, some (as, o), false⟩ .dashes) (.inl rfl)
      rw [h] at this; cases this
    | short o' rest =>
      have := lost_run ts (st := argStep ⟨acts, p, false, [], false, some (as, o), false⟩ (.short o' rest)) (.inl rfl)
      rw [h] at this; cases this
    | long o' v =>
      have := lost_run ts (st := argStep ⟨acts, p, false, [], false, some (as, o), false⟩ (.long o' v)) (.inl rfl)
      rw [h] at this; cases this
    | unknown =>
      have := lost_run ts (st := argStep ⟨acts, p, false, [], false, some (as, o), false⟩ .unknown) (.inl rfl)
      rw [h] at this; cases this

/-- the first word yields a plain token -/
theorem toks_arg {argv : List Str} {v : Str} {us : List ArgTok} (h : argToks argv = some (.arg v :: us)) :
    ∃ rest, argv = v :: rest ∧ Positional v ∧ argToks rest = some us := by
  cases argv with
  | nil => cases h
  | cons s ss =>
    rw [argToks] at h
    by_cases hs : s = c!"--"
    · rw [if_pos hs] at h
      cases h
    rw [if_neg hs] at h
    cases ht : argTok s with
    | none => rw [ht] at h; cases h
    | some t =>
      rw [ht, Option.bind_some] at h
      cases hss : argToks ss with
      | none => rw [hss] at h; cases h
      | some us' =>
        rw [hss, Option.map_some] at h
        cases h
        rcases argTok_cases s with ⟨h1, h2⟩ | ⟨c, o, rest, -, -, h2⟩ | ⟨p, t, w, -, -, -, h2⟩ | h2 | h2
        · rw [ht] at h2
          cases h2
          exact ⟨ss, rfl, h1, hss⟩
        all_goals (rw [ht] at h2; cases h2)

/-- the first option of a command line which is accepted -/
theorem first_option {s : Str} {ss : List Str} {t : ArgTok} {ts : List ArgTok} {acts res : List ArgAct} {p : Bool}
    (ht : argTok s = some t) (hts : argToks ss = some ts) (ho : t.isOption = true)
    (h : ((t :: ts).foldl argStep (goodSt acts p [] false)).finish = (res, true)) :
    ∃ x a rest us, s :: ss = x ++ rest ∧ x ≠ [] ∧ Spells x a ∧ argToks rest = some us ∧
      (us.foldl argStep (goodSt (acts ++ a) p [] false)).finish = (res, true) := by
  rw [List.foldl_cons] at h
  have lost : ∀ st, Lost st → (ts.foldl argStep st).finish ≠ (res, true) := by
    intro st hst e
    have := lost_run ts hst
    rw [e] at this
    cases this
  rcases argTok_cases s with ⟨h1, h2⟩ | ⟨c, o, rest, rfl, hc, h2⟩ | ⟨q, u, v, hq, hu, hv, h2⟩ | h2 | h2
  · rw [ht] at h2; cases h2; cases ho
  · rw [ht] at h2; cases h2
    have hr := runOf_shortRun c o rest hc
    have e : argStep (goodSt acts p [] false) (.short o rest) = (goodSt acts p [] false).option (shortRun o rest) := rfl
    rw [e] at h
    cases hrun : shortRun o rest with
    | refused => rw [hrun] at h; exact absurd h (lost _ (.inl rfl))
    | done as b =>
      rw [hrun] at h hr
      cases b with
      | true => exact absurd h (lost _ (.inr (.inl rfl)))
      | false => exact ⟨['-' :: c :: rest], as, ss, ts, rfl, by simp, letterWord_spells hr, hts, h⟩
    | wants as o' =>
      rw [hrun] at h hr
      obtain ⟨rfl, ls, hls, e⟩ := hr
      obtain ⟨w, us, rfl, h'⟩ := wants_run h
      obtain ⟨rest', rfl, hw, hus⟩ := toks_arg hts
      refine ⟨['-' :: c :: rest, w], as ++ [.output w], rest', us, rfl, by simp, ?_, hus, h'⟩
      rw [e]
      exact .lettersWord hls hw
  · rw [ht] at h2; cases h2
    cases htk : q.2.takes with
    | false =>
      obtain ⟨f, hf, hfn, hfa⟩ := long_flag hq htk
      rw [← hfn] at hu
      rcases hv with ⟨rfl, rfl⟩ | ⟨y, rfl, rfl⟩
      · have e : argStep (goodSt acts p [] false) (.long q.2 none) = goodSt (acts ++ [q.2.act []]) p [] false := by
          simp only [argStep, htk]; rfl
        rw [e, ← hfa] at h
        exact ⟨[s], _, ss, ts, rfl, by simp, .flag hf hu, hts, h⟩
      · have e : argStep (goodSt acts p [] false) (.long q.2 (some y)) = { goodSt acts p [] false with refused := true } := by
          simp only [argStep, htk]; rfl
        rw [e] at h
        exact absurd h (lost _ (.inl rfl))
    | true =>
      obtain ⟨f, hf, hfn, hfa⟩ := long_value hq htk
      rw [← hfn] at hu
      rcases hv with ⟨rfl, rfl⟩ | ⟨y, rfl, rfl⟩
      · have e : argStep (goodSt acts p [] false) (.long q.2 none) = ⟨acts, p, false, [], false, some ([], q.2), false⟩ := by
          simp only [argStep, htk]; rfl
        rw [e] at h
        obtain ⟨w, us, rfl, h'⟩ := wants_run h
        obtain ⟨rest', rfl, hw, hus⟩ := toks_arg hts
        rw [List.nil_append, ← hfa] at h'
        exact ⟨[s, w], _, rest', us, rfl, by simp, .word hf hu hw, hus, h'⟩
      · have e : argStep (goodSt acts p [] false) (.long q.2 (some y)) = goodSt (acts ++ [q.2.act y]) p [] false := by
          simp only [argStep, htk]; rfl
        rw [e, ← hfa] at h
        exact ⟨[u ++ '=' :: y], _, ss, ts, rfl, by simp, .equal hf hu, hts, h⟩
  · rw [ht] at h2; cases h2
    exact absurd h (lost _ (.inr (.inl rfl)))
  · rw [ht] at h2; cases h2

/-- the first word: `--`, a plain one, or an option -/
theorem toks_cases {s : Str} {ss : List Str} {ts : List ArgTok} (h : argToks (s :: ss) = some ts) :
    (s = c!"--" ∧ ts = .dashes :: ss.map .arg) ∨ (Positional s ∧ ∃ us, argToks ss = some us ∧ ts = .arg s :: us) ∨
      ∃ t us, argTok s = some t ∧ t.isOption = true ∧ argToks ss = some us ∧ ts = t :: us := by
  rw [argToks] at h
  by_cases hs : s = c!"--"
  · rw [if_pos hs] at h
    cases h
    exact .inl ⟨hs, rfl⟩
  rw [if_neg hs] at h
  cases ht : argTok s with
  | none => rw [ht] at h; cases h
  | some t =>
    rw [ht, Option.bind_some] at h
    cases hss : argToks ss with
    | none => rw [hss] at h; cases h
    | some us =>
      rw [hss, Option.map_some] at h
      cases h
      rcases argTok_cases s with ⟨h1, h2⟩ | ⟨c, o, rest, -, -, h2⟩ | ⟨p, t, w, -, -, -, h2⟩ | h2 | h2
      · rw [ht] at h2; cases h2
        exact .inr (.inl ⟨h1, us, rfl, rfl⟩)
      · rw [ht] at h2; cases h2
        exact .inr (.inr ⟨_, us, rfl, rfl, rfl, rfl⟩)
      · rw [ht] at h2; cases h2
        exact .inr (.inr ⟨_, us, rfl, rfl, rfl, rfl⟩)
      · rw [ht] at h2; cases h2
        exact .inr (.inr ⟨_, us, rfl, rfl, rfl, rfl⟩)
      · rw [ht] at h2; cases h2

/-- after the inputs there are only options -/
theorem accepted_after (n : Nat) (argv : List Str) (hn : argv.length ≤ n) (ts : List ArgTok) (acts res : List ArgAct)
    (hts : argToks argv = some ts) (h : (ts.foldl argStep (goodSt acts false [] false)).finish = (res, true)) :
    ∃ b, OptionsFor argv b ∧ res = acts ++ b := by
  induction n generalizing argv ts acts with
  | zero =>
    cases argv with
    | nil => cases hts; cases h; exact ⟨[], .nil, by simp [ArgSt.flush]⟩
    | cons s ss => simp at hn
  | succ n ih =>
    cases argv with
    | nil => cases hts; cases h; exact ⟨[], .nil, by simp [ArgSt.flush]⟩
    | cons s ss =>
      rcases toks_cases hts with ⟨-, rfl⟩ | ⟨-, us, -, rfl⟩ | ⟨t, us, h1, h2, h3, rfl⟩
      · have := lost_run (ss.map ArgTok.arg) (st := argStep (goodSt acts false [] false) .dashes) (.inr (.inr ⟨rfl, .inr rfl⟩))
        rw [List.foldl_cons] at h
        rw [h] at this; cases this
      · have := lost_run us (st := argStep (goodSt acts false [] false) (.arg s)) (.inr (.inr ⟨rfl, .inl (by simp [argStep])⟩))
        rw [List.foldl_cons] at h
        rw [h] at this; cases this
      · obtain ⟨x, a, rest, vs, e, hx, hs, hv, h'⟩ := first_option h1 h3 h2 h
        have hl : rest.length ≤ n := by
          have e' := congrArg List.length e
          have : 0 < x.length := List.length_pos_iff.2 hx
          simp only [List.length_cons, List.length_append] at e' hn
          omega
        obtain ⟨b, hb, hr⟩ := ih rest hl vs _ hv h'
        rw [e]
        exact ⟨a ++ b, .cons hs hb, by rw [hr, List.append_assoc]⟩

/-- within the inputs -/
theorem accepted_within (argv : List Str) (ts : List ArgTok) (acts res : List ArgAct) (w : List Str) (hw : w ≠ [])
    (hts : argToks argv = some ts) (h : (ts.foldl argStep (goodSt acts true w false)).finish = (res, true)) :
    (∃ p y b, argv = p ++ y ∧ (∀ s ∈ p, Positional s) ∧ OptionsFor y b ∧ res = acts ++ .inputs (w ++ p) :: b) ∨
      ∃ p more, argv = p ++ c!"--" :: more ∧ (∀ s ∈ p, Positional s) ∧ res = acts ++ [.inputs (w ++ (p ++ more))] := by
  have hflush : (goodSt acts true w false).flush = goodSt (acts ++ [.inputs w]) false [] false := by
    rw [ArgSt.flush, if_neg (by simp [hw]), if_pos (by simp [hw])]
  induction argv generalizing ts w with
  | nil =>
    cases hts
    left
    refine ⟨[], [], [], rfl, by simp, .nil, ?_⟩
    rw [List.foldl_nil, ArgSt.finish, if_neg (by simp)] at h
    simp only at h
    rw [hflush] at h
    cases h
    simp
  | cons s ss ih =>
    rcases toks_cases hts with ⟨rfl, rfl⟩ | ⟨hs, us, hus, rfl⟩ | ⟨t, us, h1, h2, h3, rfl⟩
    · right
      refine ⟨[], ss, rfl, by simp, ?_⟩
      have e2 : argStep (goodSt acts true w false) .dashes = goodSt acts true w true := rfl
      rw [List.foldl_cons, e2, run_words, ArgSt.finish, if_neg (by simp)] at h
      simp only at h
      have e3 : (goodSt acts true (w ++ ss) true).flush = goodSt (acts ++ [.inputs (w ++ ss)]) false [] false := by
        rw [ArgSt.flush, if_neg (by simp), if_pos (by simp [hw])]
      rw [e3] at h
      cases h
      rfl
    · have e : argStep (goodSt acts true w false) (.arg s) = goodSt acts true (w ++ [s]) false := rfl
      rw [List.foldl_cons, e] at h
      have := ih us (w ++ [s]) (by simp) hus h (by rw [ArgSt.flush, if_neg (by simp), if_pos (by simp)])
      rcases this with ⟨p, y, b, rfl, hp, hy, hr⟩ | ⟨p, more, rfl, hp, hr⟩
      · left
        refine ⟨s :: p, y, b, rfl, ?_, hy, by simpa using hr⟩
        intro x hx
        rcases List.mem_cons.1 hx with rfl | hx
        · exact hs
        · exact hp x hx
      · right
        refine ⟨s :: p, more, rfl, ?_, by simpa using hr⟩
        intro x hx
        rcases List.mem_cons.1 hx with rfl | hx
        · exact hs
        · exact hp x hx
    · rw [List.foldl_cons, option_step h2 rfl rfl, hflush, ← List.foldl_cons] at h
      obtain ⟨b, hb, hr⟩ := accepted_after _ _ (Nat.le_refl _) _ _ _ hts h
      left
      exact ⟨[], s :: ss, b, rfl, by simp, hb, by simpa using hr⟩

/-- before the inputs -/
theorem accepted_before (n : Nat) (argv : List Str) (hn : argv.length ≤ n) (ts : List ArgTok) (acts res : List ArgAct)
    (hts : argToks argv = some ts) (h : (ts.foldl argStep (goodSt acts true [] false)).finish = (res, true)) :
    ∃ as, CommandFor argv as ∧ res = acts ++ as := by
  have hnil : ([].foldl argStep (goodSt acts true [] false)).finish ≠ (res, true) := by
    intro e
    have := congrArg (·.2) e
    simp [ArgSt.finish, ArgSt.flush] at this
  induction n generalizing argv ts acts with
  | zero =>
    cases argv with
    | nil => cases hts; exact absurd h hnil
    | cons s ss => simp at hn
  | succ n ih =>
    cases argv with
    | nil => cases hts; exact absurd h hnil
    | cons s ss =>
      rcases toks_cases hts with ⟨rfl, rfl⟩ | ⟨hs, us, hus, rfl⟩ | ⟨t, us, h1, h2, h3, rfl⟩
      · have e2 : argStep (goodSt acts true [] false) .dashes = goodSt acts true [] true := rfl
        rw [List.foldl_cons, e2, run_words, List.nil_append, ArgSt.finish, if_neg (by simp)] at h
        simp only at h
        by_cases hss : ss = []
        · subst hss
          have := congrArg (·.2) h
          simp [ArgSt.flush] at this
        · have e3 : (goodSt acts true ss true).flush = goodSt (acts ++ [.inputs ss]) false [] false := by
            rw [ArgSt.flush, if_neg (by simp), if_pos (by simp [hss])]
          rw [e3] at h
          cases h
          exact ⟨_, .dashed (ins := []) (more := ss) .nil (by simpa using hss) (by simp), rfl⟩
      · have e : argStep (goodSt acts true [] false) (.arg s) = goodSt acts true [s] false := rfl
        rw [List.foldl_cons, e] at h
        rcases accepted_within ss us acts res [s] (by simp) hus h with ⟨p, y, b, rfl, hp, hy, hr⟩ | ⟨p, more, rfl, hp, hr⟩
        · exact ⟨_, .plain (ins := s :: p) .nil (by simp) (by
            intro x hx
            rcases List.mem_cons.1 hx with rfl | hx
            · exact hs
            · exact hp x hx) hy, hr⟩
        · exact ⟨_, .dashed (ins := s :: p) (more := more) .nil (by simp) (by
            intro x hx
            rcases List.mem_cons.1 hx with rfl | hx
            · exact hs
            · exact hp x hx), hr⟩
      · obtain ⟨x, a, rest, vs, e, hx, hsp, hv, h'⟩ := first_option h1 h3 h2 h
        have hl : rest.length ≤ n := by
          have e' := congrArg List.length e
          have : 0 < x.length := List.length_pos_iff.2 hx
          simp only [List.length_cons, List.length_append] at e' hn
          omega
        obtain ⟨as, has, hr⟩ := ih rest hl vs _ hv h' (by
          intro e
          have := congrArg (·.2) e
          simp [ArgSt.finish, ArgSt.flush] at this)
        rw [e, hr, List.append_assoc]
        cases has with
        | @plain x' a' ins y b hx' hne hins hy =>
          refine ⟨(a ++ a') ++ .inputs ins :: b, ?_, by simp⟩
          have := CommandFor.plain (.cons hsp hx') hne hins hy
          simpa using this
        | @dashed x' a' ins more hx' hne hins =>
          refine ⟨(a ++ a') ++ [.inputs (ins ++ more)], ?_, by simp⟩
          have := CommandFor.dashed (.cons hsp hx') hne hins
          simpa using this

theorem accepted_command {argv : List Str} {acts : List ArgAct} (h : argScan argv = (acts, true)) : CommandFor argv acts := by
  rw [argScan] at h
  cases hts : argToks argv with
  | none => rw [hts] at h; cases h
  | some ts =>
    rw [hts] at h
    obtain ⟨as, has, hr⟩ := accepted_before _ argv (Nat.le_refl _) ts [] acts hts h
    rw [List.nil_append] at hr
    exact hr ▸ has

end Spex
