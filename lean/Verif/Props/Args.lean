import Verif.Lemmas.ArgPaths
import Mathlib.Data.List.Infix
/-
C91: what a command line means.
-/
set_option autoImplicit false
namespace Spex
variable [Uni]

/-! ### Command lines -/

/-- **C91** A command line is accepted iff it is written as the help text says: options in any order before and after the inputs, which
stand in one place, or after `--`. The options mean what their names say, also if the names are cut short or letters are joined. -/
theorem C91_accepted (argv : List Str) (acts : List ArgAct) : argScan argv = (acts, true) ↔ CommandFor argv acts :=
  ⟨accepted_command, command_accepted⟩

/-- **C91** No command line has two meanings. -/
theorem C91_one_meaning (argv : List Str) (as bs : List ArgAct) (h : CommandFor argv as) (h' : CommandFor argv bs) : as = bs := by
  have h1 := command_accepted h
  rw [command_accepted h'] at h1
  cases h1
  rfl

/-! ### Paths -/

omit [Uni] in
/-- **C91** A path is absolute iff it begins with `/`; its names are the parts between the slashes, without empty ones and those which are
only a dot. -/
theorem C91_path (cwd parts : List Str) (hn : parts ≠ []) (hp : ∀ p ∈ parts, '/' ∉ p) :
    pathNames (['/'].intercalate parts) = parts.filter (fun p => p ≠ [] ∧ p ≠ c!".") ∧
    (parts.head? = some [] ∧ parts.length ≠ 1 → pathBase cwd (['/'].intercalate parts) = []) ∧
    (¬ (parts.head? = some [] ∧ parts.length ≠ 1) → pathBase cwd (['/'].intercalate parts) = cwd) := by
  refine ⟨?_, ?_, ?_⟩
  · rw [pathNames, splitOn_unique '/' parts hn hp]
    apply List.filter_congr
    intro p _
    simp
  · cases parts with
    | nil => exact absurd rfl hn
    | cons p ps =>
      rintro ⟨h1, h2⟩
      simp only [List.head?_cons, Option.some.injEq] at h1
      subst h1
      cases ps with
      | nil => simp at h2
      | cons q ps =>
        rw [pathBase, if_pos]
        simp [List.intercalate]
  · cases parts with
    | nil => exact absurd rfl hn
    | cons p ps =>
      intro h
      rw [pathBase, if_neg]
      cases p with
      | nil =>
        cases ps with
        | nil => simp [List.intercalate]
        | cons q ps => simp at h
      | cons c p =>
        have : c ≠ '/' := fun e => hp (c :: p) (by simp) (by simp [e])
        cases ps with
        | nil => simpa [List.intercalate] using this
        | cons q ps => simpa [List.intercalate] using this

omit [Uni] in
/-- **C91** The text of the path of a directory leads to this directory. The file with this path has the last name of it, and is in the directory
above it. -/
theorem C91_text (cwd p : List Str) (h : ∀ c ∈ p, c ≠ [] ∧ '/' ∉ c ∧ c ≠ c!"." ∧ c ≠ c!"..") (hp : p ≠ []) :
    pathNames (dirText p) = p ∧ pathBase cwd (dirText p) = [] ∧ placeOf [] p = p ∧
      (filePath p).dir ++ '/' :: (filePath p).name = dirText p ∧ '/' ∉ (filePath p).name := by
  have e : dirText p = ['/'].intercalate ([] :: p) := by
    clear h
    induction p with
    | nil => exact absurd rfl hp
    | cons c p ih =>
      cases p with
      | nil => simp [dirText, List.intercalate]
      | cons d p =>
        have := ih (by simp)
        rw [dirText, List.flatMap_cons, ← dirText, this]
        simp [List.intercalate]
  have hparts := C91_path cwd ([] :: p) (by simp) (by
    intro q hq
    rcases List.mem_cons.1 hq with rfl | hq
    · simp
    · exact (h q hq).2.1)
  rw [e]
  refine ⟨?_, hparts.2.1 ⟨rfl, by simpa using hp⟩, ?_, ?_⟩
  · rw [hparts.1, List.filter_cons_of_neg (by simp), List.filter_eq_self]
    intro c hc
    simp [(h c hc).1, (h c hc).2.2.1]
  · have : ∀ q, placeOf q p = q ++ p := by
      clear e hparts hp
      induction p with
      | nil => intro q; simp [placeOf]
      | cons c p ih =>
        intro q
        rw [placeOf, if_neg (h c (by simp)).2.2.2, ih (fun c hc => h c (List.mem_cons_of_mem _ hc))]
        simp
    exact this []
  · rw [← e]
    obtain ⟨q, c, rfl⟩ := (List.eq_nil_or_concat p).resolve_left hp
    simpa [filePath, dirText] using (h c (by simp)).2.1

omit [Uni] in
/-- **C91** An output directory can be made iff no file is on the way to it. Then it is made, with the directories above it and no others;
and files are as before. -/
theorem C91_output (cwd : List Str) (d : Disk) (s : Str) (hd : DiskOk cwd d) :
    (argOutput cwd d s).1.files = d.files ∧
    (OutputOk cwd d s → (argOutput cwd d s).2 = some (placeOf (pathBase cwd s) (pathNames s)) ∧
      ∀ q, (argOutput cwd d s).1.dirs q = true ↔ d.dirs q = true ∨ OnWay cwd s q) ∧
    (¬ OutputOk cwd d s → (argOutput cwd d s).2 = none ∧
      ∀ q, (d.dirs q = true → (argOutput cwd d s).1.dirs q = true) ∧
        ((argOutput cwd d s).1.dirs q = true → d.dirs q = true ∨ OnWay cwd s q)) := by
  obtain ⟨hm, hp⟩ := argOutput_spec cwd d s hd
  have hiff := output_iff cwd d s hd
  refine ⟨hm.files, ?_, ?_⟩
  · intro hok
    have hs := hiff.2 hok
    obtain ⟨p, hp'⟩ := Option.isSome_iff_exists.1 hs
    refine ⟨by rw [hp', hp p hp'], fun q => ⟨hm.only q, ?_⟩⟩
    rintro (h | ⟨ns, hns, rfl⟩)
    · exact hm.keeps q h
    · exact hm.made hs ns hns
  · intro hno
    refine ⟨?_, fun q => ⟨hm.keeps q, hm.only q⟩⟩
    rw [← Option.not_isSome_iff_eq_none]
    exact fun h => hno (hiff.1 h)

/-! ### Runs -/

/-- the last value of some options -/
def lastValue {α : Type} (f : ArgAct → Option α) (as : List ArgAct) : Option α := (as.filterMap f).getLast?

/-- the directory of `-o` -/
def outputText (cwd : List Str) : ArgAct → Option Str
  | .output s => some (dirText (placeOf (pathBase cwd s) (pathNames s)))
  | _ => none

omit [Uni] in
theorem lastValue_cons {α : Type} (f : ArgAct → Option α) (a : ArgAct) (as : List ArgAct) :
    lastValue f (a :: as) = (lastValue f as).or (f a) := by
  unfold lastValue
  cases h : f a with
  | none => rw [List.filterMap_cons_none h]; simp
  | some x =>
    rw [List.filterMap_cons_some h, List.getLast?_cons]
    cases (as.filterMap f).getLast? <;> rfl

omit [Uni] in
theorem last_output (cwd : List Str) (as : List ArgAct) (x : Option (List Str)) :
    dirText ((lastOf (outputOf cwd) as x).getD cwd) = (lastValue (outputText cwd) as).getD (dirText (x.getD cwd)) := by
  induction as generalizing x with
  | nil => rfl
  | cons a as ih =>
    rw [lastOf_cons, lastValue_cons, ih]
    cases lastValue (outputText cwd) as with
    | some y => rfl
    | none => cases a <;> rfl

theorem last_ignore (as : List ArgAct) (h : ∀ s, .lint s ∈ as → ∃ cs, Codes s cs) (x : Option Str) (ign : List LintErr) (hx : lintArg x = .ok ign) :
    lintArg ((lastValue lintOf? as).or x) = .ok (lastOf ignoreOf as ign) := by
  induction as generalizing x ign with
  | nil => exact hx
  | cons a as ih =>
    rw [lastOf_cons, lastValue_cons, Option.or_assoc]
    refine ih (fun s hs => h s (List.mem_cons_of_mem _ hs)) _ _ ?_
    cases a with
    | lint s =>
      obtain ⟨cs, hcs⟩ := h s (by simp)
      have := (C53_accepted s cs).2 hcs
      simp only [lintOf?, Option.some_or, lintArg, ignoreOf, this, Except.toOption, Option.getD_some]
    | _ => exact hx

theorem spells_inputs {x : List Str} {a : List ArgAct} (h : Spells x a) (ss : List Str) : .inputs ss ∉ a := by
  have hf : ∀ f ∈ flagOptions, f.2.2 ≠ .inputs ss := by
    intro f hf
    simp only [flagOptions, List.mem_cons, List.not_mem_nil, or_false] at hf
    rcases hf with rfl | rfl | rfl | rfl | rfl | rfl <;> simp
  have hv : ∀ f ∈ valueOptions, ∀ v, f.2 v ≠ .inputs ss := by
    intro f hf v
    simp only [valueOptions, List.mem_cons, List.not_mem_nil, or_false] at hf
    rcases hf with rfl | rfl <;> simp
  have hl : ∀ {ls as}, FlagLetters ls as → .inputs ss ∉ as := by
    rintro ls as ⟨fs, h1, -, rfl⟩ hm
    obtain ⟨f, hf', e⟩ := List.mem_map.1 hm
    exact hf f (h1 f hf') e
  cases h with
  | flag h1 _ => simpa using (hf _ h1).symm
  | word h1 _ _ => simpa using (hv _ h1 _).symm
  | equal h1 _ => simpa using (hv _ h1 _).symm
  | letters h1 _ => exact hl h1
  | lettersWord h1 _ => simpa using hl h1
  | lettersEqual h1 => simpa using hl h1
  | lettersGlued h1 _ _ => simpa using hl h1

theorem options_inputs {x : List Str} {a : List ArgAct} (h : OptionsFor x a) (ss : List Str) : .inputs ss ∉ a := by
  induction h with
  | nil => simp
  | cons h1 _ ih => simpa using ⟨spells_inputs h1 ss, ih⟩

/-- the inputs of a command line stand in one place -/
theorem command_inputs {argv : List Str} {acts : List ArgAct} (h : CommandFor argv acts) :
    ∃ a ss b, acts = a ++ .inputs ss :: b ∧ ss ≠ [] ∧ (∀ ts, .inputs ts ∉ a) ∧ ∀ ts, .inputs ts ∉ b := by
  cases h with
  | plain hx hne _ hy => exact ⟨_, _, _, rfl, hne, options_inputs hx, options_inputs hy⟩
  | dashed hx hne _ => exact ⟨_, _, [], rfl, hne, options_inputs hx, by simp⟩

omit [Uni] in
theorem last_inputs (cwd : List Str) (a b : List ArgAct) (ss : List Str) (hb : ∀ ts, .inputs ts ∉ b) (x : List FPath) :
    lastOf (inputsOf cwd) (a ++ .inputs ss :: b) x = ss.map fun s => filePath (placeOf (pathBase cwd s) (pathNames s)) := by
  have h : b.filterMap (inputsOf cwd) = [] := by
    rw [List.filterMap_eq_nil_iff]
    intro c hc
    cases c with
    | inputs ts => exact absurd hc (hb ts)
    | _ => rfl
  have e : (ArgAct.inputs ss :: b).filterMap (inputsOf cwd) = [ss.map fun s => filePath (placeOf (pathBase cwd s) (pathNames s))] := by
    rw [List.filterMap_cons_some (f := inputsOf cwd) (a := .inputs ss) rfl, h]
  rw [lastOf, List.filterMap_append, e]
  simp

/-- **C91** A run with a command line which is accepted, whose output directories can be made, whose codes are known and whose inputs are there:
the output directories are made, with those above them; and then it is the run (`cliMain`) for the inputs in their order, where the last
output directory, the last list of codes and the last word about validation count. -/
theorem C91_run (t : Tools) (cwd : List Str) (d : Disk) (argv : List Str) (acts : List ArgAct) (hd : DiskOk cwd d) (hc : CommandFor argv acts)
    (hh : .help ∉ acts) (hcv : Convertible cwd d acts) :
    ∃ a ss b, acts = a ++ .inputs ss :: b ∧ (∀ ts, .inputs ts ∉ a ++ b) ∧
      ((spexMain t cwd d argv).1.files, (spexMain t cwd d argv).2) =
        cliMain t (dirText cwd) ⟨ss.map fun s => filePath (placeOf (pathBase cwd s) (pathNames s)), lastValue (outputText cwd) acts,
          decide (.skip ∈ acts), (lastValue validateOf? acts).getD false, lastValue lintOf? acts⟩ d.files ∧
      ∀ q, (spexMain t cwd d argv).1.dirs q = true ↔ DirsAfter cwd d acts q := by
  obtain ⟨a, ss, b, e, hne, ha, hb⟩ := command_inputs hc
  refine ⟨a, ss, b, e, fun ts h => (List.mem_append.1 h).elim (ha ts) (hb ts), ?_⟩
  rcases acts_result cwd d ⟨[], none, false, false, false, []⟩ acts hd hh with ⟨-, d', r', h1, h2, h3, h4, h5, h6, h7⟩ | ⟨h, -⟩
  · have hf : d'.files = d.files := by
      have := (acts_frame cwd d ⟨[], none, false, false, false, []⟩ acts hd).2.1
      rw [h1] at this
      exact this
    have hmain : spexMain t cwd d argv = ({ d' with files := (mainLoop t ⟨dirText (r'.output.getD cwd), r'.skip, r'.ignore, r'.validate⟩ d'.files r'.inputs).1 },
        (mainLoop t ⟨dirText (r'.output.getD cwd), r'.skip, r'.ignore, r'.validate⟩ d'.files r'.inputs).2) := by
      rw [spexMain, command_accepted hc]
      simp only
      rw [h1]
      simp only [if_true]
    rw [hmain]
    refine ⟨?_, h2⟩
    have hin : r'.inputs = ss.map fun s => filePath (placeOf (pathBase cwd s) (pathNames s)) := by
      rw [h4, e, last_inputs cwd a b ss hb]
    have hig := last_ignore acts hcv.lints none [] rfl
    rw [Option.or_none] at hig
    rw [cliMain, if_neg (by simpa using hne), if_neg, hig]
    · simp only
      rw [hf, hin, h3, h5, h6, h7, last_output]
      simp only [Bool.false_or, Option.getD_none]
      rfl
    · simp only [List.any_map, List.any_eq_true, Function.comp]
      rintro ⟨s, hs, hn⟩
      have := (hcv.inputs a ss b e s hs).2
      rw [Option.isNone_iff_eq_none] at hn
      exact this hn
  · exact absurd hcv h

/-- **C91** A run with a command line which is accepted, where something of this is not so, or where help is wanted: no file is written.
Directories are made only on the way of an argument of `-o`. If help is not wanted, the run fails. -/
theorem C91_failed (t : Tools) (cwd : List Str) (d : Disk) (argv : List Str) (acts : List ArgAct) (hd : DiskOk cwd d) (hc : CommandFor argv acts)
    (hcv : .help ∈ acts ∨ ¬ Convertible cwd d acts) :
    (spexMain t cwd d argv).1.files = d.files ∧ (.help ∉ acts → (spexMain t cwd d argv).2 = 1) ∧
      (∀ q, d.dirs q = true → (spexMain t cwd d argv).1.dirs q = true) ∧
      ∀ q, (spexMain t cwd d argv).1.dirs q = true → DirsAfter cwd d acts q := by
  obtain ⟨-, hf, hk, ho⟩ := acts_frame cwd d ⟨[], none, false, false, false, []⟩ acts hd
  have herr : ∃ n, (argActs cwd d ⟨[], none, false, false, false, []⟩ acts).2 = .error n ∧ (.help ∉ acts → n = 1) := by
    by_cases hh : .help ∈ acts
    · have : ∀ (as : List ArgAct) d r, .help ∈ as → ∃ n, (argActs cwd d r as).2 = .error n := by
        intro as
        induction as with
        | nil => intro d r h; cases h
        | cons a as ih =>
          intro d r h
          have hrest : a ≠ .help → .help ∈ as := fun hne => (List.mem_cons.1 h).resolve_left fun e => hne e.symm
          cases a with
          | help => exact ⟨0, by rw [argActs]⟩
          | skip => rw [argActs]; exact ih _ _ (hrest (by simp))
          | validate b => rw [argActs]; exact ih _ _ (hrest (by simp))
          | verbose b => rw [argActs]; exact ih _ _ (hrest (by simp))
          | lint s =>
            rw [argActs]
            cases argLintcode s with
            | error e => exact ⟨1, rfl⟩
            | ok cs => exact ih _ _ (hrest (by simp))
          | inputs ss =>
            rw [argActs]
            cases ss.mapM (argInput cwd d) with
            | none => exact ⟨1, rfl⟩
            | some ps => exact ih _ _ (hrest (by simp))
          | output s =>
            rw [argActs]
            cases argOutput cwd d s with
            | mk d1 o =>
              cases o with
              | none => exact ⟨1, rfl⟩
              | some p => exact ih _ _ (hrest (by simp))
      obtain ⟨n, hn⟩ := this acts d ⟨[], none, false, false, false, []⟩ hh
      exact ⟨n, hn, fun h => absurd hh h⟩
    · rcases acts_result cwd d ⟨[], none, false, false, false, []⟩ acts hd hh with ⟨h, -⟩ | ⟨-, h⟩
      · exact absurd h (hcv.resolve_left hh)
      · exact ⟨1, h, fun _ => rfl⟩
  obtain ⟨n, hn, hn1⟩ := herr
  have hmain : spexMain t cwd d argv = ((argActs cwd d ⟨[], none, false, false, false, []⟩ acts).1, n) := by
    rw [spexMain, command_accepted hc]
    simp only
    cases he : argActs cwd d ⟨[], none, false, false, false, []⟩ acts with
    | mk d' res =>
      rw [he] at hn
      simp only at hn
      rw [hn]
  rw [hmain]
  exact ⟨hf, hn1, hk, ho⟩

/-! ### Refused command lines -/

omit [Uni] in
/-- where an action comes from -/
def ActFrom (ws : List Str) : ArgAct → Prop
  | .output s => ∃ w ∈ ws, s <:+ w
  | .lint s => ∃ w ∈ ws, s <:+ w
  | .help => ∃ w ∈ ws, w.head? = some '-' ∧ 'h' ∈ w
  | _ => True

omit [Uni] in
/-- where a token comes from -/
def TokFrom (ws : List Str) : ArgTok → Prop
  | .arg v => v ∈ ws
  | .short o rest => ∃ c, shortOpt c = some o ∧ '-' :: c :: rest ∈ ws
  | .long o v => (o = .help → ∃ w ∈ ws, w.head? = some '-' ∧ 'h' ∈ w) ∧ ∀ x, v = some x → ∃ w ∈ ws, x <:+ w
  | _ => True

theorem argTok_from {s : Str} {t : ArgTok} (h : argTok s = some t) (ws : List Str) (hs : s ∈ ws) : TokFrom ws t := by
  rcases argTok_cases s with ⟨-, h2⟩ | ⟨c, o, rest, rfl, hc, h2⟩ | ⟨p, u, v, hp, hu, hv, h2⟩ | h2 | h2
  · rw [h] at h2; cases h2; exact hs
  · rw [h] at h2; cases h2; exact ⟨c, hc, hs⟩
  · rw [h] at h2; cases h2
    constructor
    · intro ho
      have hname : p.1 = c!"--help" := by
        have : ∀ p ∈ longOpts, p.2 = .help → p.1 = c!"--help" := by decide
        exact this p hp ho
      obtain ⟨c, r, e, -⟩ := abbreviates_dashes ((longOpts_names _).2 ⟨p, hp, rfl⟩) hu
      obtain ⟨r', hr'⟩ := hu.1
      rw [hname, e] at hr'
      simp only [List.cons_append, List.cons.injEq, true_and] at hr'
      refine ⟨s, hs, ?_⟩
      rcases hv with ⟨-, rfl⟩ | ⟨x, -, rfl⟩
      · rw [e, hr'.1]; simp
      · rw [e, hr'.1]; simp
    · intro x hx
      rcases hv with ⟨hv, -⟩ | ⟨y, hv, rfl⟩
      · rw [hx] at hv; cases hv
      · rw [hx] at hv; cases hv
        exact ⟨_, hs, u ++ ['='], by simp⟩
  · rw [h] at h2; cases h2; trivial
  · rw [h] at h2; cases h2

theorem argToks_from {argv : List Str} {ts : List ArgTok} (h : argToks argv = some ts) : ∀ t ∈ ts, TokFrom argv t := by
  have key : ∀ ws, (∀ s ∈ argv, s ∈ ws) → ∀ t ∈ ts, TokFrom ws t := by
    intro ws hws
    induction argv generalizing ts with
    | nil => cases h; simp
    | cons s ss ih =>
      have hs := hws s (by simp)
      have hss := fun x hx => hws x (List.mem_cons_of_mem _ hx)
      rw [argToks] at h
      by_cases hd : s = c!"--"
      · rw [if_pos hd] at h
        cases h
        intro t ht
        rcases List.mem_cons.1 ht with rfl | ht
        · trivial
        · obtain ⟨x, hx, rfl⟩ := List.mem_map.1 ht
          exact hss x hx
      · rw [if_neg hd] at h
        cases ht : argTok s with
        | none => rw [ht] at h; cases h
        | some t =>
          rw [ht, Option.bind_some] at h
          cases hts : argToks ss with
          | none => rw [hts] at h; cases h
          | some us =>
            rw [hts, Option.map_some] at h
            cases h
            intro t' ht'
            rcases List.mem_cons.1 ht' with rfl | ht'
            · exact argTok_from ht ws hs
            · exact ih hts hss t' ht'
  exact key argv fun _ h => h

omit [Uni] in
theorem act_from {ws : List Str} {o : ArgOpt} {v : Str} (h1 : o = .help → ∃ w ∈ ws, w.head? = some '-' ∧ 'h' ∈ w)
    (h2 : o.takes = true → ∃ w ∈ ws, v <:+ w) : ActFrom ws (o.act v) := by
  cases o with
  | help => exact h1 rfl
  | output => exact h2 rfl
  | lint => exact h2 rfl
  | _ => trivial

omit [Uni] in
/-- the actions of a run of letters -/
def RunFrom (ws : List Str) : ShortRun → Prop
  | .refused => True
  | .done acts _ => ∀ a ∈ acts, ActFrom ws a
  | .wants acts o => (∀ a ∈ acts, ActFrom ws a) ∧ o.takes = true

omit [Uni] in
theorem shortRun_from (ws : List Str) (w : Str) (hw : w ∈ ws) (hd : w.head? = some '-') (o : ArgOpt) (c : Char) (rest : Str)
    (ho : shortOpt c = some o) (hs : c :: rest <:+ w) : RunFrom ws (shortRun o rest) := by
  have hhelp : ∀ {c o}, shortOpt c = some o → (∃ rest, c :: rest <:+ w) → o = .help → ∃ w ∈ ws, w.head? = some '-' ∧ 'h' ∈ w := by
    rintro c o ho ⟨rest, hs⟩ rfl
    have : c = 'h' := by
      rcases (shortOpt_cases c .help).1 ho with ⟨-, n, hn⟩ | ⟨-, h⟩
      · have hf : ∀ f ∈ flagOptions, f.2.2 = .help → f.2.1 = some 'h' := by decide
        have := hf _ hn rfl
        simpa using this
      · cases h
    exact ⟨w, hw, hd, hs.subset (by simp [this])⟩
  induction rest generalizing o c with
  | nil =>
    rw [shortRun]
    split
    · next h => exact ⟨by simp, h⟩
    · next h =>
      intro a ha
      simp only [List.mem_singleton] at ha
      subst ha
      exact act_from (hhelp ho ⟨_, hs⟩) (fun h' => absurd h' h)
  | cons d rest ih =>
    have hs' : d :: rest <:+ w := (List.suffix_cons c (d :: rest)).trans hs
    have hs'' : rest <:+ w := (List.suffix_cons d rest).trans hs'
    have one : ∀ v, (o.takes = true → v <:+ w) → ∀ a ∈ [o.act v], ActFrom ws a := by
      intro v hv a ha
      simp only [List.mem_singleton] at ha
      subst ha
      exact act_from (hhelp ho ⟨_, hs⟩) (fun h' => ⟨w, hw, hv h'⟩)
    rw [shortRun]
    split
    · split
      · exact one _ fun _ => hs''
      · trivial
    · split
      · exact one _ fun _ => hs'
      · next hn =>
        split
        · trivial
        · cases hd' : shortOpt d with
          | none => exact one _ fun h => absurd h hn
          | some o' =>
            simp only
            have := ih o' d hd' hs'
            have h0 := one [] fun h => absurd h hn
            cases hr : shortRun o' rest with
            | refused => trivial
            | done acts x =>
              rw [hr] at this
              exact List.forall_mem_cons.2 ⟨h0 _ (by simp), this⟩
            | wants acts o2 =>
              rw [hr] at this
              exact ⟨List.forall_mem_cons.2 ⟨h0 _ (by simp), this.1⟩, this.2⟩

omit [Uni] in
/-- the actions of a state -/
def StFrom (ws : List Str) (st : ArgSt) : Prop :=
  (∀ a ∈ st.acts, ActFrom ws a) ∧ ∀ x, st.wants = some x → (∀ a ∈ x.1, ActFrom ws a) ∧ x.2.takes = true

omit [Uni] in
theorem flush_from {ws : List Str} {st : ArgSt} (h : StFrom ws st) : StFrom ws st.flush := by
  rw [ArgSt.flush]
  split
  · exact h
  · split
    · refine ⟨?_, h.2⟩
      intro a ha
      rcases List.mem_append.1 ha with ha | ha
      · exact h.1 a ha
      · simp only [List.mem_singleton] at ha
        subst ha
        trivial
    · exact h

omit [Uni] in
theorem option_from {ws : List Str} {st : ArgSt} {r : ShortRun} (h : StFrom ws st) (hr : RunFrom ws r) : StFrom ws (st.option r) := by
  cases r with
  | refused => exact h
  | done acts x => exact ⟨fun a ha => (List.mem_append.1 ha).elim (h.1 a) (hr a), h.2⟩
  | wants acts o =>
    refine ⟨h.1, ?_⟩
    intro x hx
    cases hx
    exact hr

omit [Uni] in
theorem step_from {ws : List Str} {st : ArgSt} {t : ArgTok} (h : StFrom ws st) (ht : TokFrom ws t) : StFrom ws (argStep st t) := by
  unfold argStep
  split
  · exact h
  · cases hw : st.wants with
    | some x =>
      obtain ⟨acts, o⟩ := x
      cases t with
      | arg v =>
        obtain ⟨g1, g2⟩ := h.2 _ hw
        refine ⟨?_, by simp⟩
        intro a ha
        rcases List.mem_append.1 ha with ha | ha
        · exact h.1 a ha
        · rcases List.mem_append.1 ha with ha | ha
          · exact g1 a ha
          · simp only [List.mem_singleton] at ha
            subst ha
            refine act_from ?_ fun _ => ⟨v, ht, List.suffix_refl v⟩
            rintro rfl
            cases g2
      | _ => exact ⟨h.1, fun x hx => h.2 x (by rw [hw]; exact hx)⟩
    | none =>
      cases t with
      | arg v => exact ⟨h.1, fun x hx => h.2 x (by rw [hw]; exact hx)⟩
      | dashes => exact ⟨h.1, fun x hx => h.2 x (by rw [hw]; exact hx)⟩
      | unknown => exact ⟨(flush_from h).1, fun x hx => (flush_from h).2 x hx⟩
      | short o rest =>
        obtain ⟨c, hc, hmem⟩ := ht
        exact option_from (flush_from h) (shortRun_from ws _ hmem rfl o c rest hc ⟨['-'], rfl⟩)
      | long o v =>
        refine option_from (flush_from h) ?_
        cases v with
        | none =>
          simp only
          split
          · next hk => exact ⟨by simp, hk⟩
          · next hk =>
            intro a ha
            simp only [List.mem_singleton] at ha
            subst ha
            exact act_from ht.1 fun h => absurd h hk
        | some v =>
          simp only
          split
          · intro a ha
            simp only [List.mem_singleton] at ha
            subst ha
            exact act_from ht.1 fun _ => ht.2 v rfl
          · trivial

theorem scan_from (argv : List Str) : ∀ a ∈ (argScan argv).1, ActFrom argv a := by
  rw [argScan]
  cases hts : argToks argv with
  | none => simp
  | some ts =>
    simp only
    have hall := argToks_from hts
    have key : ∀ (ts : List ArgTok) st, (∀ t ∈ ts, TokFrom argv t) → StFrom argv st → StFrom argv (ts.foldl argStep st) := by
      intro ts
      induction ts with
      | nil => exact fun _ _ h => h
      | cons t ts ih => exact fun st ht h => ih _ (fun t h => ht t (List.mem_cons_of_mem _ h)) (step_from h (ht t (by simp)))
    have := key ts ⟨[], true, false, [], false, none, false⟩ hall ⟨by simp, by simp⟩
    rw [ArgSt.finish]
    split
    · exact this.1
    · split
      · exact this.1
      · exact (flush_from this).1

/-- **C91** (a command line which is refused leaves nothing behind) A run with a command line which is not as described writes no file; it
fails, unless there is a word which asks for help. But the directories for `-o` have been made, see `C91_refused_false`: a new
directory is on the way of a text with which a word of the command line ends. -/
theorem C91_refused_partial (t : Tools) (cwd : List Str) (d : Disk) (argv : List Str) (hd : DiskOk cwd d) (hc : ∀ acts, ¬ CommandFor argv acts) :
    (spexMain t cwd d argv).1.files = d.files ∧
      ((spexMain t cwd d argv).2 = 0 → ∃ w ∈ argv, w.head? = some '-' ∧ 'h' ∈ w) ∧
      (∀ q, d.dirs q = true → (spexMain t cwd d argv).1.dirs q = true) ∧
      ∀ q, (spexMain t cwd d argv).1.dirs q = true → d.dirs q = true ∨ ∃ w ∈ argv, ∃ s, s <:+ w ∧ OnWay cwd s q := by
  have hacc : (argScan argv).2 = false := by
    cases h : (argScan argv).2 with
    | false => rfl
    | true => exact absurd (accepted_command (acts := (argScan argv).1) (by rw [← h])) (hc _)
  obtain ⟨-, hf, hk, ho⟩ := acts_frame cwd d ⟨[], none, false, false, false, []⟩ (argScan argv).1 hd
  have hfrom := scan_from argv
  have hdirs : ∀ q, DirsAfter cwd d (argScan argv).1 q → d.dirs q = true ∨ ∃ w ∈ argv, ∃ s, s <:+ w ∧ OnWay cwd s q := by
    rintro q (h | ⟨s, hs, hq⟩)
    · exact .inl h
    · obtain ⟨w, hw, hsw⟩ := hfrom _ hs
      exact .inr ⟨w, hw, s, hsw, hq⟩
  have hzero : (argActs cwd d ⟨[], none, false, false, false, []⟩ (argScan argv).1).2 = .error 0 → ∃ w ∈ argv, w.head? = some '-' ∧ 'h' ∈ w := by
    intro h0
    by_cases hh : .help ∈ (argScan argv).1
    · exact hfrom _ hh
    · rcases acts_result cwd d ⟨[], none, false, false, false, []⟩ (argScan argv).1 hd hh with ⟨-, d', r', h1, -⟩ | ⟨-, h1⟩
      · rw [h1] at h0; cases h0
      · rw [h1] at h0; cases h0
  rw [spexMain]
  simp only
  cases he : argActs cwd d ⟨[], none, false, false, false, []⟩ (argScan argv).1 with
  | mk d' res =>
    rw [he] at hf hk ho hzero
    cases res with
    | error n =>
      refine ⟨hf, ?_, hk, fun q hq => hdirs q (ho q hq)⟩
      intro hn
      exact hzero (congrArg Except.error hn)
    | ok r =>
      simp only [hacc, Bool.false_eq_true, if_false]
      exact ⟨hf, by simp, hk, fun q hq => hdirs q (ho q hq)⟩

/-- **C91** A command line without inputs is refused, and yet its output directory is made. -/
theorem C91_refused_false (t : Tools) (cwd : List Str) (d : Disk) (hd : DiskOk cwd d) (_hn : d.dirs (cwd ++ [c!"new"]) = false)
    (hf : d.files (filePath (cwd ++ [c!"new"])) = none) :
    (∀ acts, ¬ CommandFor [c!"-o", c!"new"] acts) ∧ (spexMain t cwd d [c!"-o", c!"new"]).2 = 2 ∧
      (spexMain t cwd d [c!"-o", c!"new"]).1.dirs (cwd ++ [c!"new"]) = true := by
  have hs : argScan [c!"-o", c!"new"] = ([.output c!"new"], false) := rfl
  refine ⟨fun acts h => ?_, ?_⟩
  · have := command_accepted h
    rw [hs] at this
    cases this
  · have hok : OutputOk cwd d c!"new" := by
      rintro q ⟨ns, hns, rfl⟩
      rcases split_of_prefix hns with rfl | ⟨c, r, e⟩
      · exact hf
      · have : ns = [] := by
          have hl := congrArg List.length e
          simp only [show (pathNames c!"new").length = 1 from rfl, List.length_append, List.length_cons] at hl
          exact List.length_eq_zero_iff.1 (by omega)
        subst this
        exact hd.both _ hd.cwd
    have hout := (C91_output cwd d c!"new" hd).2.1 hok
    rw [spexMain, hs]
    simp only [argActs]
    cases ho : argOutput cwd d c!"new" with
    | mk d1 o =>
      rw [ho] at hout
      obtain ⟨rfl, hq⟩ := hout
      exact ⟨rfl, (hq _).2 (.inr ⟨_, List.prefix_refl _, rfl⟩)⟩

/-! ### Examples -/

example : letI := Uni.ascii
    argScan [c!"-sv", c!"--out=x y", c!"a.html", c!"-", c!"--val", c!"-oz", c!"--lint", c!"-1"] =
      ([.skip, .verbose true, .output c!"x y", .inputs [c!"a.html", c!"-"], .validate true, .output c!"z", .lint c!"-1"], true) ∧
    argScan [c!"-s", c!"a.html", c!"--", c!"-s", c!"--"] = ([.skip, .inputs [c!"a.html", c!"-s", c!"--"]], true) ∧
    (argScan [c!"a.html", c!"-s", c!"b.html"]).2 = false ∧ (argScan [c!"--v", c!"a.html"]).2 = false ∧ (argScan [c!"-s=1", c!"a.html"]).2 = false ∧
    (argScan [c!"a.html", c!"-o"]).2 = false ∧ (argScan [c!"-so"]).2 = false ∧ (argScan [c!"--quick", c!"a.html"]).2 = false := by
  decide +kernel

/-- a disk with two directories and a file -/
def exampleDisk : Disk := ⟨fun p => p == [] || p == [c!"w"], fun f => if f = ⟨c!"/w", c!"a.html"⟩ then some c!"<html></html>" else none⟩

omit [Uni] in
theorem exampleDisk_ok : DiskOk [c!"w"] exampleDisk := by
  refine ⟨rfl, rfl, ?_⟩
  intro p hp
  simp only [exampleDisk, Bool.or_eq_true, beq_iff_eq] at hp
  rcases hp with rfl | rfl <;> decide

/-- the hypotheses of `C91_run` can be met: `spex -o out/x ./../w/a.html -s` in the directory `/w` -/
example : letI := Uni.ascii
    CommandFor [c!"-o", c!"out/x", c!"./../w/a.html", c!"-s"] [.output c!"out/x", .inputs [c!"./../w/a.html"], .skip] ∧
    Convertible [c!"w"] exampleDisk [.output c!"out/x", .inputs [c!"./../w/a.html"], .skip] ∧
    filePath (placeOf (pathBase [c!"w"] c!"./../w/a.html") (pathNames c!"./../w/a.html")) = ⟨c!"/w", c!"a.html"⟩ ∧
    lastValue (outputText [c!"w"]) [.output c!"out/x", .inputs [c!"./../w/a.html"], .skip] = some c!"/w/out/x" := by
  let _ := Uni.ascii
  refine ⟨(C91_accepted _ _).1 (by decide +kernel), ⟨?_, ?_, ?_⟩, by decide, by decide⟩
  · intro s hs
    simp only [List.mem_cons, ArgAct.output.injEq, reduceCtorEq, List.not_mem_nil, or_false] at hs
    subst hs
    rintro q ⟨ns, hns, rfl⟩
    have : ∀ ns ∈ (pathNames c!"out/x").inits, exampleDisk.files (filePath (placeOf (pathBase [c!"w"] c!"out/x") ns)) = none := by decide
    exact this ns ((List.mem_inits _ _).2 hns)
  · intro s hs; simp at hs
  · intro a ss b e s hs
    have ha : a = [.output c!"out/x"] ∧ ss = [c!"./../w/a.html"] := by
      match a, e with
      | [], e => simp at e
      | [x], e =>
        simp only [List.cons_append, List.nil_append, List.cons.injEq, ArgAct.inputs.injEq] at e
        exact ⟨by rw [e.1], e.2.1.symm⟩
      | [x, y], e => simp at e
      | x :: y :: z :: a, e => simp at e
    obtain ⟨rfl, rfl⟩ := ha
    simp only [List.mem_singleton] at hs
    subst hs
    refine ⟨?_, by decide⟩
    intro ns c r e
    left
    have hm : ns ∈ (pathNames c!"./../w/a.html").inits := (List.mem_inits _ _).2 ⟨c :: r, e.symm⟩
    have hn : ns ≠ pathNames c!"./../w/a.html" := by
      intro h
      have := congrArg List.length e
      rw [← h] at this
      simp at this
    have : ∀ ns ∈ (pathNames c!"./../w/a.html").inits, ns ≠ pathNames c!"./../w/a.html" →
        exampleDisk.dirs (placeOf (pathBase [c!"w"] c!"./../w/a.html") ns) = true := by decide
    exact this ns hm hn

/-- the conclusions of `C91_output`: `out/x` is made with `out`; under a file nothing can be made -/
example : ((argOutput [c!"w"] exampleDisk c!"out/x").2 = some [c!"w", c!"out", c!"x"] ∧
    (argOutput [c!"w"] exampleDisk c!"out/x").1.dirs [c!"w", c!"out"] = true ∧
    (argOutput [c!"w"] exampleDisk c!"a.html/x").2 = none) := by decide

end Spex
