import Verif.Model.Environ
import Verif.Props.Log
import Verif.Props.Numbers
import Verif.Props.Server
/-
C104: what the environment variables do.
-/
set_option autoImplicit false
namespace Spex
variable [Uni]

/-! ### Specification -/

/-- `v` is one of these words, in small or capital letters -/
def AnyCase (words : List Str) (v : Str) : Prop := v.map Char.toLower ∈ words

instance (words : List Str) (v : Str) : Decidable (AnyCase words v) := inferInstanceAs (Decidable (_ ∈ _))

/-- white space -/
def AllBlank (s : Str) : Prop := ∀ c ∈ s, isSpace c = true

/-! ### Proofs -/

omit [Uni] in
theorem isSpace_toLower {c : Char} (h : c.toNat < 128) : isSpace c.toLower = isSpace c := by
  have key : ∀ n : Fin 128, isSpace (Char.ofNat n).toLower = isSpace (Char.ofNat n) := by decide +kernel
  have := key ⟨c.toNat, h⟩
  simpa using this

omit [Uni] in
theorem dropWhile_toLower (s : Str) (h : ∀ c ∈ s, c.toNat < 128) :
    (s.map Char.toLower).dropWhile isSpace = (s.dropWhile isSpace).map Char.toLower := by
  induction s with
  | nil => rfl
  | cons c s ih =>
    rw [List.map_cons, List.dropWhile_cons, List.dropWhile_cons, isSpace_toLower (h c List.mem_cons_self)]
    split
    · exact ih fun x hx => h x (List.mem_cons_of_mem _ hx)
    · rfl

omit [Uni] in
theorem strip_toLower (s : Str) (h : ∀ c ∈ s, c.toNat < 128) : strip (s.map Char.toLower) = (strip s).map Char.toLower := by
  unfold strip stripBy rstripBy lstripBy
  rw [dropWhile_toLower s h, ← List.map_reverse, dropWhile_toLower, List.map_reverse]
  intro c hc
  exact h c ((List.dropWhile_sublist _).subset (List.mem_reverse.1 hc))

/-- **C104** SPEX_DEBUG switches the debugging on exactly if it is one of the words `true`, `yes` and `1`, in small or capital letters, with white
space around it or not (for values of ASCII characters); if it is not set, the debugging is off. -/
theorem C104_debug_values (v : Str) (hv : ∀ c ∈ v, c.toNat < 128) :
    (debugSetting (some v) = true ↔ ∃ a w b, v = a ++ w ++ b ∧ AllBlank a ∧ AllBlank b ∧ AnyCase [c!"true", c!"yes", c!"1"] w) ∧
    debugSetting none = false := by
  refine ⟨?_, ?_⟩
  · unfold debugSetting
    rw [Option.getD_some, Uni.lower_ascii v hv, strip_toLower v hv, decide_eq_true_iff]
    constructor
    · intro h
      obtain ⟨a, b, h1, h2, h3⟩ := stripBy_parts isSpace v
      exact ⟨a, strip v, b, h1, h2, h3, h⟩
    · rintro ⟨a, w, b, rfl, ha, hb, hw⟩
      have hns : ∀ c ∈ w, isSpace c = false := by
        intro c hc
        have hc' : c.toNat < 128 := hv c (by simp [hc])
        rw [← isSpace_toLower hc']
        have : c.toLower ∈ w.map Char.toLower := List.mem_map.2 ⟨c, hc, rfl⟩
        have hall : ∀ u ∈ [c!"true", c!"yes", c!"1"], ∀ x ∈ u, isSpace x = false := by decide
        exact hall _ hw _ this
      rw [show strip (a ++ w ++ b) = w from stripBy_core a w b ha hb hns
        (by rintro rfl; revert hw; decide)]
      exact hw
  · unfold debugSetting
    rw [Option.getD_none, Uni.lower_ascii _ (by decide)]
    decide

theorem logRunIn_eq (v : Option Str) (trace : PyExc → Str) (old : Option Str) (rs : List LogRec) :
    (logRunIn v trace old rs).file = (logRun old rs).file ∧
    (debugSetting v = false → (logRunIn v trace old rs).console = (logRun old rs).console) ∧
    (debugSetting v = true → (logRunIn v trace old rs).console = (rs.filter (·.level ≠ .trace)).flatMap (debugText trace)) := by
  unfold logRunIn logRun
  have key : ∀ (rs : List LogRec) (s t : LogSt), s.file = t.file → (debugSetting v = false → s.console = t.console) →
      (rs.foldl (logCallIn (debugSetting v) trace) s).file = (rs.foldl logCall t).file ∧
      (debugSetting v = false → (rs.foldl (logCallIn (debugSetting v) trace) s).console = (rs.foldl logCall t).console) ∧
      (debugSetting v = true → (rs.foldl (logCallIn (debugSetting v) trace) s).console =
        s.console ++ (rs.filter (·.level ≠ .trace)).flatMap (debugText trace)) := by
    intro rs
    induction rs with
    | nil => intro s t h1 h2; exact ⟨h1, h2, fun _ => by simp⟩
    | cons r rs ih =>
      intro s t h1 h2
      rw [List.foldl_cons, List.foldl_cons]
      obtain ⟨g1, g2, g3⟩ := ih (logCallIn (debugSetting v) trace s r) (logCall t r)
        (by unfold logCallIn logCall; dsimp only; split <;> split <;> split <;> simp_all)
        (by
          intro h
          replace h2 := h2 h
          unfold logCallIn logCall
          simp only [h]
          obtain ⟨sf, sc⟩ := s
          obtain ⟨tf, tc⟩ := t
          simp only at h1 h2
          subst h1 h2
          rfl)
      refine ⟨g1, g2, fun h => ?_⟩
      rw [g3 h]
      have : (logCallIn (debugSetting v) trace s r).console =
          s.console ++ if r.level ≠ .trace then debugText trace r else [] := by
        unfold logCallIn
        simp only [h, if_true]
        have hl : LogLevel.debug.no ≤ r.level.no ↔ r.level ≠ .trace := by cases r.level <;> decide
        by_cases hr : r.level ≠ .trace
        · rw [if_pos (hl.2 hr), if_pos hr, if_pos (hl.2 hr)]
        · rw [if_neg (mt hl.1 hr), if_neg hr, if_neg (mt hl.1 hr)]; simp
      rw [this]
      by_cases hr : r.level ≠ .trace
      · rw [if_pos hr, List.filter_cons_of_pos (by simpa using hr), List.flatMap_cons, List.append_assoc]
      · rw [if_neg hr, List.filter_cons_of_neg (by simpa using hr), List.append_nil]
  obtain ⟨h1, h2, h3⟩ := key rs (logOpen old) (logOpen old) rfl (fun _ => rfl)
  exact ⟨h1, h2, fun h => by rw [h3 h]; rfl⟩

/-- **C104** SPEX_DEBUG does not change the file spex.log. If the debugging is off, the console shows what it shows without the variable. If it is
on, the console shows all records but those of the level TRACE in their order, each with its level, its message and its exception. -/
theorem C104_debug (v : Option Str) (trace : PyExc → Str) (old : Option Str) (rs : List LogRec) :
    (logRunIn v trace old rs).file = (logRunIn none trace old rs).file ∧
    (debugSetting v = false → (logRunIn v trace old rs).console = (logRunIn none trace old rs).console) ∧
    (debugSetting v = true → (logRunIn v trace old rs).console =
      ((rs.filter (·.level ≠ .trace)).map fun r => r.level.name ++ c!" " ++ r.msg ++ c!"\n" ++ (r.exception.map trace).getD []).flatten) := by
  have hn : debugSetting none = false := (C104_debug_values [] (by simp)).2
  obtain ⟨h1, h2, h3⟩ := logRunIn_eq v trace old rs
  obtain ⟨g1, g2, -⟩ := logRunIn_eq none trace old rs
  refine ⟨h1.trans g1.symm, fun h => (h2 h).trans (g2 hn).symm, fun h => ?_⟩
  rw [h3 h, List.flatMap_def]
  congr 1
  apply List.map_congr_left
  intro r _
  simp [debugText]

/-- **C104** Without the debugging the log and the console are those of C90. -/
theorem C104_quiet (trace : PyExc → Str) (old : Option Str) (rs : List LogRec) : logRunIn none trace old rs = logRun old rs := by
  have hn : debugSetting none = false := (C104_debug_values [] (by simp)).2
  obtain ⟨g1, g2, -⟩ := logRunIn_eq none trace old rs
  have g2 := g2 hn
  cases h : logRunIn none trace old rs
  cases h' : logRun old rs
  rw [h, h'] at g1 g2
  cases g1
  cases g2
  rfl

/-- **C104** The server listens at the port SPEXSRV_PORT, which has to be a whole number, and at 5050 if this is not set. -/
theorem C104_port (v : Option Str) (n : Int) :
    (serverPort v = .ok n ↔ v = none ∧ n = 5050 ∨ ∃ s, v = some s ∧ WholeNumber s n) ∧
    (serverPort v = .error .valueError ↔ ∃ s, v = some s ∧ ∀ i, ¬ WholeNumber s i) := by
  cases v with
  | none => simp [serverPort, eq_comm]
  | some s => simp [serverPort, C96_number, C96_not_a_number]

/-- **C104** (partial) What the server prints about the cache, which is all the variable is used for: it is on exactly if SPEX_CACHE is not set or is one of the words `1`, `y`, `yes` and `true`, in
small or capital letters (for values of ASCII characters). Missing with respect to the full claim: that no report is kept if it is off
(`C104_cache_false`). -/
theorem C104_cache_partial (v : Option Str) (hv : ∀ s, v = some s → ∀ c ∈ s, c.toNat < 128) (env : SrvEnv) (files : Files) (dirs : List Str) :
    c!"Cache reports? True" ∈ (srvStartIn v env files dirs).1 ∧ c!"Cache reports? False" ∉ (srvStartIn v env files dirs).1 ∧
      (v = none ∨ ∃ s, v = some s ∧ AnyCase [c!"1", c!"y", c!"yes", c!"true"] s) ∨
    (srvStartIn v env files dirs).1 = [c!"Cache reports? False"] ∧ ∃ s, v = some s ∧ ¬ AnyCase [c!"1", c!"y", c!"yes", c!"true"] s := by
  unfold srvStartIn
  cases v with
  | none =>
    have : cacheSetting none = true := by
      unfold cacheSetting
      rw [Option.getD_none, Uni.lower_ascii _ (by decide)]
      decide
    rw [this]
    have hl : c!"Cache reports? True" ∈ cacheLines true ∧ c!"Cache reports? False" ∉ cacheLines true := by decide
    exact .inl ⟨hl.1, hl.2, .inl rfl⟩
  | some s =>
    have hs : cacheSetting (some s) = decide (AnyCase [c!"1", c!"y", c!"yes", c!"true"] s) := by
      unfold cacheSetting AnyCase
      rw [Option.getD_some, Uni.lower_ascii s (hv s rfl)]
      congr
    by_cases h : AnyCase [c!"1", c!"y", c!"yes", c!"true"] s
    · rw [hs, decide_eq_true h]
      have hl : c!"Cache reports? True" ∈ cacheLines true ∧ c!"Cache reports? False" ∉ cacheLines true := by decide
      exact .inl ⟨hl.1, hl.2, .inr ⟨s, rfl, h⟩⟩
    · rw [hs, decide_eq_false h]
      exact .inr ⟨rfl, s, rfl, h⟩

omit [Uni] in
/-- **C104** That reports are not kept with SPEX_CACHE=n is false of the code: the server says that it does not cache reports, and serves the model
of a document which was sent before. -/
theorem C104_cache_false : letI := Uni.ascii
    (srvStartIn (some c!"n") srvEnv srvFiles srvDirs).1 = [c!"Cache reports? False"] ∧
    ∃ text, (srvStep srvEnv (srvRun srvEnv (srvStartIn (some c!"n") srvEnv srvFiles srvDirs).2
      [.post c!"/tmp/u1" (some (c!"spec.docx", c!"draft")) true, .finish 0, .resume 0]) (.getJson c!"draft")).2 = .text text := by
  let _ := Uni.ascii
  refine ⟨by decide +kernel, ?_⟩
  have h : (match (srvStep srvEnv (srvRun srvEnv (srvStartIn (some c!"n") srvEnv srvFiles srvDirs).2
      [.post c!"/tmp/u1" (some (c!"spec.docx", c!"draft")) true, .finish 0, .resume 0]) (.getJson c!"draft")).2 with
      | .text _ => true | _ => false) = true := by decide +kernel
  split at h
  · next t ht => exact ⟨t, ht⟩
  · cases h

/-! ### Examples -/

/-- C104_debug_values, C104_debug: the debugging is on, and a record of the level DEBUG is on the console -/
example : letI := Uni.ascii
    debugSetting (some c!" Yes\n") = true ∧ debugSetting (some c!"on") = false ∧
    (logRunIn (some c!" Yes\n") (fun _ => c!"Traceback\n") none [⟨.debug, c!"a", [], [], 1, [], none⟩, ⟨.trace, c!"b", [], [], 2, [], none⟩,
      ⟨.uError, c!"c", [], [], 3, [], some (.mk c!"ValueError" c!"d" [] none)⟩]).console = c!"DEBUG a\nU_ERROR c\nTraceback\n" := by
  let _ := Uni.ascii
  refine ⟨?_, ?_, ?_⟩ <;> decide +kernel

/-- C104_port: white space is accepted, a name is not -/
example : letI := Uni.ascii
    serverPort (some c!" 8080\n") = .ok 8080 ∧ (∀ i, serverPort (some c!"http") ≠ .ok i) := by
  let _ := Uni.ascii
  have h : (match serverPort (some c!" 8080\n") with | .ok i => i | _ => 0) = 8080 ∧
    (match serverPort (some c!"http") with | .ok _ => false | _ => true) = true := by decide +kernel
  refine ⟨?_, ?_⟩
  · have h := h.1
    split at h
    · next e => rw [e, h]
    · cases h
  · intro i hi
    have h := h.2
    rw [hi] at h
    cases h

/-- C104_cache_partial: capital letters -/
example : letI := Uni.ascii
    (srvStartIn (some c!"YES") srvEnv srvFiles srvDirs).1 =
      [c!"Cache reports? True", c!"export SPEX_CACHE=n to disable (n, no, false or 0 is acceptable)"] := by
  let _ := Uni.ascii
  decide +kernel

end Spex
