import Verif.Model.Log
import Verif.Model.ReportView
import Verif.Lemmas.Brackets
import Verif.Props.Events
/-
C90: the log file.
-/
set_option autoImplicit false
namespace Spex

/-! ### Specification: reading the log -/

/-- the level with a name -/
def levelOf (name : Str) : Option LogLevel :=
  [LogLevel.trace, .debug, .info, .success, .warning, .error, .critical, .uInfo, .uSuccess, .uWarning, .uError, .uLint, .uCritical].find?
    fun l => l.name = name

/-- a value or null -/
def readOpt {α : Type} (f : Json → Option α) : Json → Option (Option α)
  | .null => some none
  | j => (f j).map some

/-- an integer -/
def jsonNum : Json → Option Int
  | .num n => some n
  | _ => none

/-- a frame -/
def readFrame (j : Json) : Option Frame := do
  some ⟨← (jsonItem c!"name" j).bind jsonStr, ← (jsonItem c!"file" j).bind jsonStr, ← (jsonItem c!"lineno" j).bind (readOpt jsonNum),
    ← (jsonItem c!"line" j).bind (readOpt jsonStr)⟩

/-- An exception and its causes: each is given by its type, its message and its frames. The first argument bounds the number of causes. -/
def readExc : Nat → Json → Option (List (Str × Str × List Frame))
  | 0, _ => none
  | n + 1, j => do
    let type ← (jsonItem c!"type" j).bind jsonStr
    let msg ← (jsonItem c!"msg" j).bind jsonStr
    let frames ← match jsonItem c!"frames" j with
      | some (.arr fs) => fs.mapM readFrame
      | _ => none
    match jsonItem c!"cause" j with
    | none => some [(type, msg, frames)]
    | some cause => (readExc n cause).map ((type, msg, frames) :: ·)

/-- the exception and its causes -/
def PyExc.chain : PyExc → List (Str × Str × List Frame)
  | .mk type msg frames none => [(type, msg, frames)]
  | .mk type msg frames (some cause) => (type, msg, frames) :: cause.chain

/-- what a line of the log tells of a record -/
structure LogEntry where
  level : LogLevel
  msg : Str
  file : Str
  func : Str
  line : Int
  extra : List (Str × Json)
  exception : List (Str × Str × List Frame)

/-- a line of the log -/
def readEntry (text : Str) : Option LogEntry := do
  let j ← readJson text
  let extra ← match jsonItem c!"extra" j with
    | none => some []
    | some (.obj kvs) => some kvs
    | _ => none
  let exc ← match jsonItem c!"exception" j with
    | none => some []
    | some e => readExc text.length e
  some ⟨← ((jsonItem c!"level" j).bind jsonStr).bind levelOf, ← (jsonItem c!"msg" j).bind jsonStr, ← (jsonItem c!"file" j).bind jsonStr,
    ← (jsonItem c!"func" j).bind jsonStr, ← (jsonItem c!"line" j).bind jsonNum, extra, exc⟩

/-- what is to be told of a record -/
def LogRec.entry (r : LogRec) : LogEntry :=
  ⟨r.level, r.msg, r.file, r.func, r.line, r.extra, (r.exception.map PyExc.chain).getD []⟩

/-- the records which are meant for the user: those with a level of ULog -/
def LogRec.forUser (r : LogRec) : Prop :=
  r.level ∈ [LogLevel.uInfo, .uSuccess, .uWarning, .uError, .uLint, .uCritical]

instance (r : LogRec) : Decidable r.forUser := inferInstanceAs (Decidable (_ ∈ _))

/-! ### Proofs -/

theorem levelOf_name (l : LogLevel) : levelOf l.name = some l := by cases l <;> decide

theorem readFrame_json (f : Frame) : readFrame (frameJson f) = some f := by
  obtain ⟨a, b, c, d⟩ := f
  cases c <;> cases d <;> rfl

theorem readFrames_json (fs : List Frame) : (fs.map frameJson).mapM readFrame = some fs := by
  induction fs with
  | nil => rfl
  | cons f fs ih =>
    rw [List.map_cons, List.mapM_cons, readFrame_json, ih]
    rfl

theorem readExc_json : (e : PyExc) → (n : Nat) → e.chain.length ≤ n → readExc n (excJson e) = some e.chain
  | .mk type msg frames cause, 0, h => by cases cause <;> simp [PyExc.chain] at h
  | .mk type msg frames none, n + 1, _ => by
    rw [excJson, PyExc.chain, readExc]
    have h1 : ∀ j1 j2 j3, jsonItem c!"type" (.obj [(c!"type", j1), (c!"msg", j2), (c!"frames", j3)]) = some j1 := fun _ _ _ => rfl
    have h2 : ∀ j1 j2 j3, jsonItem c!"msg" (.obj [(c!"type", j1), (c!"msg", j2), (c!"frames", j3)]) = some j2 := fun _ _ _ => rfl
    have h3 : ∀ j1 j2 j3, jsonItem c!"frames" (.obj [(c!"type", j1), (c!"msg", j2), (c!"frames", j3)]) = some j3 := fun _ _ _ => rfl
    have h4 : ∀ j1 j2 j3, jsonItem c!"cause" (.obj [(c!"type", j1), (c!"msg", j2), (c!"frames", j3)]) = none := fun _ _ _ => rfl
    simp only [h1, h2, h3, h4, readFrames_json, jsonStr, Option.bind_eq_bind, Option.bind_some]
  | .mk type msg frames (some cause), n + 1, h => by
    rw [PyExc.chain, List.length_cons] at h
    rw [excJson, PyExc.chain, readExc]
    have h1 : ∀ j1 j2 j3 j4, jsonItem c!"type" (.obj [(c!"type", j1), (c!"msg", j2), (c!"frames", j3), (c!"cause", j4)]) = some j1 := fun _ _ _ _ => rfl
    have h2 : ∀ j1 j2 j3 j4, jsonItem c!"msg" (.obj [(c!"type", j1), (c!"msg", j2), (c!"frames", j3), (c!"cause", j4)]) = some j2 := fun _ _ _ _ => rfl
    have h3 : ∀ j1 j2 j3 j4, jsonItem c!"frames" (.obj [(c!"type", j1), (c!"msg", j2), (c!"frames", j3), (c!"cause", j4)]) = some j3 :=
      fun _ _ _ _ => rfl
    have h4 : ∀ j1 j2 j3 j4, jsonItem c!"cause" (.obj [(c!"type", j1), (c!"msg", j2), (c!"frames", j3), (c!"cause", j4)]) = some j4 :=
      fun _ _ _ _ => rfl
    simp only [h1, h2, h3, h4, readFrames_json, jsonStr, Option.bind_eq_bind, Option.bind_some, readExc_json cause n (by omega), Option.map_some]

theorem excChain_length : (e : PyExc) → e.chain.length ≤ (jsonDumps (excJson e)).length
  | .mk type msg frames none => by
    rw [excJson, PyExc.chain, jsonDumps]
    simp
  | .mk type msg frames (some cause) => by
    rw [excJson, PyExc.chain, jsonDumps, jsonDumpsPairs, jsonDumpsPairs, jsonDumpsPairs, jsonDumpsPairs]
    have := excChain_length cause
    simp only [List.length_cons, List.length_append]
    omega

theorem recordJson_length {r : LogRec} {e : PyExc} (h : r.exception = some e) : e.chain.length ≤ (jsonDumps (recordJson r)).length := by
  have hc := excChain_length e
  rw [recordJson, h]
  simp only [List.cons_append, List.nil_append]
  cases hx : r.extra.isEmpty with
  | true =>
    simp only [if_true, List.nil_append]
    rw [jsonDumps, jsonDumpsPairs, jsonDumpsPairs, jsonDumpsPairs, jsonDumpsPairs, jsonDumpsPairs]
    simp only [List.length_cons, List.length_append]
    omega
  | false =>
    simp only [Bool.false_eq_true, if_false, List.cons_append, List.nil_append]
    rw [jsonDumps, jsonDumpsPairs, jsonDumpsPairs, jsonDumpsPairs, jsonDumpsPairs, jsonDumpsPairs, jsonDumpsPairs]
    simp only [List.length_cons, List.length_append]
    omega

theorem readEntry_of {t : Str} {j : Json} {x : LogEntry} (h : readJson t = some j) (h1 : ((jsonItem c!"level" j).bind jsonStr).bind levelOf = some x.level)
    (h2 : (jsonItem c!"msg" j).bind jsonStr = some x.msg) (h3 : (jsonItem c!"file" j).bind jsonStr = some x.file)
    (h4 : (jsonItem c!"func" j).bind jsonStr = some x.func) (h5 : (jsonItem c!"line" j).bind jsonNum = some x.line)
    (h6 : (jsonItem c!"extra" j = none ∧ x.extra = []) ∨ jsonItem c!"extra" j = some (.obj x.extra))
    (h7 : (jsonItem c!"exception" j = none ∧ x.exception = []) ∨
      ∃ e, jsonItem c!"exception" j = some e ∧ readExc t.length e = some x.exception) : readEntry t = some x := by
  obtain ⟨y1, y2, y3, y4, y5, y6, y7⟩ := x
  simp only at h1 h2 h3 h4 h5 h6 h7
  rw [readEntry, h]
  simp only [Option.bind_eq_bind, Option.bind_some, h1, h2, h3, h4, h5]
  rcases h6 with ⟨h6, rfl⟩ | h6 <;> rcases h7 with ⟨h7, rfl⟩ | ⟨e, h7, h8⟩ <;> simp [*]

theorem readEntry_record (r : LogRec) : readEntry (jsonDumps (recordJson r)) = some r.entry := by
  have hlen := fun e h => @recordJson_length r e h
  generalize hN : (jsonDumps (recordJson r)).length = N at hlen
  have base : ∀ l : List (Str × Json),
      (((jsonItem c!"level" (.obj ([(c!"level", .str r.level.name), (c!"msg", .str r.msg), (c!"file", .str r.file), (c!"func", .str r.func),
        (c!"line", .num r.line)] ++ l))).bind jsonStr).bind levelOf = some r.level ∧
      (jsonItem c!"msg" (.obj ([(c!"level", .str r.level.name), (c!"msg", .str r.msg), (c!"file", .str r.file), (c!"func", .str r.func),
        (c!"line", .num r.line)] ++ l))).bind jsonStr = some r.msg ∧
      (jsonItem c!"file" (.obj ([(c!"level", .str r.level.name), (c!"msg", .str r.msg), (c!"file", .str r.file), (c!"func", .str r.func),
        (c!"line", .num r.line)] ++ l))).bind jsonStr = some r.file ∧
      (jsonItem c!"func" (.obj ([(c!"level", .str r.level.name), (c!"msg", .str r.msg), (c!"file", .str r.file), (c!"func", .str r.func),
        (c!"line", .num r.line)] ++ l))).bind jsonStr = some r.func ∧
      (jsonItem c!"line" (.obj ([(c!"level", .str r.level.name), (c!"msg", .str r.msg), (c!"file", .str r.file), (c!"func", .str r.func),
        (c!"line", .num r.line)] ++ l))).bind jsonNum = some r.line) ∧
      (jsonItem c!"extra" (.obj ([(c!"level", .str r.level.name), (c!"msg", .str r.msg), (c!"file", .str r.file), (c!"func", .str r.func),
        (c!"line", .num r.line)] ++ l))) = l.lookup c!"extra" ∧
      (jsonItem c!"exception" (.obj ([(c!"level", .str r.level.name), (c!"msg", .str r.msg), (c!"file", .str r.file), (c!"func", .str r.func),
        (c!"line", .num r.line)] ++ l))) = l.lookup c!"exception" :=
    fun l => ⟨⟨levelOf_name _, rfl, rfl, rfl, rfl⟩, rfl, rfl⟩
  obtain ⟨⟨h1, h2, h3, h4, h5⟩, h6, h7⟩ := base ((if r.extra.isEmpty then [] else [(c!"extra", .obj r.extra)]) ++
      match r.exception with
      | none => []
      | some e => [(c!"exception", excJson e)])
  have hx : ∀ l : List (Str × Json), l.lookup c!"extra" = none → ((if r.extra.isEmpty then [] else [(c!"extra", Json.obj r.extra)]) ++ l).lookup c!"extra" =
      if r.extra.isEmpty then none else some (.obj r.extra) := by
    intro l hl
    cases r.extra.isEmpty with
    | true => exact hl
    | false => rfl
  have hy : ∀ l : List (Str × Json), ((if r.extra.isEmpty then [] else [(c!"extra", Json.obj r.extra)]) ++ l).lookup c!"exception" =
      l.lookup c!"exception" := by
    intro l
    cases r.extra.isEmpty with
    | true => rfl
    | false => rfl
  rw [hy] at h7
  rw [hx _ (by cases r.exception <;> rfl)] at h6
  refine readEntry_of (readJson_dumps _) (by rw [recordJson]; exact h1) (by rw [recordJson]; exact h2) (by rw [recordJson]; exact h3)
    (by rw [recordJson]; exact h4) (by rw [recordJson]; exact h5) ?_ ?_
  · cases he : r.extra with
    | nil => left; rw [he] at h6; exact ⟨by rw [recordJson, he]; exact h6, by rw [LogRec.entry, he]⟩
    | cons x xs => right; rw [he] at h6; exact (by rw [recordJson, LogRec.entry, he]; exact h6)
  · cases he : r.exception with
    | none => left; rw [he] at h7; exact ⟨by rw [recordJson, he]; exact h7, by rw [LogRec.entry, he]; rfl⟩
    | some e =>
      right
      rw [he] at h7
      exact ⟨_, (by rw [recordJson, he]; exact h7), by rw [hN, LogRec.entry, he]; exact readExc_json e N (hlen e he)⟩

theorem forUser_iff (r : LogRec) : r.forUser ↔ LogLevel.uInfo.no ≤ r.level.no := by
  unfold LogRec.forUser
  cases h : r.level <;> simp [LogLevel.no]

/-! ### C90 -/

theorem logRun_eq (old : Option Str) (rs : List LogRec) : logRun old rs =
    ⟨(rs.filter fun r => LogLevel.debug.no ≤ r.level.no).flatMap fun r => jsonDumps (recordJson r) ++ ['\n'],
     (rs.filter fun r => LogLevel.uInfo.no ≤ r.level.no).flatMap consoleText⟩ := by
  have : ∀ (s : LogSt), rs.foldl logCall s =
      ⟨s.file ++ (rs.filter fun r => LogLevel.debug.no ≤ r.level.no).flatMap fun r => jsonDumps (recordJson r) ++ ['\n'],
       s.console ++ (rs.filter fun r => LogLevel.uInfo.no ≤ r.level.no).flatMap consoleText⟩ := by
    induction rs with
    | nil => intro s; simp
    | cons r rs ih =>
      intro s
      rw [List.foldl_cons, ih, logCall, List.filter_cons, List.filter_cons]
      by_cases h1 : LogLevel.uInfo.no ≤ r.level.no <;> by_cases h2 : LogLevel.debug.no ≤ r.level.no <;> simp [h1, h2]
  rw [logRun, this, logOpen]
  simp

/-- **C90**, the log file: whatever an earlier run has left, it has one line for each record from the level DEBUG on, in the order of the calls;
each line is printable, is one JSON object, and tells the whole record: its level, message and place, its context, and the exception with
the chain of its causes. -/
theorem C90_file (old : Option Str) (rs : List LogRec) : ∃ ts : List Str,
    (logRun old rs).file = ts.flatMap (fun t => t ++ ['\n']) ∧ (∀ t ∈ ts, Printable t) ∧
    ts.map readEntry = (rs.filter fun r => r.level ≠ .trace).map fun r => some r.entry := by
  have hf : (rs.filter fun r => LogLevel.debug.no ≤ r.level.no) = rs.filter fun r => r.level ≠ .trace := by
    apply List.filter_congr
    intro r _
    cases r.level <;> rfl
  refine ⟨(rs.filter fun r => r.level ≠ .trace).map fun r => jsonDumps (recordJson r), ?_, ?_, ?_⟩
  · rw [logRun_eq, List.flatMap_map, hf]
  · intro t ht
    obtain ⟨r, -, rfl⟩ := List.mem_map.1 ht
    exact printable_dumps _
  · rw [List.map_map]
    apply List.map_congr_left
    intro r _
    exact readEntry_record r

/-- **C90**, the console: it shows the messages for the user, and no others, in the order of the calls; all of them are in the log file, too. -/
theorem C90_console (old : Option Str) (rs : List LogRec) :
    (logRun old rs).console = ((rs.filter fun r => r.forUser).map (·.msg)).flatMap (fun m => c!"• " ++ m ++ ['\n']) ∧
    (rs.filter fun r => r.forUser).Sublist (rs.filter fun r => r.level ≠ .trace) := by
  constructor
  · rw [logRun_eq, List.flatMap_map]
    have hf : (rs.filter fun r => LogLevel.uInfo.no ≤ r.level.no) = rs.filter fun r => r.forUser := by
      apply List.filter_congr
      intro r _
      simp only [forUser_iff]
    rw [hf]
    simp only [List.append_assoc]
    rfl
  · have : (rs.filter fun r => r.forUser) = (rs.filter fun r => r.level ≠ .trace).filter fun r => r.forUser := by
      rw [List.filter_filter]
      apply List.filter_congr
      intro r _
      have : r.forUser → r.level ≠ .trace := by
        intro h h'
        rw [forUser_iff, h'] at h
        exact absurd h (by decide)
      by_cases h : r.forUser
      · simp [h, this h]
      · simp [h]
    rw [this]
    exact List.filter_sublist

/-- a part of a sequence of lines: whole lines, and a part of the next one -/
theorem lines_prefix : ∀ (ts : List Str) (p : Str), p <+: ts.flatMap (fun t => t ++ ['\n']) →
    ∃ (done : List Str) (rest : Str), p = done.flatMap (fun t => t ++ ['\n']) ++ rest ∧
      ((done = ts ∧ rest = []) ∨ ∃ t more, ts = done ++ t :: more ∧ rest <+: t)
  | [], p, h => ⟨[], [], by simpa using h, .inl ⟨rfl, rfl⟩⟩
  | t :: ts, p, h => by
    rw [List.flatMap_cons] at h
    rcases prefix_append_cases h with h | ⟨q, rfl, hq⟩
    · rcases List.prefix_concat_iff.1 h with rfl | h
      · refine ⟨[t], [], by simp, ?_⟩
        cases ts with
        | nil => exact .inl ⟨rfl, rfl⟩
        | cons u us => exact .inr ⟨u, us, rfl, List.nil_prefix⟩
      · exact ⟨[], p, by simp, .inr ⟨t, ts, rfl, h⟩⟩
    · obtain ⟨done, rest, h1, h2⟩ := lines_prefix ts q hq
      refine ⟨t :: done, rest, by rw [h1, List.flatMap_cons]; simp only [List.append_assoc], ?_⟩
      rcases h2 with ⟨rfl, rfl⟩ | ⟨u, more, rfl, hu⟩
      · exact .inl ⟨rfl, rfl⟩
      · exact .inr ⟨u, more, rfl, hu⟩

/-- a part of the text of a record is not JSON -/
theorem readJson_record_part {r : LogRec} {p : Str} (hp : p <+: jsonDumps (recordJson r)) (hne : p ≠ jsonDumps (recordJson r)) :
    readJson p = none := by
  have hb : ∃ u, jsonDumps (recordJson r) = '{' :: (u ++ ['}']) ∧ Nested u := by
    rw [recordJson, List.cons_append]
    generalize ([(c!"msg", Json.str r.msg), (c!"file", .str r.file), (c!"func", .str r.func), (c!"line", .num r.line)] ++ _) = l
    refine ⟨jsonStringAscii c!"level" ++ (c!": " ++ (jsonDumps (.str r.level.name) ++ jsonDumpsPairs l)), ?_, ?_⟩
    · generalize Json.str r.level.name = v
      rw [jsonDumps]
      simp only [List.append_assoc]
    exact (nested_jsonStringAscii _).append ((Nested.plain (u := c!": ") (by decide)).append ((nested_jsonDumps _).append (nested_jsonDumpsPairs _)))
  obtain ⟨u, e, hu⟩ := hb
  rw [e] at hp hne
  by_cases h0 : p = []
  · rw [h0]; exact readJson_nil
  · cases hr : readJson p with
    | none => rfl
    | some j' =>
      have h1 := (Nested.bracketed hu (.inr rfl) (.inr rfl)).2 p hp h0 hne 0
      rw [nesting_of_readJson hr] at h1
      exact absurd h1 (Int.lt_irrefl 0)

/-- **C90**, a run which is killed: whatever part of the log file has reached the disk, it tells the first records and nothing else. It has
whole lines, which tell the first k records, and what follows them tells nothing or the next record. -/
theorem C90_killed (old : Option Str) (rs : List LogRec) (p : Str) (hp : p <+: (logRun old rs).file) : ∃ (k : Nat) (ts : List Str) (rest : Str),
    p = ts.flatMap (fun t => t ++ ['\n']) ++ rest ∧ '\n' ∉ rest ∧
    ts.map readEntry = ((rs.filter fun r => r.level ≠ .trace).take k).map (fun r => some r.entry) ∧
    (readEntry rest = none ∨ ∃ r, (rs.filter fun r => r.level ≠ .trace)[k]? = some r ∧ readEntry rest = some r.entry) := by
  obtain ⟨l, hl⟩ : ∃ l, l = rs.filter fun r => r.level ≠ .trace := ⟨_, rfl⟩
  have hf : (rs.filter fun r => LogLevel.debug.no ≤ r.level.no) = l := by
    rw [hl]
    apply List.filter_congr
    intro r _
    cases r.level <;> rfl
  rw [logRun_eq] at hp
  rw [← hl]
  simp only at hp
  rw [hf] at hp
  have hp' : p <+: (l.map fun r => jsonDumps (recordJson r)).flatMap (fun t => t ++ ['\n']) := by rw [List.flatMap_map]; exact hp
  have hread : ∀ l : List LogRec, (l.map fun r => jsonDumps (recordJson r)).map readEntry = l.map fun r => some r.entry := by
    intro l
    rw [List.map_map]
    exact List.map_congr_left fun r _ => readEntry_record r
  have hnil : readEntry [] = none := rfl
  obtain ⟨done, rest, rfl, h⟩ := lines_prefix _ p hp'
  rcases h with ⟨rfl, rfl⟩ | ⟨t, more, h, hr⟩
  · exact ⟨l.length, _, [], rfl, List.not_mem_nil, by rw [List.take_length, hread], .inl hnil⟩
  · obtain ⟨l1, l2, rfl, h1, h2⟩ := List.map_eq_append_iff.1 h
    obtain ⟨r, l3, rfl, h3, -⟩ := List.map_eq_cons_iff.1 h2
    refine ⟨l1.length, done, rest, rfl, ?_, ?_, ?_⟩
    · intro hn
      have := printable_dumps (recordJson r) '\n' (by rw [h3]; exact hr.subset hn)
      exact absurd this.1 (by decide)
    · rw [List.take_left, ← h1, hread]
    · by_cases he : rest = t
      · right
        exact ⟨r, by simp, by rw [he, ← h3, readEntry_record]⟩
      · left
        rw [readEntry, readJson_record_part (h3 ▸ hr) (by rw [h3]; exact he)]
        rfl

/-! ### examples -/

/-- a record without context and one with an exception which has a cause -/
def exLog : List LogRec :=
  [⟨.uError, c!"failed\nparsing", c!"document.py", c!"_on_parse_fig", 325, [], none⟩,
   ⟨.trace, c!"unseen", c!"document.py", c!"f", 1, [], none⟩,
   ⟨.error, c!"exception when parsing figure", c!"document.py", c!"_on_parse_fig", 326, [(c!"extractor_cls", .str c!"BitsTableExtractor")],
    some (.mk c!"RuntimeError" c!"é" [⟨c!"f", c!"a.py", some 3, none⟩] (some (.mk c!"KeyError" c!"'k'" [] none)))⟩]

example : (logRun (some c!"old") exLog).console = c!"• failed\nparsing\n" := by decide +kernel

example : (logRun none exLog).file =
    c!"{\"level\": \"U_ERROR\", \"msg\": \"failed\\nparsing\", \"file\": \"document.py\", \"func\": \"_on_parse_fig\", \"line\": 325}\n{\"level\": \"ERROR\", \"msg\": \"exception when parsing figure\", \"file\": \"document.py\", \"func\": \"_on_parse_fig\", \"line\": 326, \"extra\": {\"extractor_cls\": \"BitsTableExtractor\"}, \"exception\": {\"type\": \"RuntimeError\", \"msg\": \"\\u00e9\", \"frames\": [{\"name\": \"f\", \"file\": \"a.py\", \"lineno\": 3, \"line\": null}], \"cause\": {\"type\": \"KeyError\", \"msg\": \"'k'\", \"frames\": []}}}\n" := by
  decide +kernel

end Spex
