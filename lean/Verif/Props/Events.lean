import Verif.Props.JsonText
import Verif.Props.Cli
import Verif.Model.Server
/-
C57: the event stream. C58: the checksum of an upload.
-/
set_option autoImplicit false
namespace Spex

/-! ### The text of an event reads back -/

theorem readString_jsonHex {n : Nat} {x : Char} (hn : n < 65536) (hx : charOf n = some x) (r : Str) :
    readString (jsonHex n ++ r) = (readString r).map fun p => (x :: p.1, p.2) := by
  refine readString_hex r ?_
  rw [hexChar, hexCode_digits (Nat.mod_lt _ (by decide)) (Nat.mod_lt _ (by decide)) (Nat.mod_lt _ (by decide)) (Nat.mod_lt _ (by decide))]
  rw [show n / 4096 % 16 * 4096 + n / 256 % 16 * 256 + n / 16 % 16 * 16 + n % 16 = n by omega]
  exact hx

theorem readString_jsonPair {hi lo : Nat} {x : Char} (h1 : 0xD800 ≤ hi) (h2 : hi < 0xDC00) (h3 : 0xDC00 ≤ lo) (h4 : lo < 0xE000)
    (hx : charOf (0x10000 + (hi - 0xD800) * 0x400 + (lo - 0xDC00)) = some x) (r : Str) :
    readString (jsonHex hi ++ (jsonHex lo ++ r)) = (readString r).map fun p => (x :: p.1, p.2) := by
  have hcode : ∀ n, n < 65536 → hexCode (hexDigit (n / 4096 % 16)) (hexDigit (n / 256 % 16)) (hexDigit (n / 16 % 16)) (hexDigit (n % 16))
      = some n := by
    intro n hn
    rw [hexCode_digits (Nat.mod_lt _ (by decide)) (Nat.mod_lt _ (by decide)) (Nat.mod_lt _ (by decide)) (Nat.mod_lt _ (by decide))]
    exact congrArg some (by omega)
  refine readString_pair r ?_ ?_
  · rw [hexChar, hcode _ (by omega), Option.bind_eq_bind, Option.bind_some, charOf, dif_neg]
    intro hv'
    rcases hv' with h' | h' <;> omega
  · rw [hexPair, hcode _ (by omega), hcode _ (by omega)]
    simp only [Option.bind_eq_bind, Option.bind_some]
    rw [pairChar, if_pos ⟨h1, h2, h3, h4⟩]
    exact hx

theorem readString_escapeAscii (c : Char) (r : Str) :
    readString (jsonEscapeAscii c ++ r) = (readString r).map fun p => (c :: p.1, p.2) := by
  have hg := readString_map
  unfold jsonEscapeAscii
  split
  · next h => subst h; simp [readString, simpleEscape]; exact hg _ _
  split
  · next h => subst h; simp [readString, simpleEscape]; exact hg _ _
  split
  · next h => subst h; simp [readString, simpleEscape]; exact hg _ _
  split
  · next h => subst h; simp [readString, simpleEscape]; exact hg _ _
  split
  · next h => subst h; simp [readString, simpleEscape]; exact hg _ _
  split
  · next h =>
    have : c = Char.ofNat 12 := by rw [← h, Char.ofNat_toNat]
    subst this; simp [readString, simpleEscape]; exact hg _ _
  split
  · next h =>
    have : c = Char.ofNat 8 := by rw [← h, Char.ofNat_toNat]
    subst this; simp [readString, simpleEscape]; exact hg _ _
  split
  · next h1 h2 _ _ _ _ _ h =>
    rw [List.singleton_append, readString]
    · rw [if_neg (by simp only [h2, false_or]; omega)]; exact hg _ _
    · simpa using h1
    all_goals (intros; simp_all)
  split
  · next h => exact readString_jsonHex (by omega) (charOf_toNat c) r
  · next h =>
    have hv : c.toNat.isValidChar := c.valid
    have hlt : c.toNat < 0x110000 := by rcases hv with h | h <;> omega
    rw [List.append_assoc]
    refine readString_jsonPair ?_ ?_ ?_ ?_ ?_ r
    · omega
    · omega
    · omega
    · omega
    · rw [show 0x10000 + (0xD800 + (c.toNat - 0x10000) / 0x400 - 0xD800) * 0x400 +
        (0xDC00 + (c.toNat - 0x10000) % 0x400 - 0xDC00) = c.toNat by omega]
      exact charOf_toNat c

theorem readString_dumps (s r : Str) : readString (s.flatMap jsonEscapeAscii ++ '"' :: r) = some (s, r) := by
  induction s with
  | nil => simp [readString]
  | cons c s ih => rw [List.flatMap_cons, List.append_assoc, readString_escapeAscii, ih]; rfl

theorem jsonDumps_head (j : Json) : ∃ c s, jsonDumps j = c :: s ∧ jsonWs c = false ∧ c ≠ ']' ∧ c ≠ '}' := by
  cases j with
  | null => exact ⟨_, _, rfl, by decide, by decide, by decide⟩
  | bool b => cases b <;> exact ⟨_, _, rfl, by decide, by decide, by decide⟩
  | num n =>
    obtain ⟨c, s, h, hc⟩ := intStr_head n
    refine ⟨c, s, by rw [jsonDumps, h], ?_⟩
    obtain ⟨c', s', h', hw, h1, h2⟩ := jsonDump_head 0 (.num n)
    rw [jsonDump, h] at h'
    injection h' with h' _
    subst h'
    exact ⟨hw, h1, h2⟩
  | str s => exact ⟨_, _, by rw [jsonDumps, jsonStringAscii], by decide, by decide, by decide⟩
  | arr xs => cases xs <;> exact ⟨_, _, by rw [jsonDumps], by decide, by decide, by decide⟩
  | obj kvs => cases kvs <;> exact ⟨_, _, by rw [jsonDumps], by decide, by decide, by decide⟩

theorem noDigit_dumpsItems (xs : List Json) (r : Str) : NoDigit (jsonDumpsItems xs ++ ([']'] ++ r)) := by
  cases xs with
  | nil => rw [jsonDumpsItems]; exact noDigit_cons (by decide)
  | cons x xs => rw [jsonDumpsItems]; exact noDigit_cons (by decide)

theorem noDigit_dumpsPairs (kvs : List (Str × Json)) (r : Str) : NoDigit (jsonDumpsPairs kvs ++ (['}'] ++ r)) := by
  cases kvs with
  | nil => rw [jsonDumpsPairs]; exact noDigit_cons (by decide)
  | cons kv kvs => cases kv; rw [jsonDumpsPairs]; exact noDigit_cons (by decide)

theorem readValue_blank (n : Nat) (s : Str) : readValue n (' ' :: s) = readValue n s := by
  cases n with
  | zero => rw [readValue, readValue]
  | succ n => rw [readValue, readValue, show skipWs (' ' :: s) = skipWs s by rw [skipWs, List.dropWhile_cons]; rfl]

theorem readPair_blank (n : Nat) (s : Str) : readPair n (' ' :: s) = readPair n s := by
  cases n with
  | zero => rw [readPair, readPair]
  | succ n => rw [readPair, readPair, show skipWs (' ' :: s) = skipWs s by rw [skipWs, List.dropWhile_cons]; rfl]

mutual
theorem readValue_dumps (r : Str) (hr : NoDigit r) : ∀ (j : Json) (n : Nat), (jsonDumps j).length < n →
    readValue n (jsonDumps j ++ r) = some (j, r)
  | _, 0, h => by omega
  | .null, n + 1, _ => by
    rw [jsonDumps, readValue]; rfl
  | .bool true, n + 1, _ => by rw [jsonDumps, readValue]; rfl
  | .bool false, n + 1, _ => by rw [jsonDumps, readValue]; rfl
  | .num i, n + 1, _ => by
    have := readValue_dump 0 r hr (.num i) ((intStr i).length + 1 + n) (by rw [jsonDump]; omega)
    rw [jsonDump] at this
    rw [jsonDumps]
    have e : (intStr i).length + 1 + n = ((intStr i).length + n) + 1 := by omega
    rw [e, readValue] at this
    rw [readValue]
    obtain ⟨c, s, h, hw, _, _⟩ := jsonDumps_head (.num i)
    rw [jsonDumps] at h
    obtain ⟨c', s', h', hc⟩ := intStr_head i
    have hcc : c' = c := by rw [h] at h'; simp only [List.cons.injEq] at h'; exact h'.1.symm
    subst hcc
    have hne : c' ≠ '"' ∧ c' ≠ '[' ∧ c' ≠ '{' ∧ c' ≠ 'n' ∧ c' ≠ 't' ∧ c' ≠ 'f' := by
      refine ⟨?_, ?_, ?_, ?_, ?_, ?_⟩ <;> (rintro rfl; revert hc; decide)
    rw [show intStr i ++ r = c' :: (s ++ r) by rw [h]; rfl, skipWs_cons _ hw] at this ⊢
    simp only [hne, if_false] at this ⊢
    exact this
  | .str s, n + 1, _ => by
    rw [jsonDumps, readValue, jsonStringAscii, List.cons_append, skipWs_cons _ (by decide)]
    simp only [if_true]
    rw [List.append_assoc, List.singleton_append, readString_dumps]; rfl
  | .arr [], n + 1, _ => by rw [jsonDumps, readValue]; rfl
  | .arr (x :: xs), n + 1, h => by
    rw [jsonDumps] at h ⊢
    simp only [List.length_cons, List.length_append] at h
    rw [readValue, List.cons_append, skipWs_cons _ (by decide)]
    simp only [show ('[' : Char) ≠ '"' by decide, if_false, if_true, List.append_assoc]
    obtain ⟨c, s, hh, hw, hc, _⟩ := jsonDumps_head x
    have hv := readValue_dumps (jsonDumpsItems xs ++ ([']'] ++ r)) (noDigit_dumpsItems _ _) x n (by omega)
    rw [hh, List.cons_append] at hv ⊢
    rw [skipWs_cons _ hw]
    split
    · next h' => simp only [List.cons.injEq] at h'; exact absurd h'.1 hc
    · rw [hv]
      simp only [Option.bind_eq_bind, Option.bind_some]
      rw [readItems_dumps r xs n (by omega)]; rfl
  | .obj [], n + 1, _ => by rw [jsonDumps, readValue]; rfl
  | .obj ((k, v) :: kvs), n + 1, h => by
    rw [jsonDumps] at h ⊢
    simp only [List.length_cons, List.length_append] at h
    rw [readValue, List.cons_append, skipWs_cons _ (by decide)]
    simp only [show ('{' : Char) ≠ '"' by decide, show ('{' : Char) ≠ '[' by decide, if_false, if_true, List.append_assoc]
    have hv := readPair_dumps (jsonDumpsPairs kvs ++ (['}'] ++ r)) (noDigit_dumpsPairs _ _) k v n
      (by simp only [List.length_append]; omega)
    rw [jsonStringAscii, List.cons_append] at hv ⊢
    rw [skipWs_cons _ (by decide)]
    split
    · next h' => simp only [List.cons.injEq] at h'; exact absurd h'.1 (by decide)
    · rw [hv]
      simp only [Option.bind_eq_bind, Option.bind_some]
      rw [readPairs_dumps r kvs n (by omega)]; rfl
termination_by _ n => n
theorem readItems_dumps (r : Str) : ∀ (xs : List Json) (n : Nat), (jsonDumpsItems xs).length < n →
    readItems n (jsonDumpsItems xs ++ ([']'] ++ r)) = some (xs, r)
  | _, 0, h => by omega
  | [], n + 1, _ => by rw [jsonDumpsItems, readItems]; rfl
  | x :: xs, n + 1, h => by
    rw [jsonDumpsItems] at h ⊢
    simp only [List.length_cons, List.length_append] at h
    rw [readItems, List.cons_append, skipWs_cons _ (by decide)]
    simp only [List.cons_append, List.append_assoc, readValue_blank]
    have := readValue_dumps (jsonDumpsItems xs ++ ([']'] ++ r)) (noDigit_dumpsItems _ _) x n (by omega)
    simp only [List.cons_append, List.nil_append] at this
    simp only [List.nil_append]
    rw [this]
    simp only [Option.bind_eq_bind, Option.bind_some]
    have := readItems_dumps r xs n (by omega)
    simp only [List.cons_append, List.nil_append] at this
    rw [this]; rfl
termination_by _ n => n
theorem readPair_dumps (r : Str) (hr : NoDigit r) (k : Str) (v : Json) (n : Nat)
    (h : (jsonStringAscii k ++ jsonDumps v).length < n) :
    readPair n (jsonStringAscii k ++ (c!": " ++ (jsonDumps v ++ r))) = some ((k, v), r) := by
  cases n with
  | zero => omega
  | succ n =>
    simp only [List.length_append, jsonStringAscii, List.length_cons] at h
    rw [readPair, jsonStringAscii, List.cons_append, skipWs_cons _ (by decide), List.append_assoc, List.singleton_append]
    simp only [readString_dumps, Option.bind_eq_bind, Option.bind_some]
    have : skipWs (c!": " ++ (jsonDumps v ++ r)) = ':' :: ' ' :: (jsonDumps v ++ r) := by
      rw [List.cons_append, skipWs_cons _ (by decide)]; rfl
    rw [this]
    simp only [readValue_blank]
    rw [readValue_dumps r hr v n (by omega)]; rfl
termination_by n
theorem readPairs_dumps (r : Str) : ∀ (kvs : List (Str × Json)) (n : Nat), (jsonDumpsPairs kvs).length < n →
    readPairs n (jsonDumpsPairs kvs ++ (['}'] ++ r)) = some (kvs, r)
  | _, 0, h => by omega
  | [], n + 1, _ => by rw [jsonDumpsPairs, readPairs]; rfl
  | (k, v) :: kvs, n + 1, h => by
    rw [jsonDumpsPairs] at h ⊢
    simp only [List.length_cons, List.length_append] at h
    rw [readPairs, List.cons_append, skipWs_cons _ (by decide)]
    simp only [List.cons_append, List.append_assoc, readPair_blank]
    have := readPair_dumps (jsonDumpsPairs kvs ++ (['}'] ++ r)) (noDigit_dumpsPairs _ _) k v n (by simp only [List.length_append]; omega)
    simp only [List.cons_append, List.nil_append] at this
    simp only [List.nil_append]
    rw [this]
    simp only [Option.bind_eq_bind, Option.bind_some]
    have := readPairs_dumps r kvs n (by omega)
    simp only [List.cons_append, List.nil_append] at this
    rw [this]; rfl
termination_by _ n => n
end

/-- the text of an event reads back -/
theorem readJson_dumps (j : Json) : readJson (jsonDumps j) = some j := by
  have := readValue_dumps [] (by intro c hc; simp at hc) j ((jsonDumps j).length + 1) (by omega)
  rw [List.append_nil] at this
  rw [readJson, this]; rfl

/-! ### No raw line breaks -/

/-- printable ASCII -/
def Printable (s : Str) : Prop := ∀ c ∈ s, 32 ≤ c.toNat ∧ c.toNat ≤ 126

instance (s : Str) : Decidable (Printable s) := inferInstanceAs (Decidable (∀ c ∈ s, 32 ≤ c.toNat ∧ c.toNat ≤ 126))

theorem printable_append {a b : Str} (ha : Printable a) (hb : Printable b) : Printable (a ++ b) := by
  intro c hc; rcases List.mem_append.1 hc with h | h
  · exact ha c h
  · exact hb c h

theorem printable_cons {c : Char} {s : Str} (hc : 32 ≤ c.toNat ∧ c.toNat ≤ 126) (hs : Printable s) : Printable (c :: s) := by
  intro x hx; rcases List.mem_cons.1 hx with rfl | h
  · exact hc
  · exact hs x h

theorem printable_hex (n : Nat) : Printable (jsonHex n) := by
  have hd : ∀ k, 32 ≤ (hexDigit (k % 16)).toNat ∧ (hexDigit (k % 16)).toNat ≤ 126 := by
    have : ∀ k : Fin 16, 32 ≤ (hexDigit k).toNat ∧ (hexDigit k).toNat ≤ 126 := by decide
    intro k; exact this ⟨k % 16, Nat.mod_lt _ (by decide)⟩
  intro c hc
  simp only [jsonHex, List.mem_cons, List.not_mem_nil, or_false] at hc
  rcases hc with rfl | rfl | rfl | rfl | rfl | rfl
  · decide
  · decide
  all_goals exact hd _

theorem printable_string (s : Str) : Printable (jsonStringAscii s) := by
  refine printable_cons (by decide) (printable_append ?_ (by decide))
  intro c hc
  obtain ⟨x, _, hx⟩ := List.mem_flatMap.1 hc
  revert hx
  unfold jsonEscapeAscii
  have hl : ∀ s : Str, Printable s → c ∈ s → 32 ≤ c.toNat ∧ c.toNat ≤ 126 := fun s h => h c
  split; · exact hl _ (by decide)
  split; · exact hl _ (by decide)
  split; · exact hl _ (by decide)
  split; · exact hl _ (by decide)
  split; · exact hl _ (by decide)
  split; · exact hl _ (by decide)
  split; · exact hl _ (by decide)
  split
  · next h => intro hx; rw [List.mem_singleton] at hx; rw [hx]; exact h
  split
  · exact hl _ (printable_hex _)
  · exact hl _ (printable_append (printable_hex _) (printable_hex _))

theorem printable_int (i : Int) : Printable (intStr i) := by
  have hn : ∀ n, Printable (natStr n) := by
    intro n c hc
    have := natDigits_digit _ _ c (List.mem_reverse.1 hc)
    simp only [jsonDigit, Bool.and_eq_true, decide_eq_true_eq] at this
    omega
  cases i with
  | ofNat n => exact hn n
  | negSucc n => exact printable_cons (by decide) (hn _)

mutual
theorem printable_dumps : ∀ j : Json, Printable (jsonDumps j)
  | .null => by rw [jsonDumps]; decide
  | .bool true => by rw [jsonDumps]; decide
  | .bool false => by rw [jsonDumps]; decide
  | .num n => by rw [jsonDumps]; exact printable_int n
  | .str s => by rw [jsonDumps]; exact printable_string s
  | .arr [] => by rw [jsonDumps]; decide
  | .arr (x :: xs) => by
    rw [jsonDumps]
    exact printable_cons (by decide) (printable_append (printable_dumps x) (printable_append (printable_dumpsItems xs) (by decide)))
  | .obj [] => by rw [jsonDumps]; decide
  | .obj ((k, v) :: kvs) => by
    rw [jsonDumps]
    exact printable_cons (by decide) (printable_append (printable_string k) (printable_append (by decide)
      (printable_append (printable_dumps v) (printable_append (printable_dumpsPairs kvs) (by decide)))))
theorem printable_dumpsItems : ∀ xs : List Json, Printable (jsonDumpsItems xs)
  | [] => by rw [jsonDumpsItems]; decide
  | x :: xs => by
    rw [jsonDumpsItems]
    exact printable_cons (by decide) (printable_cons (by decide) (printable_append (printable_dumps x) (printable_dumpsItems xs)))
theorem printable_dumpsPairs : ∀ kvs : List (Str × Json), Printable (jsonDumpsPairs kvs)
  | [] => by rw [jsonDumpsPairs]; decide
  | (k, v) :: kvs => by
    rw [jsonDumpsPairs]
    exact printable_cons (by decide) (printable_cons (by decide) (printable_append (printable_string k) (printable_append (by decide)
      (printable_append (printable_dumps v) (printable_dumpsPairs kvs)))))
end

/-! ### C57: specification

The rules of the standard for event streams, of which only `data` fields matter here. -/

/-- the lines of a stream: they end with a carriage return, a line feed or both -/
def sseLines : Str → List Str
  | [] => [[]]
  | '\r' :: '\n' :: s => [] :: sseLines s
  | c :: s =>
    if c = '\n' ∨ c = '\r' then [] :: sseLines s
    else match sseLines s with
      | [] => [[c]]
      | l :: ls => (c :: l) :: ls

/-- the data of an event after another line: a value follows `data:`, without one blank after the colon; lines without `data`
are other fields or comments -/
def sseField (data : List Str) (line : Str) : List Str :=
  if line = c!"data" then data ++ [[]]
  else if line.take 5 = c!"data:" then
    data ++ [if line.drop 5 |>.head? |> (· = some ' ') then line.drop 6 else line.drop 5]
  else data

/-- the events of a stream: a blank line dispatches an event if it has data; an event without a blank line after it is lost -/
def sseEvents : List Str → List Str → List Str
  | _, [] => []
  | data, l :: ls =>
    if l = [] then (if data = [] then sseEvents [] ls else ['\n'].intercalate data :: sseEvents [] ls)
    else sseEvents (sseField data l) ls

/-- the data of the events of a stream -/
def sseDecode (stream : Str) : List Str := sseEvents [] (sseLines stream)

/-! ### Proofs -/

theorem sseLines_plain (l s : Str) (h : ∀ c ∈ l, c ≠ '\n' ∧ c ≠ '\r') : sseLines (l ++ '\n' :: s) = l :: sseLines s := by
  induction l with
  | nil => simp [sseLines]
  | cons c l ih =>
    have hc := h c (by simp)
    rw [List.cons_append, sseLines, if_neg (by simp [hc.1, hc.2]), ih (fun x hx => h x (by simp [hx]))]
    rintro s' he; exact absurd he hc.2

theorem jsonToSse_lines (j : Json) : ∃ l, jsonToSse j = l ++ '\n' :: '\n' :: [] ∧ l = c!"data: " ++ jsonDumps j ∧ Printable l :=
  ⟨c!"data: " ++ jsonDumps j, by rw [jsonToSse, List.append_assoc], rfl, printable_append (by decide) (printable_dumps j)⟩

theorem printable_no_break {l : Str} (h : Printable l) : ∀ c ∈ l, c ≠ '\n' ∧ c ≠ '\r' := by
  intro c hc
  have := h c hc
  constructor <;> rintro rfl <;> exact absurd this (by decide)

/-- **C57** Any standard reader of event streams gets from the bytes sent for a sequence of events exactly the data of these
events, in order, and the data of each reads as the JSON value sent. -/
theorem C57_standard (events : List Json) :
    (sseDecode (events.flatMap jsonToSse)).map readJson = events.map some := by
  induction events with
  | nil => rfl
  | cons j js ih =>
    obtain ⟨l, h1, h2, h3⟩ := jsonToSse_lines j
    have hf : sseField [] l = [jsonDumps j] := by
      rw [h2]; rfl
    rw [List.flatMap_cons, h1, List.append_assoc, sseDecode]
    simp only [List.cons_append, List.nil_append]
    rw [sseLines_plain l _ (printable_no_break h3)]
    have h0 : ∀ s : Str, sseLines ('\n' :: s) = [] :: sseLines s := fun s => sseLines_plain [] s (by simp)
    rw [h0, sseEvents, if_neg (by rw [h2]; simp), sseEvents, if_pos rfl, hf, if_neg (by simp)]
    rw [List.map_cons, List.map_cons, ← ih]
    congr 1
    rw [List.intercalate_singleton]
    exact readJson_dumps j

/-- **C57** The upload form gets all events, in order, as long as the chunks it reads are made of complete events. -/
theorem C57_client (chunks : List (List Json)) :
    chunks.flatMap (fun events => clientDecode (events.flatMap jsonToSse)) = chunks.flatten := by
  have h1 : ∀ events : List Json, clientDecode (events.flatMap jsonToSse) = events := by
    intro events
    unfold clientDecode
    induction events with
    | nil => rfl
    | cons j js ih =>
      obtain ⟨l, h1, h2, h3⟩ := jsonToSse_lines j
      have hn : '\n' ∉ l := fun h => (printable_no_break h3 _ h).1 rfl
      rw [List.flatMap_cons, h1, List.append_assoc]
      simp only [List.cons_append, List.nil_append]
      have h0 : ∀ s : Str, splitOn '\n' ('\n' :: s) = [] :: splitOn '\n' s := fun s => splitOn_prefix '\n' [] s (by simp)
      rw [splitOn_prefix '\n' l _ hn, h0, List.filterMap_cons, List.filterMap_cons, ih]
      have e : (if l.take 6 = c!"data: " then readJson (l.drop 6) else none) = some j := by
        rw [h2]
        exact (if_pos rfl).trans (readJson_dumps j)
      rw [e]
      rfl
  induction chunks with
  | nil => rfl
  | cons c cs ih => rw [List.flatMap_cons, List.flatten_cons, ih, h1]

def exEvents : List Json := [progressEvent ⟨c!"json", 3, 12⟩, .arr [.str c!"a\n\"", .str c!"é 😀"]]

/-- Two events; text with a line break, a quote and a character beyond the basic plane: the stream is what the standard reader
decodes to these events. -/
example : exEvents.flatMap jsonToSse = (c!"data: {\"type\": \"progress-update\", \"phase\": \"json\", \"fig_ndx\": 3, \"num_figs\": 12}\n\n" ++
      c!"data: [\"a\\n\\\"\", \"\\u00e9 \\ud83d\\ude00\"]\n\n") ∧
    (sseDecode (exEvents.flatMap jsonToSse)).map readJson = exEvents.map some ∧ clientDecode (exEvents.flatMap jsonToSse) = exEvents := by
  refine ⟨by decide +kernel, C57_standard _, ?_⟩
  simpa using C57_client [exEvents]

/-! ### C58 -/

/-- what `hashlib` promises: updating with one text and then another is updating with both, one after the other -/
structure Hasher.Streaming (h : Hasher) : Prop where
  update_nil : ∀ st, h.update st [] = st
  update_append : ∀ st a b, h.update (h.update st a) b = h.update st (a ++ b)

theorem fileChunks_go (k : Nat) (hk : 0 < k) : ∀ (n : Nat) (s : Str), s.length < n → (fileChunks.go k n s).flatten = s
  | 0, s, h => by omega
  | n + 1, s, h => by
    rw [fileChunks.go]
    split
    · next h' =>
      rcases List.take_eq_nil_iff.1 h' with h' | h'
      · omega
      · rw [h']; rfl
    · next h' =>
      have : s ≠ [] := by rintro rfl; exact h' List.take_nil
      have hl := List.length_pos_iff.2 this
      rw [List.flatten_cons, fileChunks_go k hk n _ (by rw [List.length_drop]; omega), List.take_append_drop]

/-- **C58** The checksum computed piece by piece is that of the whole content, for every size of the pieces. -/
theorem C58_whole_file (h : Hasher) (hh : h.Streaming) (content : Str) (k : Nat) (hk : 0 < k) :
    md5sum h content k = h.hexdigest (h.update h.init content) := by
  have : ∀ (cs : List Str) (st : h.St), cs.foldl h.update st = h.update st cs.flatten := by
    intro cs
    induction cs with
    | nil => intro st; exact (hh.update_nil st).symm
    | cons c cs ih => intro st; rw [List.foldl_cons, ih, hh.update_append]; rfl
  rw [md5sum, this, fileChunks, fileChunks_go k hk _ _ (Nat.lt_succ_self _)]

/-- **C58** The pieces of a file are no longer than asked for, and none is empty: the memory used does not grow
with the file. -/
theorem C58_pieces (content : Str) (k : Nat) : ∀ c ∈ fileChunks k content, c ≠ [] ∧ c.length ≤ k := by
  have : ∀ n s, ∀ c ∈ fileChunks.go k n s, c ≠ [] ∧ c.length ≤ k := by
    intro n
    induction n with
    | zero => intro s c hc; simp [fileChunks.go] at hc
    | succ n ih =>
      intro s c hc
      rw [fileChunks.go] at hc
      split at hc
      · simp at hc
      · next h =>
        rcases List.mem_cons.1 hc with rfl | hc
        · exact ⟨h, List.length_take_le _ _⟩
        · exact ih _ c hc
  exact this _ _

/-- a checksum: a polynomial in the codes of the characters -/
def exHasher : Hasher := ⟨Nat, 7, fun st s => s.foldl (fun n c => (31 * n + c.toNat) % 1000003) st, natStr⟩

theorem exHasher_streaming : exHasher.Streaming := ⟨fun _ => rfl, fun _ _ _ => List.foldl_append.symm⟩

/-- Seven characters in pieces of three: the checksum is that of all seven, and differs from that of the first six. -/
example : fileChunks 3 c!"abcdefg" = [c!"abc", c!"def", c!"g"] ∧
    md5sum exHasher c!"abcdefg" 3 = exHasher.hexdigest (exHasher.update exHasher.init c!"abcdefg") ∧
    md5sum exHasher c!"abcdefg" 3 ≠ md5sum exHasher c!"abcdef" 3 :=
  ⟨by decide, C58_whole_file exHasher exHasher_streaming _ 3 (by decide), by decide +kernel⟩

end Spex
