import Verif.Model.JsonText
import Verif.Model.JsonRead
/-
C61: the JSON text written reads back as the very same value.
-/
set_option autoImplicit false
namespace Spex

/-! ### Strings -/

theorem hexVal_hexDigit (n : Nat) (h : n < 16) : hexVal (hexDigit n) = some n := by
  have : ∀ n : Fin 16, hexVal (hexDigit n) = some n.val := by decide
  exact this ⟨n, h⟩

theorem charOf_toNat (c : Char) : charOf c.toNat = some c := by
  have hv : c.toNat.isValidChar := c.valid
  rw [charOf, dif_pos hv]
  exact congrArg some (Char.ext rfl)

theorem readString_map (o : Option (Str × Str)) (x : Char) :
    (do let (s, r') ← o; some (x :: s, r')) = o.map fun p => (x :: p.1, p.2) := by cases o <;> rfl

theorem readString_hex {a b c d x : Char} (r : Str) (h : hexChar a b c d = some x) :
    readString ('\\' :: 'u' :: a :: b :: c :: d :: r) = (readString r).map fun p => (x :: p.1, p.2) := by
  by_cases hr : ∃ e f g i r1, r = '\\' :: 'u' :: e :: f :: g :: i :: r1
  · obtain ⟨e, f, g, i, r1, rfl⟩ := hr
    rw [readString, h]; exact readString_map _ _
  · rw [readString, h]
    · exact readString_map _ _
    · intro e f g i r1 h'; exact hr ⟨e, f, g, i, r1, h'⟩

theorem readString_pair {a b c d e f g h x : Char} (r : Str) (h0 : hexChar a b c d = none) (hx : hexPair a b c d e f g h = some x) :
    readString ('\\' :: 'u' :: a :: b :: c :: d :: '\\' :: 'u' :: e :: f :: g :: h :: r) = (readString r).map fun p => (x :: p.1, p.2) := by
  rw [readString, h0, hx]; exact readString_map _ _

theorem hexCode_digits {p q s t : Nat} (hp : p < 16) (hq : q < 16) (hs : s < 16) (ht : t < 16) :
    hexCode (hexDigit p) (hexDigit q) (hexDigit s) (hexDigit t) = some (p * 4096 + q * 256 + s * 16 + t) := by
  simp only [hexCode, hexVal_hexDigit _ hp, hexVal_hexDigit _ hq, hexVal_hexDigit _ hs, hexVal_hexDigit _ ht]; rfl

theorem readString_escape (c : Char) (r : Str) : readString (jsonEscape c ++ r) = (readString r).map fun p => (c :: p.1, p.2) := by
  have hg : ∀ (o : Option (Str × Str)) (x : Char), (do let (s, r') ← o; some (x :: s, r')) = o.map fun p => (x :: p.1, p.2) := by
    intro o x; cases o <;> rfl
  unfold jsonEscape
  split
  · next h => subst h; simp [readString, simpleEscape]; exact hg _ _
  split
  · next h => subst h; simp [readString, simpleEscape]; exact hg _ _
  split
  · next h => subst h; simp [readString, simpleEscape]; exact hg _ _
  split
  · next h => subst h; simp [readString, simpleEscape]; exact hg _ _
  split
  · next h => subst h; simp [readString, simpleEscape]; exact hg _ _
  split
  · next h =>
    have : c = Char.ofNat 12 := by rw [← h, Char.ofNat_toNat]
    subst this; simp [readString, simpleEscape]; exact hg _ _
  split
  · next h =>
    have : c = Char.ofNat 8 := by rw [← h, Char.ofNat_toNat]
    subst this; simp [readString, simpleEscape]; exact hg _ _
  split
  · next h =>
    have hx : hexChar '0' '0' (hexDigit (c.toNat / 16)) (hexDigit (c.toNat % 16)) = some c := by
      have hn : 0 * 4096 + 0 * 256 + c.toNat / 16 * 16 + c.toNat % 16 = c.toNat := by omega
      have := hexCode_digits (p := 0) (q := 0) (by decide) (by decide) (show c.toNat / 16 < 16 by omega) (show c.toNat % 16 < 16 by omega)
      rw [hn] at this
      rw [hexChar, show ('0' : Char) = hexDigit 0 from rfl, this]
      exact charOf_toNat c
    exact readString_hex r hx
  · next h1 h2 h3 h4 h5 h6 h7 h8 =>
    rw [List.singleton_append, readString]
    · rw [if_neg (by simp [h2, h8])]; exact hg _ _
    · simpa using h1
    · intro a b c' d r' h; simp_all
    · intro a r' h; simp_all

theorem readString_dump (s r : Str) : readString (s.flatMap jsonEscape ++ '"' :: r) = some (s, r) := by
  induction s with
  | nil => simp [readString]
  | cons c s ih => rw [List.flatMap_cons, List.append_assoc, readString_escape, ih]; rfl

/-! ### Numbers -/

theorem natDigits_digit (f n : Nat) : ∀ c ∈ natDigitsRev f n, jsonDigit c = true := by
  have hc : ∀ a : Nat, a < 10 → jsonDigit (Char.ofNat (48 + a)) = true := by
    have : ∀ a : Fin 10, jsonDigit (Char.ofNat (48 + a)) = true := by decide
    intro a h; exact this ⟨a, h⟩
  induction f generalizing n with
  | zero => simp [natDigitsRev]
  | succ f ih =>
    intro c h
    rw [natDigitsRev] at h
    split at h
    · next hn => rw [List.mem_singleton] at h; rw [h]; exact hc _ hn
    · rcases List.mem_cons.1 h with h | h
      · rw [h]; exact hc _ (Nat.mod_lt _ (by omega))
      · exact ih _ c h

theorem natDigits_value (f n : Nat) (h : n < f) :
    (natDigitsRev f n).foldr (fun c n => 10 * n + (c.toNat - 48)) 0 = n := by
  have hc : ∀ a : Nat, a < 10 → (Char.ofNat (48 + a)).toNat - 48 = a := by
    have : ∀ a : Fin 10, (Char.ofNat (48 + a)).toNat - 48 = a := by decide
    intro a h; exact this ⟨a, h⟩
  induction f generalizing n with
  | zero => omega
  | succ f ih =>
    rw [natDigitsRev]
    split
    · next hn => simp only [List.foldr]; rw [hc _ hn]; omega
    · next hn => rw [List.foldr_cons, ih _ (by omega), hc _ (Nat.mod_lt _ (by omega))]; omega

theorem natDigits_last (f n : Nat) (h : n < f) (h0 : 0 < n) : (natDigitsRev f n).getLast? ≠ some '0' := by
  have hc : ∀ a : Nat, a < 10 → 0 < a → Char.ofNat (48 + a) ≠ '0' := by
    have : ∀ a : Fin 10, 0 < a.val → Char.ofNat (48 + a) ≠ '0' := by decide
    intro a h; exact this ⟨a, h⟩
  induction f generalizing n with
  | zero => omega
  | succ f ih =>
    rw [natDigitsRev]
    split
    · next hn => simpa using hc n hn h0
    · next hn =>
      have h1 := ih (n / 10) (by omega) (by omega)
      cases hd : natDigitsRev f (n / 10) with
      | nil =>
        cases f with
        | zero => omega
        | succ f => rw [natDigitsRev] at hd; split at hd <;> cases hd
      | cons d ds => rw [hd] at h1; rw [List.getLast?_cons_cons]; exact h1

theorem natStr_leadingZero (n : Nat) : leadingZero (natStr n) = false := by
  by_cases h0 : 0 < n
  · have h1 := natDigits_last (n + 1) n (by omega) h0
    rw [← List.head?_reverse] at h1
    change (natStr n).head? ≠ some '0' at h1
    unfold leadingZero
    split
    · next h => rw [h] at h1; exact absurd rfl h1
    · rfl
  · have : n = 0 := by omega
    subst this; decide

/-- the text after a number does not continue it -/
def NoDigit (r : Str) : Prop := ∀ c ∈ r.head?, jsonDigit c = false

theorem readNat_natStr (n : Nat) (r : Str) (hr : NoDigit r) : readNat (natStr n ++ r) = some (n, r) := by
  have hd : ∀ c ∈ natStr n, jsonDigit c = true := fun c h => natDigits_digit _ _ c (List.mem_reverse.1 h)
  have hr1 : r.takeWhile jsonDigit = [] := by
    cases r with
    | nil => rfl
    | cons c r => rw [List.takeWhile_cons, hr c rfl]; rfl
  have hr2 : r.dropWhile jsonDigit = r := by
    cases r with
    | nil => rfl
    | cons c r => rw [List.dropWhile_cons, hr c rfl]; rfl
  have ht : (natStr n ++ r).takeWhile jsonDigit = natStr n := by
    rw [List.takeWhile_append_of_pos hd, hr1, List.append_nil]
  have hdr : (natStr n ++ r).dropWhile jsonDigit = r := by rw [List.dropWhile_append_of_pos hd, hr2]
  have hne : (natStr n).isEmpty = false := by
    rw [natStr, natDigitsRev]; split <;> simp
  rw [readNat, ht, hdr, hne, natStr_leadingZero, natStr, List.foldl_reverse, natDigits_value _ _ (by omega)]
  rfl

theorem natStr_head (n : Nat) : ∃ c s, natStr n = c :: s ∧ jsonDigit c = true := by
  have h : natStr n ≠ [] := by rw [natStr, natDigitsRev]; split <;> simp
  obtain ⟨c, s, hs⟩ := List.exists_cons_of_ne_nil h
  refine ⟨c, s, hs, natDigits_digit (n + 1) n c (List.mem_reverse.1 ?_)⟩
  change c ∈ natStr n; rw [hs]; exact List.mem_cons_self

theorem readInt_intStr (i : Int) (r : Str) (hr : NoDigit r) : readInt (intStr i ++ r) = some (i, r) := by
  cases i with
  | ofNat n =>
    obtain ⟨c, s, hs, hc⟩ := natStr_head n
    have := readNat_natStr n r hr
    rw [intStr]
    rw [hs, List.cons_append] at this ⊢
    rw [readInt, this]
    · rfl
    · intro r' h; simp only [List.cons.injEq] at h; rw [h.1] at hc; revert hc; decide
  | negSucc n =>
    rw [intStr, List.cons_append, readInt, readNat_natStr _ _ hr]; rfl

theorem intStr_head (i : Int) : ∃ c s, intStr i = c :: s ∧ (c = '-' ∨ jsonDigit c = true) := by
  cases i with
  | ofNat n => obtain ⟨c, s, hs, hc⟩ := natStr_head n; exact ⟨c, s, hs, .inr hc⟩
  | negSucc n => exact ⟨'-', _, rfl, .inl rfl⟩

/-! ### Values -/

theorem skipWs_indent (l : Nat) (s : Str) : skipWs (jsonIndent l ++ s) = skipWs s := by
  have : ∀ k, skipWs (List.replicate k ' ' ++ s) = skipWs s := by
    intro k
    induction k with
    | zero => rfl
    | succ k ih =>
      rw [List.replicate_succ, List.cons_append, skipWs, List.dropWhile_cons]
      exact ih
  rw [jsonIndent, List.cons_append, skipWs, List.dropWhile_cons]
  exact this _

theorem skipWs_cons {c : Char} (s : Str) (h : jsonWs c = false) : skipWs (c :: s) = c :: s := by
  rw [skipWs, List.dropWhile_cons, h]; rfl

/-- the text of a value starts with neither whitespace nor a closing bracket -/
theorem jsonDump_head (l : Nat) (j : Json) : ∃ c s, jsonDump l j = c :: s ∧ jsonWs c = false ∧ c ≠ ']' ∧ c ≠ '}' := by
  cases j with
  | null => exact ⟨_, _, rfl, by decide, by decide, by decide⟩
  | bool b => cases b <;> exact ⟨_, _, rfl, by decide, by decide, by decide⟩
  | num n =>
    obtain ⟨c, s, h, hc⟩ := intStr_head n
    refine ⟨c, s, by rw [jsonDump, h], ?_⟩
    have : c ≠ ' ' ∧ c ≠ '\n' ∧ c ≠ '\r' ∧ c ≠ '\t' ∧ c ≠ ']' ∧ c ≠ '}' := by
      refine ⟨?_, ?_, ?_, ?_, ?_, ?_⟩ <;> (rintro rfl; revert hc; decide)
    simp [jsonWs, this]
  | str s => exact ⟨_, _, by rw [jsonDump, jsonString], by decide, by decide, by decide⟩
  | arr xs => cases xs <;> exact ⟨_, _, by rw [jsonDump], by decide, by decide, by decide⟩
  | obj kvs => cases kvs with
    | nil => exact ⟨_, _, by rw [jsonDump], by decide, by decide, by decide⟩
    | cons kv kvs => cases kv; exact ⟨_, _, by rw [jsonDump], by decide, by decide, by decide⟩

theorem noDigit_cons {c : Char} {r : Str} (h : jsonDigit c = false) : NoDigit (c :: r) := by
  intro c' hc; simp only [List.head?_cons, Option.mem_def, Option.some.injEq] at hc; rw [← hc]; exact h

theorem noDigit_indent (l : Nat) (r : Str) : NoDigit (jsonIndent l ++ r) := noDigit_cons (by decide)

theorem noDigit_items (l l' : Nat) (xs : List Json) (r : Str) : NoDigit (jsonDumpItems l xs ++ (jsonIndent l' ++ r)) := by
  cases xs with
  | nil => rw [jsonDumpItems]; exact noDigit_indent _ _
  | cons x xs => rw [jsonDumpItems]; exact noDigit_cons (by decide)

theorem noDigit_pairs (l l' : Nat) (kvs : List (Str × Json)) (r : Str) : NoDigit (jsonDumpPairs l kvs ++ (jsonIndent l' ++ r)) := by
  cases kvs with
  | nil => rw [jsonDumpPairs]; exact noDigit_indent _ _
  | cons kv kvs => cases kv; rw [jsonDumpPairs]; exact noDigit_cons (by decide)

theorem readValue_indent (n l : Nat) (s : Str) : readValue n (jsonIndent l ++ s) = readValue n s := by
  cases n with
  | zero => rw [readValue, readValue]
  | succ n => rw [readValue, readValue, skipWs_indent]

theorem readPair_indent (n l : Nat) (s : Str) : readPair n (jsonIndent l ++ s) = readPair n s := by
  cases n with
  | zero => rw [readPair, readPair]
  | succ n => rw [readPair, readPair, skipWs_indent]

mutual
theorem readValue_dump (l : Nat) (r : Str) (hr : NoDigit r) : ∀ (j : Json) (n : Nat), (jsonDump l j).length < n →
    readValue n (jsonDump l j ++ r) = some (j, r)
  | _, 0, h => by omega
  | .null, n + 1, _ => by
    rw [jsonDump, readValue]; rfl
  | .bool true, n + 1, _ => by rw [jsonDump, readValue]; rfl
  | .bool false, n + 1, _ => by rw [jsonDump, readValue]; rfl
  | .num i, n + 1, _ => by
    obtain ⟨c, s, h, hw, _, _⟩ := jsonDump_head l (.num i)
    obtain ⟨c', s', h', hc⟩ := intStr_head i
    rw [jsonDump] at h ⊢
    have hcc : c' = c := by rw [h] at h'; simp only [List.cons.injEq] at h'; exact h'.1.symm
    subst hcc
    rw [readValue, show intStr i ++ r = c' :: (s ++ r) by rw [h]; rfl, skipWs_cons _ hw]
    have hne : c' ≠ '"' ∧ c' ≠ '[' ∧ c' ≠ '{' ∧ c' ≠ 'n' ∧ c' ≠ 't' ∧ c' ≠ 'f' := by
      refine ⟨?_, ?_, ?_, ?_, ?_, ?_⟩ <;> (rintro rfl; revert hc; decide)
    simp only [hne, if_false]
    rw [← List.cons_append, ← h, readInt_intStr _ _ hr]; rfl
  | .str s, n + 1, _ => by
    rw [jsonDump, readValue, jsonString, List.cons_append, skipWs_cons _ (by decide)]
    simp only [if_true]
    rw [List.append_assoc, List.singleton_append, readString_dump]; rfl
  | .arr [], n + 1, _ => by rw [jsonDump, readValue]; rfl
  | .arr (x :: xs), n + 1, h => by
    rw [jsonDump] at h ⊢
    simp only [List.length_cons, List.length_append] at h
    rw [readValue, List.cons_append, skipWs_cons _ (by decide)]
    simp only [show ('[' : Char) ≠ '"' by decide, if_false, if_true, List.append_assoc, skipWs_indent]
    obtain ⟨c, s, hh, hw, hc, _⟩ := jsonDump_head (l + 1) x
    have hv := readValue_dump (l + 1) (jsonDumpItems (l + 1) xs ++ (jsonIndent l ++ ([']'] ++ r))) (noDigit_items _ _ _ _) x n (by omega)
    rw [hh, List.cons_append] at hv ⊢
    rw [skipWs_cons _ hw]
    split
    · next h' => simp only [List.cons.injEq] at h'; exact absurd h'.1 hc
    · rw [hv]
      simp only [Option.bind_eq_bind, Option.bind_some]
      rw [readItems_dump (l + 1) l r xs n (by omega)]; rfl
  | .obj [], n + 1, _ => by rw [jsonDump, readValue]; rfl
  | .obj ((k, v) :: kvs), n + 1, h => by
    rw [jsonDump] at h ⊢
    simp only [List.length_cons, List.length_append] at h
    rw [readValue, List.cons_append, skipWs_cons _ (by decide)]
    simp only [show ('{' : Char) ≠ '"' by decide, show ('{' : Char) ≠ '[' by decide, if_false, if_true, List.append_assoc, skipWs_indent]
    have hv := readPair_dump (l + 1) (jsonDumpPairs (l + 1) kvs ++ (jsonIndent l ++ (['}'] ++ r))) (noDigit_pairs _ _ _ _) k v n
      (by simp only [List.length_append]; omega)
    rw [jsonString, List.cons_append] at hv ⊢
    rw [skipWs_cons _ (by decide)]
    split
    · next h' => simp only [List.cons.injEq] at h'; exact absurd h'.1 (by decide)
    · rw [hv]
      simp only [Option.bind_eq_bind, Option.bind_some]
      rw [readPairs_dump (l + 1) l r kvs n (by omega)]; rfl
termination_by _ n => n
theorem readItems_dump (l l' : Nat) (r : Str) : ∀ (xs : List Json) (n : Nat), (jsonDumpItems l xs).length < n →
    readItems n (jsonDumpItems l xs ++ (jsonIndent l' ++ ([']'] ++ r))) = some (xs, r)
  | _, 0, h => by omega
  | [], n + 1, _ => by rw [jsonDumpItems, readItems, List.nil_append, skipWs_indent]; rfl
  | x :: xs, n + 1, h => by
    rw [jsonDumpItems] at h ⊢
    simp only [List.length_cons, List.length_append] at h
    rw [readItems, List.cons_append, skipWs_cons _ (by decide)]
    simp only [List.append_assoc, readValue_indent]
    rw [readValue_dump l _ (noDigit_items _ _ _ _) x n (by omega)]
    simp only [Option.bind_eq_bind, Option.bind_some]
    rw [readItems_dump l l' r xs n (by omega)]; rfl
termination_by _ n => n
theorem readPair_dump (l : Nat) (r : Str) (hr : NoDigit r) (k : Str) (v : Json) (n : Nat)
    (h : (jsonString k ++ jsonDump l v).length < n) : readPair n (jsonString k ++ (c!": " ++ (jsonDump l v ++ r))) = some ((k, v), r) := by
  cases n with
  | zero => omega
  | succ n =>
    simp only [List.length_append, jsonString, List.length_cons] at h
    rw [readPair, jsonString, List.cons_append, skipWs_cons _ (by decide), List.append_assoc, List.singleton_append]
    simp only [readString_dump, Option.bind_eq_bind, Option.bind_some]
    have : skipWs (c!": " ++ (jsonDump l v ++ r)) = ':' :: ' ' :: (jsonDump l v ++ r) := by
      rw [List.cons_append, skipWs_cons _ (by decide)]; rfl
    rw [this]
    simp only []
    have hsp : readValue n (' ' :: (jsonDump l v ++ r)) = readValue n (jsonDump l v ++ r) := by
      cases n with
      | zero => rw [readValue, readValue]
      | succ n => rw [readValue, readValue, show skipWs (' ' :: (jsonDump l v ++ r)) = skipWs (jsonDump l v ++ r) by
          rw [skipWs, List.dropWhile_cons]; rfl]
    rw [hsp, readValue_dump l r hr v n (by omega)]; rfl
termination_by n
theorem readPairs_dump (l l' : Nat) (r : Str) : ∀ (kvs : List (Str × Json)) (n : Nat), (jsonDumpPairs l kvs).length < n →
    readPairs n (jsonDumpPairs l kvs ++ (jsonIndent l' ++ (['}'] ++ r))) = some (kvs, r)
  | _, 0, h => by omega
  | [], n + 1, _ => by rw [jsonDumpPairs, readPairs, List.nil_append, skipWs_indent]; rfl
  | (k, v) :: kvs, n + 1, h => by
    rw [jsonDumpPairs] at h ⊢
    simp only [List.length_cons, List.length_append] at h
    rw [readPairs, List.cons_append, skipWs_cons _ (by decide)]
    simp only [List.append_assoc, readPair_indent]
    rw [readPair_dump l _ (noDigit_pairs _ _ _ _) k v n (by simp only [List.length_append]; omega)]
    simp only [Option.bind_eq_bind, Option.bind_some]
    rw [readPairs_dump l l' r kvs n (by omega)]; rfl
termination_by _ n => n
end

/-- **C61** The JSON text written for a value reads back as that value: text is escaped properly, whatever it contains. -/
theorem C61_roundtrip (j : Json) : readJson (jsonDump 0 j) = some j := by
  have := readValue_dump 0 [] (by intro c hc; simp at hc) j ((jsonDump 0 j).length + 1) (by omega)
  rw [List.append_nil] at this
  rw [readJson, this]; rfl

/-- **C61** Different values are never written as the same text. -/
theorem C61_injective (a b : Json) (h : jsonDump 0 a = jsonDump 0 b) : a = b := by
  have := C61_roundtrip a
  rw [h, C61_roundtrip b] at this
  exact (Option.some.inj this).symm

/-- **C61** A text in which a string is embedded has the same line breaks whatever the string is: the strings written contain no
raw control characters. -/
theorem C61_no_control (s : Str) (c : Char) (h : c ∈ jsonString s) : 32 ≤ c.toNat := by
  rw [jsonString, List.mem_cons, List.mem_append, List.mem_singleton] at h
  rcases h with rfl | h | rfl
  · decide
  · obtain ⟨x, _, hx⟩ := List.mem_flatMap.1 h
    have hhex : ∀ n, n < 16 → 32 ≤ (hexDigit n).toNat := by
      have : ∀ n : Fin 16, 32 ≤ (hexDigit n).toNat := by decide
      intro n h; exact this ⟨n, h⟩
    unfold jsonEscape at hx
    split at hx; · simp only [List.mem_cons, List.not_mem_nil, or_false] at hx; rcases hx with rfl | rfl <;> decide
    split at hx; · simp only [List.mem_cons, List.not_mem_nil, or_false] at hx; rcases hx with rfl | rfl <;> decide
    split at hx; · simp only [List.mem_cons, List.not_mem_nil, or_false] at hx; rcases hx with rfl | rfl <;> decide
    split at hx; · simp only [List.mem_cons, List.not_mem_nil, or_false] at hx; rcases hx with rfl | rfl <;> decide
    split at hx; · simp only [List.mem_cons, List.not_mem_nil, or_false] at hx; rcases hx with rfl | rfl <;> decide
    split at hx; · simp only [List.mem_cons, List.not_mem_nil, or_false] at hx; rcases hx with rfl | rfl <;> decide
    split at hx; · simp only [List.mem_cons, List.not_mem_nil, or_false] at hx; rcases hx with rfl | rfl <;> decide
    split at hx
    · next h8 =>
      simp only [List.mem_append, List.mem_cons, List.not_mem_nil, or_false] at hx
      rcases hx with (rfl | rfl | rfl | rfl) | rfl | rfl
      · decide
      · decide
      · decide
      · decide
      · exact hhex _ (by omega)
      · exact hhex _ (by omega)
    · rw [List.mem_singleton] at hx; subst hx; omega
  · decide

/-- quotes, backslashes, line breaks and control characters inside nested lists and objects -/
example : readJson c!"{\"a\\u0001\\\\\" : [ -12 , {} , \"\\\"\\n\" ]}" =
    some (.obj [([ 'a', Char.ofNat 1, '\\'], .arr [.num (-12), .obj [], .str ['"', '\n']])]) := by rfl
example : jsonDump 0 (.obj [(c!"k\"", .arr [.num 10, .str c!"a\nb"]), (c!"e", .arr [])]) =
    c!"{\n  \"k\\\"\": [\n    10,\n    \"a\\nb\"\n  ],\n  \"e\": []\n}" := by rfl

end Spex
