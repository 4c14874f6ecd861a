import Verif.Props.Events
import Verif.Model.ReportPage
/-
A JSON text in which characters are replaced by `htmlSafe` is read as before.
-/
set_option autoImplicit false
namespace Spex

/-- the characters which are replaced -/
def special (c : Char) : Bool := c = '<' || c = '>' || c = '&' || c = '\''

theorem htmlSafeChar_plain {c : Char} (h : special c = false) : htmlSafeChar c = [c] := by
  simp only [special, Bool.or_eq_false_iff, decide_eq_false_iff_not] at h
  obtain ⟨⟨⟨h1, h2⟩, h3⟩, h4⟩ := h
  simp [htmlSafeChar, h1, h2, h3, h4]

theorem special_cases {c : Char} (h : special c = true) : c = '<' ∨ c = '>' ∨ c = '&' ∨ c = '\'' := by
  simpa [special, or_assoc] using h

theorem htmlSafe_cons {c : Char} (h : special c = false) (s : Str) : htmlSafe (c :: s) = c :: htmlSafe s := by
  rw [htmlSafe, List.flatMap_cons, htmlSafeChar_plain h]; rfl

theorem htmlSafe_append (s t : Str) : htmlSafe (s ++ t) = htmlSafe s ++ htmlSafe t := List.flatMap_append

/-- a replaced character begins with a backslash -/
theorem htmlSafe_special {c : Char} (h : special c = true) (s : Str) : ∃ t, htmlSafe (c :: s) = '\\' :: t := by
  rw [htmlSafe, List.flatMap_cons]
  rcases special_cases h with rfl | rfl | rfl | rfl <;> exact ⟨_, rfl⟩

theorem htmlSafe_plain {s : Str} (h : ∀ c ∈ s, special c = false) : htmlSafe s = s := by
  induction s with
  | nil => rfl
  | cons c s ih => rw [htmlSafe_cons (h c (by simp)), ih fun x hx => h x (by simp [hx])]

theorem dropWhile_htmlSafe {p : Char → Bool} (hs : ∀ c, special c = true → p c = false) (hb : p '\\' = false) (s : Str) :
    (htmlSafe s).dropWhile p = htmlSafe (s.dropWhile p) ∧ (htmlSafe s).takeWhile p = s.takeWhile p := by
  induction s with
  | nil => exact ⟨rfl, rfl⟩
  | cons c s ih =>
    cases hc : special c with
    | false =>
      rw [htmlSafe_cons hc, List.dropWhile_cons, List.dropWhile_cons, List.takeWhile_cons, List.takeWhile_cons]
      cases hp : p c with
      | false => simp [htmlSafe_cons hc]
      | true => simp [ih.1, ih.2]
    | true =>
      obtain ⟨t, ht⟩ := htmlSafe_special hc s
      rw [List.dropWhile_cons, List.takeWhile_cons, hs c hc]
      simp only [Bool.false_eq_true, if_false]
      rw [ht, List.dropWhile_cons, List.takeWhile_cons, hb]
      simp

theorem skipWs_htmlSafe (s : Str) : skipWs (htmlSafe s) = htmlSafe (skipWs s) :=
  (dropWhile_htmlSafe (fun c h => by rcases special_cases h with rfl | rfl | rfl | rfl <;> decide) (by decide) s).1

theorem readNat_htmlSafe {s r : Str} {n : Nat} (h : readNat s = some (n, r)) : readNat (htmlSafe s) = some (n, htmlSafe r) := by
  obtain ⟨h1, h2⟩ := dropWhile_htmlSafe (p := jsonDigit) (fun c h => by rcases special_cases h with rfl | rfl | rfl | rfl <;> decide)
    (by decide) s
  rw [readNat] at h ⊢
  rw [h1, h2]
  split at h
  · cases h
  · rename_i hne
    rw [if_neg hne]
    simp only [Option.some.injEq, Prod.mk.injEq] at h ⊢
    exact ⟨h.1, by rw [h.2]⟩

theorem readInt_htmlSafe {s r : Str} {n : Int} (h : readInt s = some (n, r)) : readInt (htmlSafe s) = some (n, htmlSafe r) := by
  unfold readInt at h
  split at h
  · rename_i q
    simp only [Option.map_eq_some_iff, Prod.mk.injEq] at h
    obtain ⟨⟨m, q'⟩, h1, rfl, rfl⟩ := h
    rw [htmlSafe_cons (by decide), readInt, readNat_htmlSafe h1]; rfl
  · rename_i hne
    simp only [Option.map_eq_some_iff, Prod.mk.injEq] at h
    obtain ⟨⟨m, q'⟩, h1, rfl, rfl⟩ := h
    have h2 := readNat_htmlSafe h1
    cases s with
    | nil => simp [readNat] at h1
    | cons c s =>
      rw [readInt, h2]
      · rfl
      · intro r' hr'
        cases hc : special c with
        | false =>
          rw [htmlSafe_cons hc] at hr'
          injection hr' with e1 e2
          exact hne s (by rw [e1])
        | true =>
          obtain ⟨t, ht⟩ := htmlSafe_special hc s
          rw [ht] at hr'
          injection hr' with e1 e2
          exact absurd e1 (by decide)

theorem readWord_htmlSafe {w s r : Str} (hw : ∀ c ∈ w, special c = false) (h : readWord w s = some r) :
    readWord w (htmlSafe s) = some (htmlSafe r) := by
  unfold readWord at h
  split at h
  · rename_i he
    simp only [Option.some.injEq] at h
    subst h
    have : htmlSafe s = w ++ htmlSafe (s.drop w.length) := by
      conv => lhs; rw [← List.take_append_drop w.length s, he, htmlSafe_append, htmlSafe_plain hw]
    rw [this, readWord, if_pos (by simp)]
    simp
  · cases h

theorem hexVal_plain {c : Char} {n : Nat} (h : hexVal c = some n) : special c = false := by
  cases hc : special c with
  | false => rfl
  | true =>
    rcases special_cases hc with rfl | rfl | rfl | rfl <;> exact absurd h (by simp [hexVal])

theorem hexCode_plain {a b c d : Char} {n : Nat} (h : hexCode a b c d = some n) :
    special a = false ∧ special b = false ∧ special c = false ∧ special d = false := by
  unfold hexCode at h
  simp only [Option.bind_eq_bind, Option.bind_eq_some_iff] at h
  obtain ⟨x, h1, y, h2, z, h3, w, h4, -⟩ := h
  exact ⟨hexVal_plain h1, hexVal_plain h2, hexVal_plain h3, hexVal_plain h4⟩

theorem simpleEscape_plain {c x : Char} (h : simpleEscape c = some x) : special c = false ∧ c ≠ 'u' := by
  constructor
  · cases hc : special c with
    | false => rfl
    | true => rcases special_cases hc with rfl | rfl | rfl | rfl <;> exact absurd h (by simp [simpleEscape])
  · rintro rfl; exact absurd h (by simp [simpleEscape])

theorem readString_htmlSafe (s : Str) : ∀ x r, readString s = some (x, r) → readString (htmlSafe s) = some (x, htmlSafe r) := by
  induction s using readString.induct with
  | case1 => intro x r h; simp [readString] at h
  | case2 q =>
    intro x r h
    simp only [readString, Option.some.injEq, Prod.mk.injEq] at h
    obtain ⟨rfl, rfl⟩ := h
    rw [htmlSafe_cons (by decide), readString]
  | case3 a b c e q y hy ih =>
    intro x r h
    rw [readString.eq_def] at h
    simp only [hy, Option.bind_eq_bind, Option.bind_eq_some_iff] at h
    obtain ⟨⟨x', r'⟩, h1, h2⟩ := h
    simp only [Option.some.injEq, Prod.mk.injEq] at h2
    obtain ⟨rfl, rfl⟩ := h2
    have hy' := hy
    unfold hexChar at hy'
    simp only [Option.bind_eq_bind, Option.bind_eq_some_iff] at hy'
    obtain ⟨n, hn, -⟩ := hy'
    obtain ⟨p1, p2, p3, p4⟩ := hexCode_plain hn
    rw [htmlSafe_cons (by decide), htmlSafe_cons (by decide), htmlSafe_cons p1, htmlSafe_cons p2, htmlSafe_cons p3, htmlSafe_cons p4,
      readString_hex _ hy, ih _ _ h1]
    rfl
  | case4 a b c e hy e1 f g hh q ih =>
    intro x r h
    rw [readString, hy] at h
    simp only [Option.bind_eq_bind, Option.bind_eq_some_iff] at h
    obtain ⟨y, hp, ⟨x', r'⟩, h1, h2⟩ := h
    simp only [Option.some.injEq, Prod.mk.injEq] at h2
    obtain ⟨rfl, rfl⟩ := h2
    have hp' := hp
    unfold hexPair at hp'
    simp only [Option.bind_eq_bind, Option.bind_eq_some_iff] at hp'
    obtain ⟨n, hn, m, hm, -⟩ := hp'
    obtain ⟨p1, p2, p3, p4⟩ := hexCode_plain hn
    obtain ⟨q1, q2, q3, q4⟩ := hexCode_plain hm
    rw [htmlSafe_cons (by decide), htmlSafe_cons (by decide), htmlSafe_cons p1, htmlSafe_cons p2, htmlSafe_cons p3, htmlSafe_cons p4,
      htmlSafe_cons (by decide), htmlSafe_cons (by decide), htmlSafe_cons q1, htmlSafe_cons q2, htmlSafe_cons q3, htmlSafe_cons q4,
      readString_pair _ hy hp, ih _ _ h1]
    rfl
  | case5 a b c e q hy hne =>
    intro x r h
    rw [readString, hy] at h
    · cases h
    · exact hne
  | case6 e q hne ih =>
    intro x r h
    rw [readString] at h
    · simp only [Option.bind_eq_bind, Option.bind_eq_some_iff] at h
      obtain ⟨y, hy, ⟨x', r'⟩, h1, h2⟩ := h
      simp only [Option.some.injEq, Prod.mk.injEq] at h2
      obtain ⟨rfl, rfl⟩ := h2
      obtain ⟨p1, p2⟩ := simpleEscape_plain hy
      rw [htmlSafe_cons (by decide), htmlSafe_cons p1, readString]
      · simp only [hy, Option.bind_eq_bind, Option.bind_some, ih _ _ h1]
      · intro a b c d r' h; exact absurd h p2
    · exact hne
  | case7 c q hq hu hs hor =>
    intro x r h
    rw [readString, if_pos hor] at h
    · cases h
    · exact hq
    · exact hu
    · exact hs
  | case8 c q hq hu hs hor ih =>
    intro x r h
    rw [readString, if_neg hor] at h
    · simp only [Option.bind_eq_bind, Option.bind_eq_some_iff] at h
      obtain ⟨⟨x', r'⟩, h1, h2⟩ := h
      simp only [Option.some.injEq, Prod.mk.injEq] at h2
      obtain ⟨rfl, rfl⟩ := h2
      cases hc : special c with
      | false =>
        rw [htmlSafe_cons hc, readString, if_neg hor]
        · simp only [Option.bind_eq_bind, ih _ _ h1, Option.bind_some]
        · exact hq
        · intro a b c' d r'' e1 _; exact hor (.inl e1)
        · intro e r'' e1 _; exact hor (.inl e1)
      | true =>
        have key : ∀ (k d : Char), hexChar '0' '0' k d = some c → readString ('\\' :: 'u' :: '0' :: '0' :: k :: d :: htmlSafe q) =
            some (c :: x', htmlSafe r') := by
          intro k d hk
          rw [readString_hex _ hk, ih _ _ h1]; rfl
        rw [htmlSafe, List.flatMap_cons]
        rcases special_cases hc with rfl | rfl | rfl | rfl
        · exact key '3' 'c' (by decide)
        · exact key '3' 'e' (by decide)
        · exact key '2' '6' (by decide)
        · exact key '2' '7' (by decide)
    · exact hq
    · exact hu
    · exact hs

/-- a text which does not begin with a certain character still does not -/
theorem htmlSafe_head {x : Char} (hb : x ≠ '\\') {s : Str} (h : ∀ r, s ≠ x :: r) : ∀ r, htmlSafe s ≠ x :: r := by
  intro r hr
  cases s with
  | nil => cases hr
  | cons c s =>
    cases hc : special c with
    | false =>
      rw [htmlSafe_cons hc] at hr
      injection hr with e1 e2
      exact h s (by rw [e1])
    | true =>
      obtain ⟨t, ht⟩ := htmlSafe_special hc s
      rw [ht] at hr
      injection hr with e1 e2
      exact hb e1.symm

/-- a value, the further items or entries, or an entry is read as before -/
theorem readValue_htmlSafe (n : Nat) : ∀ (s r : Str),
    (∀ j, readValue n s = some (j, r) → readValue n (htmlSafe s) = some (j, htmlSafe r)) ∧
    (∀ xs, readItems n s = some (xs, r) → readItems n (htmlSafe s) = some (xs, htmlSafe r)) ∧
    (∀ kv, readPair n s = some (kv, r) → readPair n (htmlSafe s) = some (kv, htmlSafe r)) ∧
    (∀ kvs, readPairs n s = some (kvs, r) → readPairs n (htmlSafe s) = some (kvs, htmlSafe r)) := by
  induction n with
  | zero => intro s r; simp [readValue, readItems, readPair, readPairs]
  | succ n ih =>
    intro s r
    refine ⟨?_, ?_, ?_, ?_⟩
    · intro j h
      rw [readValue] at h ⊢
      rw [skipWs_htmlSafe]
      split at h
      · cases h
      · rename_i c q hs
        have hc : special c = false := by
          cases hc : special c with
          | false => rfl
          | true =>
            exfalso
            rcases special_cases hc with rfl | rfl | rfl | rfl <;>
              simp [readInt, readNat, jsonDigit] at h
        rw [hs, htmlSafe_cons hc]
        simp only
        split at h
        · rename_i hc
          subst hc
          simp only [Option.map_eq_some_iff, Prod.mk.injEq] at h
          obtain ⟨⟨x, q'⟩, h1, rfl, rfl⟩ := h
          rw [if_pos rfl, readString_htmlSafe _ _ _ h1]; rfl
        rename_i c1
        rw [if_neg c1]
        split at h
        · rename_i hc
          subst hc
          rw [if_pos rfl, skipWs_htmlSafe]
          split at h
          · rename_i q' hq
            simp only [Option.some.injEq, Prod.mk.injEq] at h
            obtain ⟨rfl, rfl⟩ := h
            rw [hq, htmlSafe_cons (by decide)]; rfl
          · rename_i hq
            simp only [Option.bind_eq_bind, Option.bind_eq_some_iff] at h
            obtain ⟨⟨x, r1⟩, h1, ⟨xs, r2⟩, h2, h3⟩ := h
            simp only [Option.some.injEq, Prod.mk.injEq] at h3
            obtain ⟨rfl, rfl⟩ := h3
            split
            · rename_i q' hq'
              exact absurd hq' (htmlSafe_head (by decide) hq q')
            · rw [(ih _ _).1 _ h1]
              simp only [Option.bind_eq_bind, Option.bind_some]
              rw [(ih _ _).2.1 _ h2]; rfl
        rename_i c2
        rw [if_neg c2]
        split at h
        · rename_i hc
          subst hc
          rw [if_pos rfl, skipWs_htmlSafe]
          split at h
          · rename_i q' hq
            simp only [Option.some.injEq, Prod.mk.injEq] at h
            obtain ⟨rfl, rfl⟩ := h
            rw [hq, htmlSafe_cons (by decide)]; rfl
          · rename_i hq
            simp only [Option.bind_eq_bind, Option.bind_eq_some_iff] at h
            obtain ⟨⟨x, r1⟩, h1, ⟨xs, r2⟩, h2, h3⟩ := h
            simp only [Option.some.injEq, Prod.mk.injEq] at h3
            obtain ⟨rfl, rfl⟩ := h3
            split
            · rename_i q' hq'
              exact absurd hq' (htmlSafe_head (by decide) hq q')
            · rw [(ih _ _).2.2.1 _ h1]
              simp only [Option.bind_eq_bind, Option.bind_some]
              rw [(ih _ _).2.2.2 _ h2]; rfl
        rename_i c3
        rw [if_neg c3, ← htmlSafe_cons hc]
        split at h
        · rename_i c4
          rw [if_pos c4]
          simp only [Option.map_eq_some_iff, Prod.mk.injEq] at h
          obtain ⟨q', h1, rfl, rfl⟩ := h
          rw [readWord_htmlSafe (by decide) h1]; rfl
        rename_i c4
        rw [if_neg c4]
        split at h
        · rename_i c5
          rw [if_pos c5]
          simp only [Option.map_eq_some_iff, Prod.mk.injEq] at h
          obtain ⟨q', h1, rfl, rfl⟩ := h
          rw [readWord_htmlSafe (by decide) h1]; rfl
        rename_i c5
        rw [if_neg c5]
        split at h
        · rename_i c6
          rw [if_pos c6]
          simp only [Option.map_eq_some_iff, Prod.mk.injEq] at h
          obtain ⟨q', h1, rfl, rfl⟩ := h
          rw [readWord_htmlSafe (by decide) h1]; rfl
        · rename_i c6
          rw [if_neg c6]
          simp only [Option.map_eq_some_iff, Prod.mk.injEq] at h
          obtain ⟨⟨m, q'⟩, h1, rfl, rfl⟩ := h
          rw [readInt_htmlSafe h1]; rfl
    · intro xs h
      rw [readItems] at h ⊢
      rw [skipWs_htmlSafe]
      split at h
      · rename_i q hs
        simp only [Option.some.injEq, Prod.mk.injEq] at h
        obtain ⟨rfl, rfl⟩ := h
        rw [hs, htmlSafe_cons (by decide)]; rfl
      · rename_i q hs
        simp only [Option.bind_eq_bind, Option.bind_eq_some_iff] at h
        obtain ⟨⟨x, r1⟩, h1, ⟨xs, r2⟩, h2, h3⟩ := h
        simp only [Option.some.injEq, Prod.mk.injEq] at h3
        obtain ⟨rfl, rfl⟩ := h3
        rw [hs, htmlSafe_cons (by decide)]
        simp only [(ih _ _).1 _ h1, (ih _ _).2.1 _ h2, Option.bind_eq_bind, Option.bind_some]
      · cases h
    · intro kv h
      rw [readPair] at h ⊢
      rw [skipWs_htmlSafe]
      split at h
      · rename_i q hs
        simp only [Option.bind_eq_bind, Option.bind_eq_some_iff] at h
        obtain ⟨⟨k, r1⟩, h1, h⟩ := h
        rw [hs, htmlSafe_cons (by decide)]
        simp only [readString_htmlSafe _ _ _ h1, Option.bind_eq_bind, Option.bind_some, skipWs_htmlSafe]
        simp only at h
        split at h
        · rename_i q' hq
          simp only [Option.bind_eq_some_iff] at h
          obtain ⟨⟨v, r3⟩, h2, h3⟩ := h
          simp only [Option.some.injEq, Prod.mk.injEq] at h3
          obtain ⟨rfl, rfl⟩ := h3
          rw [hq, htmlSafe_cons (by decide)]
          simp only [(ih _ _).1 _ h2, Option.bind_some]
        · cases h
      · cases h
    · intro kvs h
      rw [readPairs] at h ⊢
      rw [skipWs_htmlSafe]
      split at h
      · rename_i q hs
        simp only [Option.some.injEq, Prod.mk.injEq] at h
        obtain ⟨rfl, rfl⟩ := h
        rw [hs, htmlSafe_cons (by decide)]; rfl
      · rename_i q hs
        simp only [Option.bind_eq_bind, Option.bind_eq_some_iff] at h
        obtain ⟨⟨x, r1⟩, h1, ⟨xs, r2⟩, h2, h3⟩ := h
        simp only [Option.some.injEq, Prod.mk.injEq] at h3
        obtain ⟨rfl, rfl⟩ := h3
        rw [hs, htmlSafe_cons (by decide)]
        simp only [(ih _ _).2.2.1 _ h1, (ih _ _).2.2.2 _ h2, Option.bind_eq_bind, Option.bind_some]
      · cases h

theorem readJson_htmlSafe (j : Json) : readJson (htmlSafe (jsonDumps j)) = some j := by
  have hlen : ∀ s : Str, s.length ≤ (htmlSafe s).length := by
    intro s
    induction s with
    | nil => simp [htmlSafe]
    | cons c s ih =>
      have : 1 ≤ (htmlSafeChar c).length := by
        unfold htmlSafeChar
        split; · decide
        split; · decide
        split; · decide
        split; · decide
        · simp
      rw [htmlSafe] at ih ⊢
      rw [List.flatMap_cons, List.length_append, List.length_cons]
      omega
  have h := readValue_dumps [] (by intro c hc; simp at hc) j ((htmlSafe (jsonDumps j)).length + 1) (by have := hlen (jsonDumps j); omega)
  rw [List.append_nil] at h
  rw [readJson, (readValue_htmlSafe _ _ _).1 _ h]
  rfl

/-! ### What is left of a text -/

theorem htmlSafe_mem {s : Str} {c : Char} (h : c ∈ htmlSafe s) (hs : Printable s) :
    (32 ≤ c.toNat ∧ c.toNat ≤ 126) ∧ special c = false := by
  obtain ⟨x, hx, h⟩ := List.mem_flatMap.1 h
  cases hsp : special x with
  | false =>
    rw [htmlSafeChar_plain hsp, List.mem_singleton] at h
    subst h
    exact ⟨hs _ hx, hsp⟩
  | true =>
    have key : ∀ t : Str, (∀ c ∈ t, (32 ≤ c.toNat ∧ c.toNat ≤ 126) ∧ special c = false) → c ∈ t → (32 ≤ c.toNat ∧ c.toNat ≤ 126) ∧ special c = false :=
      fun t ht hc => ht c hc
    rcases special_cases hsp with rfl | rfl | rfl | rfl <;> exact key _ (by decide) h

end Spex
