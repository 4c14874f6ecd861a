import Verif.Model.JsonText
import Verif.Model.JsonRead
import Verif.Props.JsonText
import Mathlib.Data.List.Infix
import Mathlib.Data.List.TakeWhile
/-
Brackets and quotes in JSON texts: the nesting of a text which is a value is closed at its end, and not before.
-/
set_option autoImplicit false
namespace Spex

/-- where in a JSON text: between the tokens, in a string, or in a string behind a backslash -/
inductive Spot where
  | out
  | str
  | esc
  deriving DecidableEq

/-- the number of open brackets and the place after a character -/
def nestStep (s : Int × Spot) (c : Char) : Int × Spot :=
  match s.2 with
  | .out => if c = '"' then (s.1, .str) else if c = '[' ∨ c = '{' then (s.1 + 1, .out) else if c = ']' ∨ c = '}' then (s.1 - 1, .out) else s
  | .str => if c = '"' then (s.1, .out) else if c = '\\' then (s.1, .esc) else s
  | .esc => (s.1, .str)

/-- the number of open brackets and the place after a text -/
def nesting (s : Int × Spot) (t : Str) : Int × Spot := t.foldl nestStep s

theorem nesting_append (s : Int × Spot) (a b : Str) : nesting s (a ++ b) = nesting (nesting s a) b := List.foldl_append

theorem nesting_cons (s : Int × Spot) (c : Char) (t : Str) : nesting s (c :: t) = nesting (nestStep s c) t := rfl

/-- a character which means nothing for the nesting -/
def plainChar (c : Char) : Bool := c ≠ '"' && c ≠ '[' && c ≠ '{' && c ≠ ']' && c ≠ '}'

theorem nestStep_plain {d : Int} {c : Char} (h : plainChar c = true) : nestStep (d, .out) c = (d, .out) := by
  simp only [plainChar, Bool.and_eq_true, decide_eq_true_eq] at h
  obtain ⟨⟨⟨⟨h1, h2⟩, h3⟩, h4⟩, h5⟩ := h
  simp [nestStep, h1, h2, h3, h4, h5]

theorem nesting_plain {d : Int} {t : Str} (h : ∀ c ∈ t, plainChar c = true) : nesting (d, .out) t = (d, .out) := by
  induction t with
  | nil => rfl
  | cons c t ih => rw [nesting_cons, nestStep_plain (h c List.mem_cons_self), ih (fun x hx => h x (List.mem_cons_of_mem _ hx))]

theorem plain_ws {c : Char} (h : jsonWs c = true) : plainChar c = true := by
  simp only [jsonWs, Bool.or_eq_true, decide_eq_true_eq] at h
  rcases h with ((rfl | rfl) | rfl) | rfl <;> decide

theorem plain_digit {c : Char} (h : jsonDigit c = true) : plainChar c = true := by
  simp only [jsonDigit, Bool.and_eq_true, decide_eq_true_eq] at h
  simp only [plainChar, Bool.and_eq_true, decide_eq_true_eq]
  refine ⟨⟨⟨⟨?_, ?_⟩, ?_⟩, ?_⟩, ?_⟩ <;> rintro rfl <;> revert h <;> decide

/-! ### The reader -/

/-- the text read from `s` up to `r` has this effect on the nesting -/
def ReadTo (a b : Int × Spot) (s r : Str) : Prop := ∃ u, s = u ++ r ∧ nesting a u = b

theorem ReadTo.trans {a b c : Int × Spot} {s r q : Str} (h1 : ReadTo a b s r) (h2 : ReadTo b c r q) : ReadTo a c s q := by
  obtain ⟨u, rfl, h1⟩ := h1
  obtain ⟨v, rfl, h2⟩ := h2
  exact ⟨u ++ v, by simp, by rw [nesting_append, h1, h2]⟩

theorem ReadTo.cons {a b : Int × Spot} {c : Char} {s r : Str} (h : ReadTo (nestStep a c) b s r) : ReadTo a b (c :: s) r := by
  obtain ⟨u, rfl, h⟩ := h
  exact ⟨c :: u, rfl, h⟩

theorem readTo_ws (d : Int) (s : Str) : ReadTo (d, .out) (d, .out) s (skipWs s) := by
  refine ⟨s.takeWhile jsonWs, ?_, nesting_plain fun c hc => plain_ws (List.mem_takeWhile_imp hc)⟩
  unfold skipWs
  exact List.takeWhile_append_dropWhile.symm

/-- white space, and then what it is read for -/
theorem ReadTo.ws {d : Int} {b : Int × Spot} {s r t : Str} (hs : skipWs s = t) (h : ReadTo (d, .out) b t r) : ReadTo (d, .out) b s r :=
  (readTo_ws d s).trans (hs ▸ h)

theorem hexVal_inside {c : Char} {n : Nat} (h : hexVal c = some n) (d : Int) : nestStep (d, .str) c = (d, .str) := by
  have h1 : c ≠ '"' := by rintro rfl; revert h; simp [hexVal]
  have h2 : c ≠ '\\' := by rintro rfl; revert h; simp [hexVal]
  simp [nestStep, h1, h2]

theorem hexCode_inside {a b c e : Char} {n : Nat} (h : hexCode a b c e = some n) (d : Int) : nesting (d, .str) [a, b, c, e] = (d, .str) := by
  unfold hexCode at h
  cases h1 : hexVal a with
  | none => rw [h1] at h; simp at h
  | some x =>
    cases h2 : hexVal b with
    | none => rw [h1, h2] at h; simp at h
    | some x =>
      cases h3 : hexVal c with
      | none => rw [h1, h2, h3] at h; simp at h
      | some x =>
        cases h4 : hexVal e with
        | none => rw [h1, h2, h3, h4] at h; simp at h
        | some x =>
          simp [nesting, hexVal_inside h1, hexVal_inside h2, hexVal_inside h3, hexVal_inside h4]

theorem readTo_string (d : Int) (s : Str) : ∀ x r, readString s = some (x, r) → ReadTo (d, .str) (d, .out) s r := by
  induction s using readString.induct with
  | case1 => intro x r h; simp [readString] at h
  | case2 q =>
    intro x r h
    simp only [readString, Option.some.injEq, Prod.mk.injEq] at h
    obtain ⟨-, rfl⟩ := h
    exact ⟨['"'], rfl, rfl⟩
  | case3 a b c e q y hy ih =>
    intro x r h
    rw [readString.eq_def] at h
    simp only [hy, Option.bind_eq_bind, Option.bind_eq_some_iff] at h
    obtain ⟨⟨x', r'⟩, h1, h2⟩ := h
    simp only [Option.some.injEq, Prod.mk.injEq] at h2
    obtain ⟨-, rfl⟩ := h2
    unfold hexChar at hy
    simp only [Option.bind_eq_bind, Option.bind_eq_some_iff] at hy
    obtain ⟨n, hn, -⟩ := hy
    obtain ⟨u, rfl, hu⟩ := ih _ _ h1
    refine ⟨'\\' :: 'u' :: [a, b, c, e] ++ u, rfl, ?_⟩
    rw [nesting_append]
    show nesting (nesting (d, .str) [a, b, c, e]) u = _
    rw [hexCode_inside hn, hu]
  | case4 a b c e hy e1 f g hh q ih =>
    intro x r h
    rw [readString, hy] at h
    simp only [Option.bind_eq_bind, Option.bind_eq_some_iff] at h
    obtain ⟨y, hp, ⟨x', r'⟩, h1, h2⟩ := h
    simp only [Option.some.injEq, Prod.mk.injEq] at h2
    obtain ⟨-, rfl⟩ := h2
    unfold hexPair at hp
    simp only [Option.bind_eq_bind, Option.bind_eq_some_iff] at hp
    obtain ⟨n, hn, m, hm, -⟩ := hp
    obtain ⟨u, rfl, hu⟩ := ih _ _ h1
    refine ⟨'\\' :: 'u' :: [a, b, c, e] ++ ('\\' :: 'u' :: [e1, f, g, hh] ++ u), rfl, ?_⟩
    rw [nesting_append]
    show nesting (nesting (d, .str) [a, b, c, e]) _ = _
    rw [hexCode_inside hn, nesting_append]
    show nesting (nesting (d, .str) [e1, f, g, hh]) u = _
    rw [hexCode_inside hm, hu]
  | case5 a b c e q hy hne =>
    intro x r h
    rw [readString, hy] at h
    · cases h
    · exact hne
  | case6 e q hne ih =>
    intro x r h
    rw [readString] at h
    · simp only [Option.bind_eq_bind, Option.bind_eq_some_iff] at h
      obtain ⟨y, -, ⟨x', r'⟩, h1, h2⟩ := h
      simp only [Option.some.injEq, Prod.mk.injEq] at h2
      obtain ⟨-, rfl⟩ := h2
      obtain ⟨u, rfl, hu⟩ := ih _ _ h1
      exact ⟨'\\' :: e :: u, rfl, hu⟩
    · exact hne
  | case7 c q hq hu hs hor =>
    intro x r h
    rw [readString, if_pos hor] at h
    · cases h
    · exact hq
    · exact hu
    · exact hs
  | case8 c q hq hu hs hor ih =>
    intro x r h
    rw [readString, if_neg hor] at h
    · simp only [Option.bind_eq_bind, Option.bind_eq_some_iff] at h
      obtain ⟨⟨x', r'⟩, h1, h2⟩ := h
      simp only [Option.some.injEq, Prod.mk.injEq] at h2
      obtain ⟨-, rfl⟩ := h2
      have h3 : c ≠ '"' := fun e => hq e
      have h4 : c ≠ '\\' := fun e => hor (.inl e)
      refine ReadTo.cons ?_
      rw [show nestStep (d, .str) c = (d, .str) by simp [nestStep, h3, h4]]
      exact ih _ _ h1
    · exact hq
    · exact hu
    · exact hs


theorem readTo_nat {d : Int} {s r : Str} {n : Nat} (h : readNat s = some (n, r)) : ReadTo (d, .out) (d, .out) s r := by
  unfold readNat at h
  split at h
  · cases h
  · simp only [Option.some.injEq, Prod.mk.injEq] at h
    obtain ⟨-, rfl⟩ := h
    exact ⟨s.takeWhile jsonDigit, List.takeWhile_append_dropWhile.symm, nesting_plain fun c hc => plain_digit (List.mem_takeWhile_imp hc)⟩

theorem readTo_int {d : Int} {s r : Str} {n : Int} (h : readInt s = some (n, r)) : ReadTo (d, .out) (d, .out) s r := by
  unfold readInt at h
  split at h
  · simp only [Option.map_eq_some_iff, Prod.mk.injEq] at h
    obtain ⟨⟨m, q⟩, h1, -, rfl⟩ := h
    exact ReadTo.cons (readTo_nat h1)
  · simp only [Option.map_eq_some_iff, Prod.mk.injEq] at h
    obtain ⟨⟨m, q⟩, h1, -, rfl⟩ := h
    exact readTo_nat h1

theorem readTo_word {d : Int} {w s r : Str} (hw : ∀ c ∈ w, plainChar c = true) (h : readWord w s = some r) :
    ReadTo (d, .out) (d, .out) s r := by
  unfold readWord at h
  split at h
  · rename_i he
    simp only [Option.some.injEq] at h
    subst h
    refine ⟨w, ?_, nesting_plain hw⟩
    conv => lhs; rw [← List.take_append_drop w.length s, he]
  · cases h

/-- what is read as a value, as the further items or entries, or as an entry -/
theorem readTo_value (n : Nat) : ∀ (d : Int) (s r : Str),
    (∀ j, readValue n s = some (j, r) → ReadTo (d, .out) (d, .out) s r) ∧
    (∀ xs, readItems n s = some (xs, r) → ReadTo (d + 1, .out) (d, .out) s r) ∧
    (∀ kv, readPair n s = some (kv, r) → ReadTo (d, .out) (d, .out) s r) ∧
    (∀ kvs, readPairs n s = some (kvs, r) → ReadTo (d + 1, .out) (d, .out) s r) := by
  induction n with
  | zero => intro d s r; simp [readValue, readItems, readPair, readPairs]
  | succ n ih =>
    intro d s r
    refine ⟨?_, ?_, ?_, ?_⟩
    · intro j h
      rw [readValue] at h
      split at h
      · cases h
      · rename_i c q hs
        refine ReadTo.ws hs ?_
        split at h
        · rename_i hc
          subst hc
          simp only [Option.map_eq_some_iff, Prod.mk.injEq] at h
          obtain ⟨⟨x, q'⟩, h1, -, rfl⟩ := h
          exact ReadTo.cons (readTo_string d _ _ _ h1)
        · split at h
          · rename_i hc
            subst hc
            refine ReadTo.cons (b := (d, .out)) (show ReadTo (d + 1, .out) _ _ _ from ?_)
            split at h
            · rename_i q' hq
              simp only [Option.some.injEq, Prod.mk.injEq] at h
              obtain ⟨-, rfl⟩ := h
              exact ReadTo.ws hq (ReadTo.cons (show ReadTo (d + 1 - 1, .out) _ _ _ from ⟨[], rfl, by simp [nesting]⟩))
            · simp only [Option.bind_eq_bind, Option.bind_eq_some_iff] at h
              obtain ⟨⟨x, r1⟩, h1, ⟨xs, r2⟩, h2, h3⟩ := h
              simp only [Option.some.injEq, Prod.mk.injEq] at h3
              obtain ⟨-, rfl⟩ := h3
              exact ReadTo.ws rfl (((ih (d + 1) _ _).1 _ h1).trans ((ih d _ _).2.1 _ h2))
          · split at h
            · rename_i hc
              subst hc
              refine ReadTo.cons (b := (d, .out)) (show ReadTo (d + 1, .out) _ _ _ from ?_)
              split at h
              · rename_i q' hq
                simp only [Option.some.injEq, Prod.mk.injEq] at h
                obtain ⟨-, rfl⟩ := h
                exact ReadTo.ws hq (ReadTo.cons (show ReadTo (d + 1 - 1, .out) _ _ _ from ⟨[], rfl, by simp [nesting]⟩))
              · simp only [Option.bind_eq_bind, Option.bind_eq_some_iff] at h
                obtain ⟨⟨x, r1⟩, h1, ⟨xs, r2⟩, h2, h3⟩ := h
                simp only [Option.some.injEq, Prod.mk.injEq] at h3
                obtain ⟨-, rfl⟩ := h3
                exact ReadTo.ws rfl (((ih (d + 1) _ _).2.2.1 _ h1).trans ((ih d _ _).2.2.2 _ h2))
            · split at h
              · simp only [Option.map_eq_some_iff, Prod.mk.injEq] at h
                obtain ⟨q', h1, -, rfl⟩ := h
                exact readTo_word (by decide) h1
              · split at h
                · simp only [Option.map_eq_some_iff, Prod.mk.injEq] at h
                  obtain ⟨q', h1, -, rfl⟩ := h
                  exact readTo_word (by decide) h1
                · split at h
                  · simp only [Option.map_eq_some_iff, Prod.mk.injEq] at h
                    obtain ⟨q', h1, -, rfl⟩ := h
                    exact readTo_word (by decide) h1
                  · simp only [Option.map_eq_some_iff, Prod.mk.injEq] at h
                    obtain ⟨⟨m, q'⟩, h1, -, rfl⟩ := h
                    exact readTo_int h1
    · intro xs h
      rw [readItems] at h
      split at h
      · rename_i q hs
        simp only [Option.some.injEq, Prod.mk.injEq] at h
        obtain ⟨-, rfl⟩ := h
        exact ReadTo.ws hs (ReadTo.cons (show ReadTo (d + 1 - 1, .out) _ _ _ from ⟨[], rfl, by simp [nesting]⟩))
      · rename_i q hs
        simp only [Option.bind_eq_bind, Option.bind_eq_some_iff] at h
        obtain ⟨⟨x, r1⟩, h1, ⟨xs, r2⟩, h2, h3⟩ := h
        simp only [Option.some.injEq, Prod.mk.injEq] at h3
        obtain ⟨-, rfl⟩ := h3
        exact ReadTo.ws hs (ReadTo.cons (((ih (d + 1) _ _).1 _ h1).trans ((ih d _ _).2.1 _ h2)))
      · cases h
    · intro kv h
      rw [readPair] at h
      split at h
      · rename_i q hs
        simp only [Option.bind_eq_bind, Option.bind_eq_some_iff] at h
        obtain ⟨⟨k, r1⟩, h1, h⟩ := h
        refine ReadTo.ws hs (ReadTo.cons ((readTo_string d _ _ _ h1).trans ?_))
        simp only at h
        split at h
        · rename_i q' hq
          simp only [Option.bind_eq_some_iff] at h
          obtain ⟨⟨v, r3⟩, h2, h3⟩ := h
          simp only [Option.some.injEq, Prod.mk.injEq] at h3
          obtain ⟨-, rfl⟩ := h3
          exact ReadTo.ws hq (ReadTo.cons ((ih d _ _).1 _ h2))
        · cases h
      · cases h
    · intro kvs h
      rw [readPairs] at h
      split at h
      · rename_i q hs
        simp only [Option.some.injEq, Prod.mk.injEq] at h
        obtain ⟨-, rfl⟩ := h
        exact ReadTo.ws hs (ReadTo.cons (show ReadTo (d + 1 - 1, .out) _ _ _ from ⟨[], rfl, by simp [nesting]⟩))
      · rename_i q hs
        simp only [Option.bind_eq_bind, Option.bind_eq_some_iff] at h
        obtain ⟨⟨x, r1⟩, h1, ⟨xs, r2⟩, h2, h3⟩ := h
        simp only [Option.some.injEq, Prod.mk.injEq] at h3
        obtain ⟨-, rfl⟩ := h3
        exact ReadTo.ws hs (ReadTo.cons (((ih (d + 1) _ _).2.2.1 _ h1).trans ((ih d _ _).2.2.2 _ h2)))
      · cases h

/-- the brackets and quotes of a text which is read are closed at its end -/
theorem nesting_of_readJson {s : Str} {j : Json} (h : readJson s = some j) : nesting (0, .out) s = (0, .out) := by
  unfold readJson at h
  split at h
  · rename_i j' r h1
    split at h
    · rename_i he
      obtain ⟨u, rfl, hu⟩ := ((readTo_value _ 0 _ _).1 _ h1).trans (readTo_ws 0 r)
      rw [List.isEmpty_iff.1 he, List.append_nil, hu]
    · cases h
  · cases h

theorem readJson_nil : readJson [] = none := rfl

/-! ### The writer -/

/-- a text which leaves the nesting as it is and does not go below it on the way -/
def Nested (u : Str) : Prop := ∀ d : Int, nesting (d, .out) u = (d, .out) ∧ ∀ p, p <+: u → d ≤ (nesting (d, .out) p).1

theorem Nested.nil : Nested [] := fun d => ⟨rfl, fun p h => by rw [List.prefix_nil.1 h]; exact Int.le_refl d⟩

/-- a prefix of two texts: of the first one, or the first one and a prefix of the second -/
theorem prefix_append_cases {α : Type} {p a b : List α} (h : p <+: a ++ b) : p <+: a ∨ ∃ q, p = a ++ q ∧ q <+: b := by
  rcases List.prefix_or_prefix_of_prefix h (List.prefix_append a b) with h' | ⟨q, rfl⟩
  · exact .inl h'
  · exact .inr ⟨q, rfl, (List.prefix_append_right_inj a).1 h⟩

theorem Nested.append {a b : Str} (ha : Nested a) (hb : Nested b) : Nested (a ++ b) := by
  intro d
  refine ⟨by rw [nesting_append, (ha d).1, (hb d).1], fun p hp => ?_⟩
  rcases prefix_append_cases hp with h | ⟨q, rfl, h⟩
  · exact (ha d).2 p h
  · rw [nesting_append, (ha d).1]
    exact (hb d).2 q h

theorem Nested.plain {u : Str} (h : ∀ c ∈ u, plainChar c = true) : Nested u := by
  intro d
  refine ⟨nesting_plain h, fun p hp => ?_⟩
  rw [nesting_plain fun c hc => h c (hp.subset hc)]
  exact Int.le_refl d

/-- within a string the depth stays -/
theorem nestStep_depth {d : Int} {m : Spot} (hm : m ≠ .out) (c : Char) : (nestStep (d, m) c).1 = d := by
  cases m with
  | out => exact absurd rfl hm
  | esc => rfl
  | str =>
    simp only [nestStep]
    split
    · rfl
    · split <;> rfl

/-- a text inside of a string: it leaves the place as it is and has no end of the string in it -/
def Inside (u : Str) : Prop := ∀ d : Int, nesting (d, .str) u = (d, .str) ∧ ∀ p, p <+: u → (nesting (d, .str) p).1 = d

theorem Inside.nil : Inside [] := fun d => ⟨rfl, fun p h => by rw [List.prefix_nil.1 h]; rfl⟩

theorem Inside.append {a b : Str} (ha : Inside a) (hb : Inside b) : Inside (a ++ b) := by
  intro d
  refine ⟨by rw [nesting_append, (ha d).1, (hb d).1], fun p hp => ?_⟩
  rcases prefix_append_cases hp with h | ⟨q, rfl, h⟩
  · exact (ha d).2 p h
  · rw [nesting_append, (ha d).1]
    exact (hb d).2 q h

theorem Inside.one {c : Char} (h1 : c ≠ '"') (h2 : c ≠ '\\') : Inside [c] := by
  intro d
  have h : nestStep (d, .str) c = (d, .str) := by simp [nestStep, h1, h2]
  refine ⟨h, fun p hp => ?_⟩
  rcases List.prefix_cons_iff.1 hp with rfl | ⟨t, rfl, ht'⟩
  · rfl
  · rw [List.prefix_nil.1 ht', nesting_cons, h]
    rfl

theorem Inside.escaped (c : Char) : Inside ['\\', c] := by
  intro d
  refine ⟨rfl, fun p hp => ?_⟩
  rcases List.prefix_cons_iff.1 hp with rfl | ⟨t, rfl, ht⟩
  · rfl
  · rcases List.prefix_cons_iff.1 ht with rfl | ⟨t', rfl, ht'⟩
    · rfl
    · rw [List.prefix_nil.1 ht']
      rfl

theorem hexDigit_inside {n : Nat} (h : n < 16) : Inside [hexDigit n] := by
  have : ∀ m : Fin 16, hexDigit m.1 ≠ '"' ∧ hexDigit m.1 ≠ '\\' := by decide
  exact Inside.one (this ⟨n, h⟩).1 (this ⟨n, h⟩).2

theorem jsonHex_inside (n : Nat) : Inside (jsonHex n) := by
  have h : ∀ k, Inside [hexDigit (k % 16)] := fun k => hexDigit_inside (Nat.mod_lt _ (by decide))
  exact (Inside.escaped 'u').append ((h _).append ((h _).append ((h _).append (h _))))

theorem jsonEscape_inside (c : Char) : Inside (jsonEscape c) := by
  unfold jsonEscape
  by_cases h1 : c = '"'
  · rw [if_pos h1]; exact Inside.escaped _
  rw [if_neg h1]
  by_cases h2 : c = '\\'
  · rw [if_pos h2]; exact Inside.escaped _
  rw [if_neg h2]
  split
  · exact Inside.escaped _
  split
  · exact Inside.escaped _
  split
  · exact Inside.escaped _
  split
  · exact Inside.escaped _
  split
  · exact Inside.escaped _
  split
  · rename_i h
    exact (((Inside.escaped 'u').append (Inside.one (by decide) (by decide))).append (Inside.one (by decide) (by decide))).append
      ((hexDigit_inside (by omega)).append (hexDigit_inside (Nat.mod_lt _ (by decide))))
  · exact Inside.one h1 h2

theorem jsonEscapeAscii_inside (c : Char) : Inside (jsonEscapeAscii c) := by
  unfold jsonEscapeAscii
  by_cases h1 : c = '"'
  · rw [if_pos h1]; exact Inside.escaped _
  rw [if_neg h1]
  by_cases h2 : c = '\\'
  · rw [if_pos h2]; exact Inside.escaped _
  rw [if_neg h2]
  split
  · exact Inside.escaped _
  split
  · exact Inside.escaped _
  split
  · exact Inside.escaped _
  split
  · exact Inside.escaped _
  split
  · exact Inside.escaped _
  split
  · exact Inside.one h1 h2
  split
  · exact jsonHex_inside _
  · exact (jsonHex_inside _).append (jsonHex_inside _)

theorem Inside.flatMap {f : Char → Str} (hf : ∀ c, Inside (f c)) (s : Str) : Inside (s.flatMap f) := by
  induction s with
  | nil => exact Inside.nil
  | cons c s ih => exact (hf c).append ih

theorem Nested.quoted {u : Str} (h : Inside u) : Nested ('"' :: (u ++ ['"'])) := by
  intro d
  refine ⟨?_, fun p hp => ?_⟩
  · rw [nesting_cons, show nestStep (d, .out) '"' = (d, .str) from rfl, nesting_append, (h d).1]
    rfl
  · rcases List.prefix_cons_iff.1 hp with rfl | ⟨t, rfl, ht⟩
    · exact Int.le_refl d
    · rw [nesting_cons, show nestStep (d, .out) '"' = (d, .str) from rfl]
      rcases prefix_append_cases ht with ht | ⟨q, rfl, hq⟩
      · rw [(h d).2 t ht]
        exact Int.le_refl d
      · rw [nesting_append, (h d).1]
        rcases List.prefix_cons_iff.1 hq with rfl | ⟨t', rfl, ht'⟩
        · exact Int.le_refl d
        · rw [List.prefix_nil.1 ht']
          exact Int.le_refl d

theorem nested_jsonString (s : Str) : Nested (jsonString s) := Nested.quoted (Inside.flatMap jsonEscape_inside s)

theorem nested_jsonStringAscii (s : Str) : Nested (jsonStringAscii s) := Nested.quoted (Inside.flatMap jsonEscapeAscii_inside s)

/-- a text in brackets -/
theorem Nested.bracketed {u : Str} {a b : Char} (hu : Nested u) (ha : a = '[' ∨ a = '{') (hb : b = ']' ∨ b = '}') :
    Nested (a :: (u ++ [b])) ∧ ∀ p, p <+: a :: (u ++ [b]) → p ≠ [] → p ≠ a :: (u ++ [b]) → ∀ d, d < (nesting (d, .out) p).1 := by
  have hopen : ∀ d : Int, nestStep (d, .out) a = (d + 1, .out) := by
    intro d; rcases ha with rfl | rfl <;> rfl
  have hclose : ∀ d : Int, nestStep (d + 1, .out) b = (d, .out) := by
    intro d; rcases hb with rfl | rfl <;> simp [nestStep]
  have hlt : ∀ p, p <+: a :: (u ++ [b]) → p ≠ [] → p ≠ a :: (u ++ [b]) → ∀ d, d < (nesting (d, .out) p).1 := by
    intro p hp hne hne' d
    rcases List.prefix_cons_iff.1 hp with rfl | ⟨t, rfl, ht⟩
    · exact absurd rfl hne
    · rw [nesting_cons, hopen]
      have htu : t <+: u := by
        rcases List.prefix_concat_iff.1 ht with rfl | h
        · exact absurd rfl hne'
        · exact h
      have := (hu (d + 1)).2 t htu
      omega
  have hall : ∀ d : Int, nesting (d, .out) (a :: (u ++ [b])) = (d, .out) := by
    intro d
    rw [nesting_cons, hopen, nesting_append, (hu (d + 1)).1]
    exact hclose d
  refine ⟨fun d => ⟨hall d, fun p hp => ?_⟩, hlt⟩
  by_cases h1 : p = []
  · subst h1; exact Int.le_refl d
  by_cases h2 : p = a :: (u ++ [b])
  · rw [h2, hall]; exact Int.le_refl d
  · exact Int.le_of_lt (hlt p hp h1 h2 d)

theorem nested_jsonIndent (n : Nat) : Nested (jsonIndent n) := by
  refine Nested.plain fun c hc => ?_
  unfold jsonIndent at hc
  rcases List.mem_cons.1 hc with rfl | hc
  · decide
  · rw [(List.mem_replicate.1 hc).2]
    decide

theorem nested_intStr (n : Int) : Nested (intStr n) := by
  have hd : ∀ k, ∀ c ∈ natStr k, plainChar c = true := fun k c h => plain_digit (natDigits_digit _ _ c (List.mem_reverse.1 h))
  refine Nested.plain fun c hc => ?_
  cases n with
  | ofNat n => exact hd n c hc
  | negSucc n =>
    rcases List.mem_cons.1 hc with rfl | hc
    · decide
    · exact hd _ c hc

mutual
theorem nested_jsonDump (level : Nat) : (j : Json) → Nested (jsonDump level j)
  | .null => by rw [jsonDump]; exact Nested.plain (by decide)
  | .bool true => by rw [jsonDump]; exact Nested.plain (by decide)
  | .bool false => by rw [jsonDump]; exact Nested.plain (by decide)
  | .num n => by rw [jsonDump]; exact nested_intStr n
  | .str s => by rw [jsonDump]; exact nested_jsonString s
  | .arr [] => by rw [jsonDump]; exact (Nested.bracketed Nested.nil (.inl rfl) (.inl rfl)).1
  | .arr (x :: xs) => by
    rw [jsonDump]
    have := (Nested.bracketed ((nested_jsonIndent (level + 1)).append ((nested_jsonDump (level + 1) x).append
      ((nested_jsonDumpItems (level + 1) xs).append (nested_jsonIndent level)))) (a := '[') (b := ']') (.inl rfl) (.inl rfl)).1
    simpa only [List.append_assoc] using this
  | .obj [] => by rw [jsonDump]; exact (Nested.bracketed Nested.nil (.inr rfl) (.inr rfl)).1
  | .obj ((k, v) :: kvs) => by
    rw [jsonDump]
    have := (Nested.bracketed ((nested_jsonIndent (level + 1)).append ((nested_jsonString k).append ((Nested.plain (u := c!": ") (by decide)).append
      ((nested_jsonDump (level + 1) v).append
      ((nested_jsonDumpPairs (level + 1) kvs).append (nested_jsonIndent level)))))) (a := '{') (b := '}') (.inr rfl) (.inr rfl)).1
    simpa only [List.append_assoc] using this
theorem nested_jsonDumpItems (level : Nat) : (xs : List Json) → Nested (jsonDumpItems level xs)
  | [] => by rw [jsonDumpItems]; exact Nested.nil
  | x :: xs => by
    rw [jsonDumpItems]
    exact (Nested.plain (u := [',']) (by decide)).append ((nested_jsonIndent level).append ((nested_jsonDump level x).append
      (nested_jsonDumpItems level xs)))
theorem nested_jsonDumpPairs (level : Nat) : (kvs : List (Str × Json)) → Nested (jsonDumpPairs level kvs)
  | [] => by rw [jsonDumpPairs]; exact Nested.nil
  | (k, v) :: kvs => by
    rw [jsonDumpPairs]
    exact (Nested.plain (u := [',']) (by decide)).append ((nested_jsonIndent level).append ((nested_jsonString k).append
      ((Nested.plain (u := c!": ") (by decide)).append ((nested_jsonDump level v).append (nested_jsonDumpPairs level kvs)))))
end

mutual
theorem nested_jsonDumps : (j : Json) → Nested (jsonDumps j)
  | .null => by rw [jsonDumps]; exact Nested.plain (by decide)
  | .bool true => by rw [jsonDumps]; exact Nested.plain (by decide)
  | .bool false => by rw [jsonDumps]; exact Nested.plain (by decide)
  | .num n => by rw [jsonDumps]; exact nested_intStr n
  | .str s => by rw [jsonDumps]; exact nested_jsonStringAscii s
  | .arr [] => by rw [jsonDumps]; exact (Nested.bracketed Nested.nil (.inl rfl) (.inl rfl)).1
  | .arr (x :: xs) => by
    rw [jsonDumps]
    have := (Nested.bracketed ((nested_jsonDumps x).append (nested_jsonDumpsItems xs)) (a := '[') (b := ']') (.inl rfl) (.inl rfl)).1
    simpa only [List.append_assoc] using this
  | .obj [] => by rw [jsonDumps]; exact (Nested.bracketed Nested.nil (.inr rfl) (.inr rfl)).1
  | .obj ((k, v) :: kvs) => by
    rw [jsonDumps]
    have := (Nested.bracketed ((nested_jsonStringAscii k).append ((Nested.plain (u := c!": ") (by decide)).append
      ((nested_jsonDumps v).append (nested_jsonDumpsPairs kvs)))) (a := '{') (b := '}') (.inr rfl) (.inr rfl)).1
    simpa only [List.append_assoc] using this
theorem nested_jsonDumpsItems : (xs : List Json) → Nested (jsonDumpsItems xs)
  | [] => by rw [jsonDumpsItems]; exact Nested.nil
  | x :: xs => by
    rw [jsonDumpsItems]
    exact (Nested.plain (u := [',', ' ']) (by decide)).append ((nested_jsonDumps x).append (nested_jsonDumpsItems xs))
theorem nested_jsonDumpsPairs : (kvs : List (Str × Json)) → Nested (jsonDumpsPairs kvs)
  | [] => by rw [jsonDumpsPairs]; exact Nested.nil
  | (k, v) :: kvs => by
    rw [jsonDumpsPairs]
    exact (Nested.plain (u := [',', ' ']) (by decide)).append ((nested_jsonStringAscii k).append
      ((Nested.plain (u := c!": ") (by decide)).append ((nested_jsonDumps v).append (nested_jsonDumpsPairs kvs))))
end

/-- the text of a list or dictionary is a text in brackets -/
theorem jsonDump_bracketed (level : Nat) {j : Json} (h : (∃ xs, j = .arr xs) ∨ ∃ kvs, j = .obj kvs) :
    ∃ a u b, jsonDump level j = a :: (u ++ [b]) ∧ Nested u ∧ (a = '[' ∨ a = '{') ∧ (b = ']' ∨ b = '}') := by
  rcases h with ⟨xs, rfl⟩ | ⟨kvs, rfl⟩
  · match xs with
    | [] => exact ⟨'[', [], ']', by rw [jsonDump]; rfl, Nested.nil, .inl rfl, .inl rfl⟩
    | x :: xs =>
      refine ⟨'[', jsonIndent (level + 1) ++ (jsonDump (level + 1) x ++ (jsonDumpItems (level + 1) xs ++ jsonIndent level)), ']', ?_, ?_,
        .inl rfl, .inl rfl⟩
      · rw [jsonDump]; simp only [List.append_assoc]
      · exact (nested_jsonIndent _).append ((nested_jsonDump _ x).append ((nested_jsonDumpItems _ xs).append (nested_jsonIndent level)))
  · match kvs with
    | [] => exact ⟨'{', [], '}', by rw [jsonDump]; rfl, Nested.nil, .inr rfl, .inr rfl⟩
    | (k, v) :: kvs =>
      refine ⟨'{', jsonIndent (level + 1) ++ (jsonString k ++ (c!": " ++ (jsonDump (level + 1) v ++ (jsonDumpPairs (level + 1) kvs ++ jsonIndent level)))),
        '}', ?_, ?_, .inr rfl, .inr rfl⟩
      · rw [jsonDump]; simp only [List.append_assoc]
      · exact (nested_jsonIndent _).append ((nested_jsonString k).append ((Nested.plain (u := c!": ") (by decide)).append
          ((nested_jsonDump _ v).append ((nested_jsonDumpPairs _ kvs).append (nested_jsonIndent level)))))

/-- a part of the text of a list or dictionary is not JSON -/
theorem readJson_part {level : Nat} {j : Json} (h : (∃ xs, j = .arr xs) ∨ ∃ kvs, j = .obj kvs) {p : Str} (hp : p <+: jsonDump level j)
    (hne : p ≠ jsonDump level j) : readJson p = none := by
  obtain ⟨a, u, b, e, hu, ha, hb⟩ := jsonDump_bracketed level h
  rw [e] at hp hne
  by_cases h0 : p = []
  · rw [h0]; exact readJson_nil
  · cases hr : readJson p with
    | none => rfl
    | some j' =>
      have h1 := (Nested.bracketed hu ha hb).2 p hp h0 hne 0
      rw [nesting_of_readJson hr] at h1
      exact absurd h1 (Int.lt_irrefl 0)

end Spex
