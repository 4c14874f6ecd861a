import Verif.Model.Grid
import Verif.Model.WordParse
import Verif.Lemmas.Figure
import Verif.Lemmas.Str
import Mathlib.Data.List.TakeWhile
import Mathlib.Data.Nat.Digits.Lemmas
/-
C96: which texts of a document count as whole numbers, which number each of them is, and how whole numbers are written.
-/
set_option autoImplicit false
namespace Spex
variable [Uni]

/-! ### Specification -/

/-- decimal digits of any script, most significant first, single underscores between them allowed -/
inductive DigitRun : Str → List Nat → Prop
  | last {c : Char} {d : Nat} : digit c = some d → DigitRun [c] [d]
  | next {c : Char} {d : Nat} {s : Str} {ds : List Nat} : digit c = some d → DigitRun s ds → DigitRun (c :: s) (d :: ds)
  | under {c : Char} {d : Nat} {s : Str} {ds : List Nat} : digit c = some d → DigitRun s ds → DigitRun (c :: '_' :: s) (d :: ds)

/-- white space which may stand around a number: all but the four ASCII separators of files, groups, records and units -/
def NumberBlank (s : Str) : Prop := ∀ c ∈ s, isSpace c = true ∧ ¬ (0x1c ≤ c.toNat ∧ c.toNat ≤ 0x1f)

/-- the text is a whole number: at most one sign and at most 4300 digits, nothing but white space around -/
def WholeNumber (s : Str) (i : Int) : Prop :=
  ∃ (before sign body behind : Str) (ds : List Nat), s = before ++ (sign ++ body) ++ behind ∧ NumberBlank before ∧ NumberBlank behind ∧
    DigitRun body ds ∧ ds.length ≤ 4300 ∧
    ((sign = [] ∨ sign = ['+']) ∧ i = (Nat.ofDigits 10 ds.reverse : Nat) ∨ sign = ['-'] ∧ i = - ((Nat.ofDigits 10 ds.reverse : Nat) : Int))

/-- the entry for the key after which there is no other for it -/
def LastEntry {α : Type} (entries : List (Int × α)) (key : Int) (v : α) : Prop :=
  ∃ before after, entries = before ++ (key, v) :: after ∧ ∀ e ∈ after, e.1 ≠ key

/-! ### Proof -/

/-- value of the digits read so far, continued -/
def valFrom (acc : Nat) (ds : List Nat) : Nat := ds.foldl (fun a d => a * 10 + d) acc

omit [Uni] in
theorem valFrom_ofDigits (ds : List Nat) (acc : Nat) : valFrom acc ds = acc * 10 ^ ds.length + Nat.ofDigits 10 ds.reverse := by
  induction ds generalizing acc with
  | nil => simp [valFrom]
  | cons d ds ih =>
    have := ih (acc * 10 + d)
    rw [valFrom, List.foldl_cons, ← valFrom, this, List.reverse_cons, Nat.ofDigits_append, List.length_reverse, List.length_cons]
    simp only [Nat.ofDigits_singleton, Nat.pow_succ]
    ring_nf

theorem intDigits_run {s : Str} {ds : List Nat} (h : DigitRun s ds) (acc n : Nat) (prev : Bool) :
    intDigits acc n prev s = .ok (valFrom acc ds, n + ds.length) := by
  induction h generalizing acc n prev with
  | last hd => simp [intDigits, hd, valFrom]
  | next hd _ ih =>
    rw [intDigits, hd]
    simp only
    rw [ih]
    simp only [valFrom, List.foldl_cons, List.length_cons]
    rw [Nat.add_right_comm, Nat.add_assoc]
  | under hd _ ih =>
    have hu : digit '_' = none := by rw [Uni.digit_ascii '_' (by decide)]; rfl
    rw [intDigits, hd]
    simp only
    rw [intDigits, hu]
    simp only [and_self, if_true]
    rw [ih]
    simp only [valFrom, List.foldl_cons, List.length_cons]
    rw [Nat.add_right_comm, Nat.add_assoc]

/-- what the digits left over are, when the last character was a digit, or was none -/
theorem run_of_intDigits (s : Str) : ∀ (acc n v m : Nat),
    (intDigits acc n false s = .ok (v, m) → ∃ ds, DigitRun s ds ∧ v = valFrom acc ds ∧ m = n + ds.length) ∧
    (intDigits acc n true s = .ok (v, m) → s = [] ∧ v = acc ∧ m = n ∨
      ∃ t ds, (s = t ∨ s = '_' :: t) ∧ DigitRun t ds ∧ v = valFrom acc ds ∧ m = n + ds.length) := by
  induction s with
  | nil =>
    intro acc n v m
    refine ⟨fun h => ?_, fun h => .inl ?_⟩
    · simp [intDigits] at h
    · simp only [intDigits, if_true, Except.ok.injEq, Prod.mk.injEq] at h
      exact ⟨rfl, h.1.symm, h.2.symm⟩
  | cons c s ih =>
    have step : ∀ (acc n v m d : Nat), digit c = some d → intDigits (acc * 10 + d) (n + 1) true s = .ok (v, m) →
        ∃ ds, DigitRun (c :: s) ds ∧ v = valFrom acc ds ∧ m = n + ds.length := by
      intro acc n v m d hd h
      rcases (ih _ _ v m).2 h with ⟨rfl, h1, h2⟩ | ⟨t, ds, ht, hr, h1, h2⟩
      · exact ⟨[d], .last hd, by rw [h1]; rfl, by rw [h2]; rfl⟩
      · refine ⟨d :: ds, ?_, by rw [h1]; rfl, by rw [h2, List.length_cons]; omega⟩
        rcases ht with rfl | rfl
        · exact .next hd hr
        · exact .under hd hr
    intro acc n v m
    constructor
    · intro h
      rw [intDigits] at h
      cases hd : digit c with
      | some d => rw [hd] at h; exact step acc n v m d hd h
      | none => rw [hd] at h; simp at h
    · intro h
      rw [intDigits] at h
      cases hd : digit c with
      | some d =>
        rw [hd] at h
        obtain ⟨ds, h1, h2⟩ := step acc n v m d hd h
        exact .inr ⟨_, ds, .inl rfl, h1, h2⟩
      | none =>
        rw [hd] at h
        simp only [and_true] at h
        by_cases hu : c = '_'
        · rw [if_pos hu] at h
          obtain ⟨ds, h1, h2⟩ := (ih _ _ v m).1 h
          exact .inr ⟨s, ds, .inr (by rw [hu]), h1, h2⟩
        · rw [if_neg hu] at h; cases h

theorem intUnsigned_iff (s : Str) (v : Nat) : intUnsigned s = .ok v ↔
    ∃ ds, DigitRun s ds ∧ ds.length ≤ 4300 ∧ v = Nat.ofDigits 10 ds.reverse := by
  have hv : ∀ ds : List Nat, valFrom 0 ds = Nat.ofDigits 10 ds.reverse := fun ds => by rw [valFrom_ofDigits]; simp
  unfold intUnsigned
  constructor
  · intro h
    rcases hi : intDigits 0 0 false s with e | ⟨w, m⟩
    · rw [hi] at h; cases h
    · rw [hi] at h
      obtain ⟨ds, h1, h2, h3⟩ := (run_of_intDigits s 0 0 w m).1 hi
      simp only at h
      by_cases hm : m > maxStrDigits
      · rw [if_pos hm] at h; cases h
      · rw [if_neg hm] at h
        cases h
        unfold maxStrDigits at hm
        exact ⟨ds, h1, by omega, by rw [h2, hv]⟩
  · rintro ⟨ds, h1, h2, rfl⟩
    rw [intDigits_run h1]
    simp only
    rw [if_neg (by unfold maxStrDigits; omega), hv]

omit [Uni] in
theorem isIntSpace_iff (c : Char) : isIntSpace c = true ↔ isSpace c = true ∧ ¬ (0x1c ≤ c.toNat ∧ c.toNat ≤ 0x1f) := by
  unfold isIntSpace
  rw [Bool.and_eq_true]
  refine and_congr_right fun _ => ?_
  rw [Bool.not_eq_true', ← Bool.not_eq_true, List.contains_iff_mem]
  simp only [List.mem_cons, List.not_mem_nil, or_false]
  omega

omit [Uni] in
theorem stripBy_parts (p : Char → Bool) (s : Str) : ∃ l r, s = l ++ stripBy p s ++ r ∧ (∀ x ∈ l, p x = true) ∧ (∀ x ∈ r, p x = true) := by
  refine ⟨s.takeWhile p, (((s.dropWhile p).reverse).takeWhile p).reverse, ?_, ?_, ?_⟩
  · unfold stripBy rstripBy lstripBy
    rw [List.append_assoc, ← List.reverse_append, List.takeWhile_append_dropWhile, List.reverse_reverse,
      List.takeWhile_append_dropWhile]
  · intro x hx; exact (List.mem_takeWhile_imp hx)
  · intro x hx; exact (List.mem_takeWhile_imp (List.mem_reverse.1 hx))

omit [Uni] in
theorem stripBy_core {p : Char → Bool} (l core r : Str) (hl : ∀ x ∈ l, p x = true) (hr : ∀ x ∈ r, p x = true)
    (hc : ∀ x ∈ core, p x = false) (hne : core ≠ []) : stripBy p (l ++ core ++ r) = core := by
  obtain ⟨a, core', rfl⟩ := List.exists_cons_of_ne_nil hne
  have ha := hc a (by simp)
  unfold stripBy rstripBy lstripBy
  rw [List.append_assoc, List.dropWhile_append_of_pos hl, List.cons_append, List.dropWhile_cons_of_neg (by simp [ha]),
    ← List.cons_append, List.reverse_append, List.dropWhile_append_of_pos (fun x hx => hr x (List.mem_reverse.1 hx))]
  rw [show ((a :: core').reverse.dropWhile p) = (a :: core').reverse from ?_, List.reverse_reverse]
  cases h : (a :: core').reverse with
  | nil => rfl
  | cons b bs =>
    have : b ∈ a :: core' := List.mem_reverse.1 (by rw [h]; simp)
    rw [List.dropWhile_cons_of_neg (by simp [hc b this])]

theorem DigitRun.chars {s : Str} {ds : List Nat} (h : DigitRun s ds) : ∀ c ∈ s, isDigit c = true ∨ c = '_' := by
  induction h with
  | last hd => intro c hc; rw [List.mem_singleton] at hc; subst hc; left; simp [isDigit, hd]
  | next hd _ ih =>
    intro c hc
    rcases List.mem_cons.1 hc with rfl | hc
    · left; simp [isDigit, hd]
    · exact ih c hc
  | under hd _ ih =>
    intro c hc
    rcases List.mem_cons.1 hc with rfl | hc
    · left; simp [isDigit, hd]
    · rcases List.mem_cons.1 hc with rfl | hc
      · exact .inr rfl
      · exact ih c hc

theorem DigitRun.head {s : Str} {ds : List Nat} (h : DigitRun s ds) : ∃ c t, s = c :: t ∧ isDigit c = true := by
  cases h with
  | last hd => exact ⟨_, _, rfl, by simp [isDigit, hd]⟩
  | next hd _ => exact ⟨_, _, rfl, by simp [isDigit, hd]⟩
  | under hd _ => exact ⟨_, _, rfl, by simp [isDigit, hd]⟩

/-- C96: **which texts are numbers.** The value is that of the digits, in base ten. -/
theorem C96_number (s : Str) (i : Int) : pyInt s = .ok i ↔ WholeNumber s i := by
  have blank : ∀ t : Str, NumberBlank t ↔ ∀ c ∈ t, isIntSpace c = true := fun t => by
    unfold NumberBlank; simp only [isIntSpace_iff]
  constructor
  · intro h
    obtain ⟨l, r, hs, hl, hr⟩ := stripBy_parts isIntSpace s
    unfold pyInt at h
    have done : ∀ (sign body : Str) (f : Nat → Int), stripBy isIntSpace s = sign ++ body → (intUnsigned body).map f = .ok i →
        (∀ n : Nat, (sign = [] ∨ sign = ['+']) ∧ f n = n ∨ sign = ['-'] ∧ f n = - (n : Int)) → WholeNumber s i := by
      intro sign body f h1 h2 h3
      cases hu : intUnsigned body with
      | error e => rw [hu] at h2; cases h2
      | ok v =>
        rw [hu] at h2
        injection h2 with h2
        obtain ⟨ds, h4, h5, h6⟩ := (intUnsigned_iff body v).1 hu
        refine ⟨l, sign, body, r, ds, by rw [← h1]; exact hs, (blank l).2 hl, (blank r).2 hr, h4, h5, ?_⟩
        rw [← h6, ← h2]
        exact h3 v
    split at h
    · rename_i t ht; exact done ['+'] t Int.ofNat ht h (fun n => .inl ⟨.inr rfl, rfl⟩)
    · rename_i t ht; exact done ['-'] t _ ht h (fun n => .inr ⟨rfl, rfl⟩)
    · exact done [] _ Int.ofNat rfl h (fun n => .inl ⟨.inl rfl, rfl⟩)
  · rintro ⟨before, sign, body, behind, ds, rfl, hb, hh, hr, hlen, hi⟩
    have hne : sign ++ body ≠ [] := by
      obtain ⟨c, t, rfl, -⟩ := hr.head; simp
    have hcore : ∀ c ∈ sign ++ body, isIntSpace c = false := by
      intro c hc
      have hp : isSpace '+' = false := by decide
      have hm : isSpace '-' = false := by decide
      have hu : isSpace '_' = false := by decide
      have : isSpace c = false := by
        rcases List.mem_append.1 hc with hc | hc
        · rcases hi with ⟨rfl | rfl, -⟩ | ⟨rfl, -⟩
          · cases hc
          · rw [List.mem_singleton] at hc; subst hc; exact hp
          · rw [List.mem_singleton] at hc; subst hc; exact hm
        · rcases hr.chars c hc with hd | rfl
          · exact isDigit_not_space hd
          · exact hu
      unfold isIntSpace
      rw [this]; rfl
    have hst := stripBy_core before (sign ++ body) behind ((blank _).1 hb) ((blank _).1 hh) hcore hne
    have hu : intUnsigned body = .ok (Nat.ofDigits 10 ds.reverse) := (intUnsigned_iff _ _).2 ⟨ds, hr, hlen, rfl⟩
    unfold pyInt
    rw [hst]
    rcases hi with ⟨rfl | rfl, rfl⟩ | ⟨rfl, rfl⟩
    · obtain ⟨c, t, hct, hd⟩ := hr.head
      rw [List.nil_append]
      split
      · injection hct with h1 _
        rw [← h1] at hd
        simp [isDigit, not_digit_plus] at hd
      · injection hct with h1 _
        rw [← h1] at hd
        simp [isDigit, not_digit_minus] at hd
      · rw [hu]; rfl
    · change (intUnsigned body).map Int.ofNat = _
      rw [hu]; rfl
    · change (intUnsigned body).map (fun n => - Int.ofNat n) = _
      rw [hu]; rfl

/-- C96: every other text is a `ValueError`, and no other error is possible. -/
theorem C96_not_a_number (s : Str) : pyInt s = .error .valueError ↔ ∀ i, ¬ WholeNumber s i := by
  constructor
  · intro h i hw
    rw [(C96_number s i).2 hw] at h
    cases h
  · intro h
    cases hp : pyInt s with
    | ok i => exact absurd ((C96_number s i).1 hp) (h i)
    | error e => rw [pyInt_err s e hp]

/-- C96: a text is at most one number. -/
theorem C96_unique {s : Str} {i j : Int} (hi : WholeNumber s i) (hj : WholeNumber s j) : i = j := by
  rw [← C96_number] at hi hj
  rw [hi] at hj
  exact Except.ok.inj hj

omit [Uni] in
/-- C96: of several entries for the same number the last one counts. -/
theorem intDict_iff {α : Type} (entries : List (Int × α)) (key : Int) (v : α) : intDict entries key = some v ↔ LastEntry entries key v := by
  unfold intDict LastEntry
  constructor
  · intro h
    rw [List.lookup_eq_some_iff] at h
    obtain ⟨l₁, l₂, h1, h2⟩ := h
    refine ⟨l₂.reverse, l₁.reverse, ?_, ?_⟩
    · have := congrArg List.reverse h1
      simpa using this
    · intro e he heq
      have := h2 e (List.mem_reverse.1 he)
      simp [heq] at this
  · rintro ⟨before, after, rfl, h⟩
    rw [List.lookup_eq_some_iff]
    refine ⟨after.reverse, before.reverse, by simp, ?_⟩
    intro e he
    have := h e (List.mem_reverse.1 he)
    simpa using fun h' => this h'.symm

/-- C96: **the cells of tables.** How many columns and rows a cell of an HTML table spans: one without the attribute, otherwise the
number of the attribute; a text which is no number is a `ValueError`. The same for the columns of a cell of a Word document. -/
theorem C96_spans (td tc : Node) (n : Int) :
    (colspan td = .ok n ↔ td.attr? c!"colspan" = none ∧ n = 1 ∨ ∃ s, td.attr? c!"colspan" = some s ∧ WholeNumber s n) ∧
    (rowspan td = .ok n ↔ td.attr? c!"rowspan" = none ∧ n = 1 ∨ ∃ s, td.attr? c!"rowspan" = some s ∧ WholeNumber s n) ∧
    (tcGridSpan tc = .ok n ↔ tc.attrFirst [c!"w:tcPr", c!"w:gridSpan"] c!"w:val" = none ∧ n = 1 ∨
      ∃ s, tc.attrFirst [c!"w:tcPr", c!"w:gridSpan"] c!"w:val" = some s ∧ WholeNumber s n) := by
  have key : ∀ o : Option Str, (match o with | none => Except.ok 1 | some v => pyInt v) = .ok n ↔
      o = none ∧ n = 1 ∨ ∃ s, o = some s ∧ WholeNumber s n := by
    intro o
    cases o with
    | none =>
      constructor
      · intro h; cases h; exact .inl ⟨rfl, rfl⟩
      · rintro (⟨-, rfl⟩ | ⟨s, h, -⟩)
        · rfl
        · cases h
    | some v =>
      constructor
      · intro h; exact .inr ⟨v, rfl, (C96_number v n).1 h⟩
      · rintro (⟨h, -⟩ | ⟨s, h, hw⟩)
        · cases h
        · cases h; exact (C96_number v n).2 hw
  refine ⟨key (td.attr? c!"colspan"), key (td.attr? c!"rowspan"), ?_⟩
  have h3 := key (tc.attrFirst [c!"w:tcPr", c!"w:gridSpan"] c!"w:val")
  unfold tcGridSpan
  change (match tc.attrFirst [c!"w:tcPr", c!"w:gridSpan"] c!"w:val" with | some v => pyInt v | none => Except.ok 1) = .ok n ↔ _
  cases ho : tc.attrFirst [c!"w:tcPr", c!"w:gridSpan"] c!"w:val" with
  | none => rw [ho] at h3; exact h3
  | some v => rw [ho] at h3; exact h3

omit [Uni] in
/-- the digits as the code has them, from the last to the first -/
theorem natDigitsRev_digits (f n : Nat) (h : n < f) (h0 : 0 < n) :
    natDigitsRev f n = (Nat.digits 10 n).map Nat.digitChar := by
  have hc : ∀ a : Nat, a < 10 → Char.ofNat (48 + a) = Nat.digitChar a := by
    have : ∀ a : Fin 10, Char.ofNat (48 + a) = Nat.digitChar a := by decide
    intro a h; exact this ⟨a, h⟩
  induction f generalizing n with
  | zero => omega
  | succ f ih =>
    rw [natDigitsRev, Nat.digits_def' (by omega) h0]
    by_cases h10 : n < 10
    · rw [if_pos h10, hc n h10, Nat.mod_eq_of_lt h10, Nat.div_eq_of_lt h10]
      simp
    · rw [if_neg h10, hc _ (Nat.mod_lt _ (by omega)), ih _ (by omega) (by omega)]
      simp

omit [Uni] in
/-- C96: **how numbers are written** in texts and in reports: a minus sign if the number is negative, the decimal digits, no leading
zeros. -/
theorem C96_written (i : Int) : intStr i = (if i < 0 then ['-'] else []) ++ (if i = 0 then ['0'] else ((Nat.digits 10 i.natAbs).reverse.map Nat.digitChar)) := by
  cases i with
  | ofNat n =>
    rw [if_neg (by simp), List.nil_append]
    by_cases h : n = 0
    · subst h; rfl
    · rw [if_neg (by simpa using h), intStr, natStr, natDigitsRev_digits _ _ (by omega) (by omega), List.map_reverse]; rfl
  | negSucc n =>
    rw [if_pos (by omega), if_neg (by omega), intStr, natStr, natDigitsRev_digits _ _ (by omega) (by omega), List.map_reverse]; rfl

/-- C96: **a number which was written is read as the same number**, as long as it has no more than 4300 digits. -/
theorem C96_read_back (i : Int) (h : i.natAbs < 10 ^ 4300) : WholeNumber (intStr i) i := by
  have hd : ∀ a : Nat, a < 10 → digit (Nat.digitChar a) = some a := by
    intro a ha
    have h1 : ∀ a : Fin 10, (Nat.digitChar a).toNat < 128 ∧ (if (Nat.digitChar a).isDigit then some ((Nat.digitChar a).toNat - 48) else none) = some a.val := by
      decide
    obtain ⟨h2, h3⟩ := h1 ⟨a, ha⟩
    rw [Uni.digit_ascii _ h2]; exact h3
  have run : ∀ ds : List Nat, ds ≠ [] → (∀ d ∈ ds, d < 10) → DigitRun (ds.map Nat.digitChar) ds := by
    intro ds
    induction ds with
    | nil => intro h; exact absurd rfl h
    | cons d ds ih =>
      intro _ hl
      cases ds with
      | nil => exact .last (hd d (hl d (by simp)))
      | cons e es => exact .next (hd d (hl d (by simp))) (ih (by simp) (fun x hx => hl x (by simp [hx])))
  have nil : NumberBlank [] := by intro c hc; cases hc
  rw [C96_written]
  by_cases h0 : i = 0
  · subst h0
    exact ⟨[], [], ['0'], [], [0], rfl, nil, nil, .last (hd 0 (by omega)), by decide, .inl ⟨.inl rfl, rfl⟩⟩
  · have hn : i.natAbs ≠ 0 := by omega
    rw [if_neg h0]
    refine ⟨[], if i < 0 then ['-'] else [], (Nat.digits 10 i.natAbs).reverse.map Nat.digitChar, [], (Nat.digits 10 i.natAbs).reverse,
      by simp, nil, nil, run _ (by rw [ne_eq, List.reverse_eq_nil_iff]; exact Nat.digits_ne_nil_iff_ne_zero.2 hn) (fun d hm => Nat.digits_lt_base (by omega) (List.mem_reverse.1 hm)), ?_, ?_⟩
    · rw [List.length_reverse]
      exact (Nat.digits_length_le_iff (by omega) _).2 h
    · rw [List.reverse_reverse, Nat.ofDigits_digits]
      by_cases hneg : i < 0
      · rw [if_pos hneg]; exact .inr ⟨rfl, by omega⟩
      · rw [if_neg hneg]; exact .inl ⟨.inl rfl, by omega⟩

/-- " +1_0" with a no-break space is the number ten, in a cell over ten columns; "1__0", "1 0", "ten" and the empty text are none -/
example : letI := Uni.ascii
    WholeNumber (Char.ofNat 0xa0 :: c!"+1_0") 10 ∧ WholeNumber c!" -007\n" (-7) ∧
    (∀ s ∈ [c!"1__0", c!"_1", c!"1_", c!"1 0", c!"+-1", c!"ten", c!"", c!"+", [Char.ofNat 0x1f, '1']], ∀ i, ¬ WholeNumber s i) ∧
    colspan (.elem c!"td" [(c!"colspan", Char.ofNat 0xa0 :: c!"+1_0")] []) = .ok 10 := by
  let _ := Uni.ascii
  refine ⟨(C96_number _ _).1 (by decide +kernel), (C96_number _ _).1 (by decide +kernel), ?_, by decide +kernel⟩
  intro s hs
  rw [← C96_not_a_number]
  revert s
  decide +kernel

/-- the number -120 is written "-120" -/
example : intStr (-120) = c!"-120" := by rw [C96_written]; norm_num

end Spex
