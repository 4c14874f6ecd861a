import Verif.Model.Helpers
import Verif.Model.Document
/-
Closed forms of the regular expressions used by the code.
-/
set_option autoImplicit false
namespace Spex

/-- first success of a sequence -/
theorem run_seq_head {a b : Re} {m t : MS} {u : MS} (ha : (a.run m).head? = some t) (hb : (b.run t).head? = some u) :
    ((Re.seq a b).run m).head? = some u := by
  simp only [Re.run]
  cases h : a.run m with
  | nil => simp [h] at ha
  | cons x xs =>
    simp only [h, List.head?_cons, Option.some.injEq] at ha
    subst ha
    rw [List.flatMap_cons]
    cases h2 : b.run x with
    | nil => simp [h2] at hb
    | cons y ys => simp_all

theorem starRuns_head (p : Char → Bool) (b : Bool) (s : Str) (g : List (Nat × Str)) :
    (starRuns p b s g).head? = some ⟨b && (s.takeWhile p).isEmpty, s.dropWhile p, g⟩ := by
  induction s generalizing b with
  | nil => simp [starRuns]
  | cons c s ih =>
    simp only [starRuns]
    split
    · rename_i h
      have := ih false
      rw [List.head?_append, this]
      simp [h]
    · rename_i h
      simp [h]

/-- all successes of `[..]*`: some prefix of characters of the class is consumed -/
theorem mem_starRuns {p : Char → Bool} {b : Bool} {s : Str} {g : List (Nat × Str)} {t : MS} :
    t ∈ starRuns p b s g ↔
      ∃ u, s = u ++ t.rest ∧ (∀ c ∈ u, p c = true) ∧ t.caps = g ∧ t.start = (b && u.isEmpty) := by
  induction s generalizing b with
  | nil =>
    simp only [starRuns, List.mem_singleton]
    constructor
    · rintro rfl
      exact ⟨[], by simp⟩
    · rintro ⟨u, h1, h2, h3, h4⟩
      have hu : u = [] ∧ t.rest = [] := by
        have := h1.symm
        rwa [List.append_eq_nil_iff] at this
      obtain ⟨rfl, hr⟩ := hu
      rcases t with ⟨b', r, g'⟩
      simp only at hr h3 h4
      simp [hr, h3, h4]
  | cons c s ih =>
    simp only [starRuns]
    split
    · rename_i hc
      rw [List.mem_append, ih]
      constructor
      · rintro (⟨u, h1, h2, h3, h4⟩ | h)
        · refine ⟨c :: u, by simp [h1], ?_, h3, by simp [h4]⟩
          intro x hx
          rcases List.mem_cons.mp hx with rfl | hx
          · exact hc
          · exact h2 x hx
        · rw [List.mem_singleton] at h
          subst h
          exact ⟨[], by simp⟩
      · rintro ⟨u, h1, h2, h3, h4⟩
        cases u with
        | nil =>
          right
          cases t
          simp_all
        | cons x u =>
          left
          simp only [List.cons_append, List.cons.injEq] at h1
          exact ⟨u, h1.2, fun y hy => h2 y (List.mem_cons_of_mem _ hy), h3, by simpa using h4⟩
    · rename_i hc
      rw [List.mem_singleton]
      constructor
      · rintro rfl
        exact ⟨[], by simp⟩
      · rintro ⟨u, h1, h2, h3, h4⟩
        cases u with
        | nil => cases t; simp_all
        | cons x u =>
          simp only [List.cons_append, List.cons.injEq] at h1
          have := h2 x (by simp)
          rw [← h1.1] at this
          exact absurd this hc

theorem takeWhile_all {p : Char → Bool} {s : Str} (h : ∀ c ∈ s, p c = true) : s.takeWhile p = s := by
  induction s with
  | nil => rfl
  | cons c s ih =>
    rw [List.takeWhile_cons, if_pos (h c (by simp)), ih (fun x hx => h x (List.mem_cons_of_mem _ hx))]

theorem dropWhile_all {p : Char → Bool} {s : Str} (h : ∀ c ∈ s, p c = true) : s.dropWhile p = [] := by
  induction s with
  | nil => rfl
  | cons c s ih =>
    rw [List.dropWhile_cons, if_pos (h c (by simp)), ih (fun x hx => h x (List.mem_cons_of_mem _ hx))]

theorem dropWhile_append_stop {p : Char → Bool} {u : Str} {c : Char} {s : Str} (hu : ∀ x ∈ u, p x = true) (hc : p c = false) :
    (u ++ c :: s).dropWhile p = c :: s := by
  induction u with
  | nil => simp [hc]
  | cons x u ih =>
    rw [List.cons_append, List.dropWhile_cons, if_pos (hu x (by simp))]
    exact ih (fun y hy => hu y (List.mem_cons_of_mem _ hy))

theorem takeWhile_append_stop {p : Char → Bool} {u : Str} {c : Char} {s : Str} (hu : ∀ x ∈ u, p x = true) (hc : p c = false) :
    (u ++ c :: s).takeWhile p = u := by
  induction u with
  | nil => simp [hc]
  | cons x u ih =>
    rw [List.cons_append, List.takeWhile_cons, if_pos (hu x (by simp))]
    rw [ih (fun y hy => hu y (List.mem_cons_of_mem _ hy))]

/-- for a word of the class followed by something outside the class (or nothing), take and drop split there -/
theorem takeWhile_append_head {p : Char → Bool} {u s : Str} (hu : ∀ x ∈ u, p x = true) (hs : ∀ c ∈ s.head?, p c = false) :
    (u ++ s).takeWhile p = u := by
  cases s with
  | nil => simpa using takeWhile_all hu
  | cons c s => exact takeWhile_append_stop hu (hs c rfl)

theorem dropWhile_append_head {p : Char → Bool} {u s : Str} (hu : ∀ x ∈ u, p x = true) (hs : ∀ c ∈ s.head?, p c = false) :
    (u ++ s).dropWhile p = s := by
  cases s with
  | nil =>
    simp only [List.append_nil]
    exact dropWhile_all hu
  | cons c s => exact dropWhile_append_stop hu (hs c rfl)

theorem plus_head {p : Char → Bool} {m : MS} {c : Char} {s : Str} (h : m.rest = c :: s) (hc : p c = true) :
    ((Re.plus p).run m).head? = some ⟨false, m.rest.dropWhile p, m.caps⟩ := by
  unfold Re.plus
  refine run_seq_head (t := ⟨false, s, m.caps⟩) ?_ ?_
  · simp [Re.run, h, hc]
  · simp only [Re.run]
    rw [starRuns_head]
    simp [h, hc]

theorem plus_none {p : Char → Bool} {m : MS} (h : ∀ c ∈ m.rest.head?, p c = false) : (Re.plus p).run m = [] := by
  unfold Re.plus
  simp only [Re.run]
  cases hr : m.rest with
  | nil => simp
  | cons c s =>
    have := h c (by simp [hr])
    simp [this]

theorem grp_head {n : Nat} {a : Re} {m t : MS} (h : (a.run m).head? = some t) :
    ((Re.grp n a).run m).head? =
      some { t with caps := (n, m.rest.take (m.rest.length - t.rest.length)) :: t.caps } := by
  simp [Re.run, List.head?_map, h]

theorem opt_head_some {a : Re} {m t : MS} (h : (a.run m).head? = some t) : ((Re.opt a).run m).head? = some t := by
  simp [Re.run, List.head?_append, h]

theorem opt_head_none {a : Re} {m : MS} (h : a.run m = []) : ((Re.opt a).run m).head? = some m := by
  simp [Re.run, h]

theorem take_len_dropWhile (p : Char → Bool) (s : Str) : s.take (s.length - (s.dropWhile p).length) = s.takeWhile p := by
  have h := List.takeWhile_append_dropWhile (p := p) (l := s)
  have hl : s.length = (s.takeWhile p).length + (s.dropWhile p).length := by
    rw [← List.length_append, h]
  have : s.length - (s.dropWhile p).length = (s.takeWhile p).length := by omega
  rw [this]
  conv => lhs; arg 2; rw [← h]
  rw [List.take_left']
  rfl

/-- `(?P<n>[..]+)` on a text which starts with a character of the class -/
theorem grp_plus_head {n : Nat} {p : Char → Bool} {m : MS} {c : Char} {s : Str} (h : m.rest = c :: s) (hc : p c = true) :
    ((Re.grp n (Re.plus p)).run m).head? = some ⟨false, m.rest.dropWhile p, (n, m.rest.takeWhile p) :: m.caps⟩ := by
  rw [grp_head (plus_head h hc)]
  simp [take_len_dropWhile]

/-- `(?P<n>[..]*)` -/
theorem grp_star_head {n : Nat} {p : Char → Bool} {m : MS} :
    ((Re.grp n (Re.star p)).run m).head? =
      some ⟨m.start && (m.rest.takeWhile p).isEmpty, m.rest.dropWhile p, (n, m.rest.takeWhile p) :: m.caps⟩ := by
  have : ((Re.star p).run m).head? = some ⟨m.start && (m.rest.takeWhile p).isEmpty, m.rest.dropWhile p, m.caps⟩ := by
    simp only [Re.run]
    exact starRuns_head ..
  rw [grp_head this]
  simp [take_len_dropWhile]

theorem star_head {p : Char → Bool} {m : MS} :
    ((Re.star p).run m).head? = some ⟨m.start && (m.rest.takeWhile p).isEmpty, m.rest.dropWhile p, m.caps⟩ := by
  simp only [Re.run]
  exact starRuns_head ..

/-- drop one given character, if the text starts with it -/
def dropOne (a : Char) (s : Str) : Str := if s.head? = some a then s.tail else s

theorem opt_chr_head (a : Char) (m : MS) : ∃ b, ((Re.opt (Re.chr a)).run m).head? = some ⟨b, dropOne a m.rest, m.caps⟩ := by
  rcases m with ⟨b, r, g⟩
  cases r with
  | nil => exact ⟨b, by simp [Re.run, Re.chr, dropOne]⟩
  | cons c s =>
    by_cases h : c = a
    · exact ⟨false, by simp [Re.run, Re.chr, h, dropOne]⟩
    · exact ⟨b, by simp [Re.run, Re.chr, h, dropOne]⟩

theorem takeWhile_eq_nil {p : Char → Bool} {s : Str} : s.takeWhile p = [] ↔ ∀ c ∈ s.head?, p c = false := by
  cases s with
  | nil => simp
  | cons c s => cases h : p c <;> simp [h]

theorem clsDynamic_colon : clsDynamic ':' = false := by decide

theorem exists_cons_of_takeWhile {p : Char → Bool} {s : Str} (h : s.takeWhile p ≠ []) :
    ∃ c s', s = c :: s' ∧ p c = true := by
  cases s with
  | nil => simp at h
  | cons c s' =>
    refine ⟨c, s', rfl, ?_⟩
    cases hc : p c
    · simp [hc] at h
    · rfl

theorem dropWhile_any (s : Str) : s.dropWhile clsAny = [] := by
  exact dropWhile_all (fun _ _ => rfl)

theorem takeWhile_any (s : Str) : s.takeWhile clsAny = s := by
  exact takeWhile_all (fun _ _ => rfl)

theorem brief_tail_head (b : Bool) (r : Str) (g : List (Nat × Str)) :
    ∃ b', ((Re.seq (.opt (.grp 3 (.plus clsAny))) .eol).run ⟨b, r, g⟩).head? =
      some ⟨b', [], (if r = [] then [] else [(3, r)]) ++ g⟩ := by
  cases r with
  | nil =>
    refine ⟨b, ?_⟩
    refine run_seq_head (t := ⟨b, [], g⟩) ?_ (by simp [Re.run])
    apply opt_head_none
    rw [Re.run, plus_none (by simp)]
    rfl
  | cons c r =>
    refine ⟨false, ?_⟩
    have e := opt_head_some (grp_plus_head (n := 3) (p := clsAny) (m := ⟨b, c :: r, g⟩) rfl rfl)
    simp only [dropWhile_any, takeWhile_any] at e
    refine run_seq_head e (by simp [Re.run])

theorem eol_nonempty_iff (m : MS) : (Re.eol.run m) ≠ [] ↔ (m.rest = [] ∨ m.rest = ['\n']) := by
  simp only [Re.run]
  split <;> simp_all

theorem pmatch_isSome (r : Re) (s : Str) : (r.pmatch s).isSome = true ↔ ∃ t, t ∈ r.run ⟨true, s, []⟩ := by
  unfold Re.pmatch
  cases h : r.run ⟨true, s, []⟩ with
  | nil => simp
  | cons x xs => simp

theorem mem_run_seq {a b : Re} {m t : MS} : t ∈ (Re.seq a b).run m ↔ ∃ u, u ∈ a.run m ∧ t ∈ b.run u := by
  simp [Re.run, List.mem_flatMap]

theorem mem_run_eol {m t : MS} : t ∈ Re.eol.run m ↔ t = m ∧ (m.rest = [] ∨ m.rest = ['\n']) := by
  simp only [Re.run]
  split <;> simp_all

theorem mem_run_cls {p : Char → Bool} {m t : MS} :
    t ∈ (Re.cls p).run m ↔ ∃ c s, m.rest = c :: s ∧ p c = true ∧ t = ⟨false, s, m.caps⟩ := by
  simp only [Re.run]
  cases h : m.rest with
  | nil => simp
  | cons c s =>
    simp only
    split
    · rename_i hc
      constructor
      · intro h
        exact ⟨c, s, rfl, hc, by simpa using h⟩
      · rintro ⟨c', s', h1, -, h2⟩
        simp only [List.cons.injEq] at h1
        simp [h2, h1.2]
    · rename_i hc
      constructor
      · intro h
        simp at h
      · rintro ⟨c', s', h1, h2, -⟩
        simp only [List.cons.injEq] at h1
        rw [← h1.1] at h2
        exact absurd h2 hc

theorem mem_run_star {p : Char → Bool} {m t : MS} : t ∈ (Re.star p).run m ↔
    ∃ u, m.rest = u ++ t.rest ∧ (∀ c ∈ u, p c = true) ∧ t.caps = m.caps ∧ t.start = (m.start && u.isEmpty) := by
  simp only [Re.run]
  exact mem_starRuns

theorem mem_run_alt {a b : Re} {m t : MS} : t ∈ (Re.alt a b).run m ↔ t ∈ a.run m ∨ t ∈ b.run m := by
  simp [Re.run]


section
variable [Uni]

/-! ### RANGE_REGEX -/

/-- Result of matching RANGE_REGEX: the digits of `high`, and the digits of `low` if present. -/
def rangeParts (s : Str) : Option (Str × Option Str) :=
  let d1 := s.takeWhile isDigit
  if d1 = [] then none
  else match (s.dropWhile isDigit).dropWhile isSpace with
    | ':' :: r =>
      let d2 := (r.dropWhile isSpace).takeWhile isDigit
      if d2 = [] then some (d1, none) else some (d1, some d2)
    | _ => some (d1, none)

theorem range_none {s : Str} (h : rangeParts s = none) : reRange.pmatch s = none := by
  have h1 : s.takeWhile isDigit = [] := by
    simp only [rangeParts] at h
    split at h
    · assumption
    · split at h
      · split at h <;> simp at h
      · simp at h
  unfold Re.pmatch reRange
  simp only [Re.seqs]
  rw [Re.run]
  have : (Re.grp 1 (Re.plus isDigit)).run ⟨true, s, []⟩ = [] := by
    rw [Re.run, plus_none (by simpa using takeWhile_eq_nil.mp h1)]
    rfl
  rw [this]
  rfl

theorem range_some {s d1 : Str} {d2 : Option Str} (h : rangeParts s = some (d1, d2)) :
    ∃ m, reRange.pmatch s = some m ∧ group m 1 = some d1 ∧ group m 2 = d2 := by
  simp only [rangeParts] at h
  split at h
  · simp at h
  rename_i hd1
  obtain ⟨c, s', hs, hc⟩ : ∃ c s', s = c :: s' ∧ isDigit c = true := by
    cases s with
    | nil => simp at hd1
    | cons c s' =>
      refine ⟨c, s', rfl, ?_⟩
      cases hc : isDigit c
      · simp [hc] at hd1
      · rfl
  have e1 := grp_plus_head (n := 1) (p := isDigit) (m := ⟨true, s, []⟩) hs hc
  have e2 := star_head (p := isSpace) (m := ⟨false, s.dropWhile isDigit, [(1, s.takeWhile isDigit)]⟩)
  simp only at e1 e2
  unfold Re.pmatch reRange
  simp only [Re.seqs]
  generalize hr : (s.dropWhile isDigit).dropWhile isSpace = r at *
  have key : ∀ (g : List (Nat × Str)) (b : Bool) (rr : Str),
      ((Re.opt (Re.grp 3 ((Re.chr ':').seq ((Re.star isSpace).seq (Re.grp 2 (Re.plus isDigit)))))).run
        ⟨false, r, [(1, s.takeWhile isDigit)]⟩).head? = some ⟨b, rr, g⟩ → 
      (((Re.grp 1 (Re.plus isDigit)).seq
          ((Re.star isSpace).seq
            (Re.opt (Re.grp 3 ((Re.chr ':').seq ((Re.star isSpace).seq (Re.grp 2 (Re.plus isDigit)))))))).run
        ⟨true, s, []⟩).head? = some ⟨b, rr, g⟩ := by
    intro g b rr hg
    exact run_seq_head e1 (run_seq_head e2 hg)
  split at h
  · rename_i r2
    have e3 : ((Re.chr ':').run ⟨false, ':' :: r2, [(1, s.takeWhile isDigit)]⟩).head? =
        some ⟨false, r2, [(1, s.takeWhile isDigit)]⟩ := by simp [Re.run, Re.chr]
    have e4 := star_head (p := isSpace) (m := ⟨false, r2, [(1, s.takeWhile isDigit)]⟩)
    simp only [Bool.false_and] at e4
    split at h
    · -- no low
      rename_i h2
      simp only [Option.some.injEq, Prod.mk.injEq] at h
      obtain ⟨rfl, rfl⟩ := h
      refine ⟨[(1, s.takeWhile isDigit)], ?_, rfl, rfl⟩
      rw [key [(1, s.takeWhile isDigit)] false (':' :: r2) ?_]
      · rfl
      · apply opt_head_none
        -- the group fails on every split of the white space
        rw [Re.run, List.map_eq_nil_iff]
        simp only [Re.run, Re.chr, beq_self_eq_true, if_true, List.flatMap_cons, List.flatMap_nil, List.append_nil,
          List.flatMap_eq_nil_iff, List.map_eq_nil_iff]
        intro t ht
        apply plus_none
        intro c hc
        obtain ⟨u, hu1, hu2, -, -⟩ := mem_starRuns.mp ht
        cases hcd : isDigit c with
        | false => rfl
        | true =>
          exfalso
          have hns : isSpace c = false := by
            cases hsp : isSpace c with
            | false => rfl
            | true =>
              have := Uni.space_not_word c hsp
              rw [Uni.digit_word c hcd] at this
              simp at this
          obtain ⟨rest, hrest⟩ : ∃ rest, t.rest = c :: rest := by
            cases hh : t.rest with
            | nil => simp [hh] at hc
            | cons x xs => simp [hh] at hc; exact ⟨xs, by rw [hc]⟩
          rw [hu1, hrest, dropWhile_append_stop hu2 hns] at h2
          simp [hcd] at h2
    · rename_i h2
      simp only [Option.some.injEq, Prod.mk.injEq] at h
      obtain ⟨rfl, rfl⟩ := h
      obtain ⟨c2, s2, hs2, hc2⟩ : ∃ c s', r2.dropWhile isSpace = c :: s' ∧ isDigit c = true := by
        cases hh : r2.dropWhile isSpace with
        | nil => simp [hh] at h2
        | cons c s' =>
          refine ⟨c, s', rfl, ?_⟩
          cases hc : isDigit c
          · simp [hh, hc] at h2
          · rfl
      have e5 := grp_plus_head (n := 2) (p := isDigit)
        (m := ⟨false, r2.dropWhile isSpace, [(1, s.takeWhile isDigit)]⟩) hs2 hc2
      simp only at e5
      have e6 := opt_head_some (grp_head (n := 3) (run_seq_head e3 (run_seq_head e4 e5)))
      have := key _ _ _ e6
      rw [this]
      exact ⟨_, rfl, rfl, rfl⟩
  · rename_i hne
    simp only [Option.some.injEq, Prod.mk.injEq] at h
    obtain ⟨rfl, rfl⟩ := h
    refine ⟨[(1, s.takeWhile isDigit)], ?_, rfl, rfl⟩
    rw [key [(1, s.takeWhile isDigit)] false r ?_]
    · rfl
    · apply opt_head_none
      rw [Re.run, List.map_eq_nil_iff]
      cases hrr : r with
      | nil => simp [Re.run, Re.chr]
      | cons x xs =>
        have : x ≠ ':' := by
          intro hx
          exact hne xs (by rw [hrr, hx])
        simp [Re.run, Re.chr, this]

/-! ### DYNAMIC_RANGE_REGEX -/

/-- Result of matching DYNAMIC_RANGE_REGEX: the two formulas. -/
def dynParts (s : Str) : Option (Str × Str) :=
  let a := s.takeWhile clsDynamic
  if a = [] then none
  else match s.dropWhile clsDynamic with
    | ':' :: r =>
      let b := r.takeWhile clsDynamic
      if b = [] then none else some (a, b)
    | _ => none

omit [Uni] in
theorem dynamic_some {s a b : Str} (h : dynParts s = some (a, b)) :
    ∃ m, reDynamicRange.pmatch s = some m ∧ group m 1 = some a ∧ group m 2 = some b := by
  simp only [dynParts] at h
  split at h
  · simp at h
  rename_i ha
  split at h
  · rename_i r hr
    split at h
    · simp at h
    rename_i hb
    simp only [Option.some.injEq, Prod.mk.injEq] at h
    obtain ⟨rfl, rfl⟩ := h
    obtain ⟨c, s', hs, hc⟩ := exists_cons_of_takeWhile ha
    obtain ⟨c2, r', hr', hc2⟩ := exists_cons_of_takeWhile hb
    unfold Re.pmatch reDynamicRange
    simp only [Re.seqs]
    have e0 : (Re.bol.run ⟨true, s, []⟩).head? = some ⟨true, s, []⟩ := by simp [Re.run]
    have e1 := grp_plus_head (n := 1) (p := clsDynamic) (m := ⟨true, s, []⟩) hs hc
    simp only [hr] at e1
    have e2 : ((Re.chr ':').run ⟨false, ':' :: r, [(1, s.takeWhile clsDynamic)]⟩).head? =
        some ⟨false, r, [(1, s.takeWhile clsDynamic)]⟩ := by simp [Re.run, Re.chr]
    have e3 := grp_plus_head (n := 2) (p := clsDynamic) (m := ⟨false, r, [(1, s.takeWhile clsDynamic)]⟩) hr' hc2
    rw [run_seq_head e0 (run_seq_head e1 (run_seq_head e2 e3))]
    exact ⟨_, rfl, rfl, rfl⟩
  · simp at h

omit [Uni] in
theorem dynamic_none {s : Str} (h : dynParts s = none) : reDynamicRange.pmatch s = none := by
  unfold Re.pmatch reDynamicRange
  simp only [Re.seqs, Re.run, if_true, List.flatMap_cons, List.flatMap_nil, List.append_nil, Re.plus,
    List.flatMap_map, Option.map_eq_none_iff, List.head?_eq_none_iff]
  rw [List.flatMap_eq_nil_iff]
  intro t ht
  cases s with
  | nil => simp at ht
  | cons c s' =>
    simp only at ht
    split at ht
    rotate_left
    · simp at ht
    rename_i hc
    simp only [List.flatMap_cons, List.flatMap_nil, List.append_nil] at ht
    obtain ⟨u, hu1, hu2, -, -⟩ := mem_starRuns.mp ht
    rcases htr : t.rest with _ | ⟨x, r⟩
    · simp [Re.chr, Re.run]
    · by_cases hx : x = ':'
      · subst hx
        rw [htr] at hu1
        have hd : (c :: s').dropWhile clsDynamic = ':' :: r := by
          rw [hu1, ← List.cons_append]
          exact dropWhile_append_stop (by
            intro y hy
            rcases List.mem_cons.mp hy with rfl | hy
            · exact hc
            · exact hu2 y hy) clsDynamic_colon
        have ht' : (c :: s').takeWhile clsDynamic ≠ [] := by simp [hc]
        simp only [dynParts, ht', if_false, hd] at h
        split at h
        · rename_i h2
          have := takeWhile_eq_nil.mp h2
          simp only [Re.chr, Re.run, beq_self_eq_true, if_true, List.flatMap_cons, List.flatMap_nil, List.append_nil,
            List.map_eq_nil_iff]
          rcases r with _ | ⟨y, r⟩
          · rfl
          · simp [this y (by simp)]
        · simp at h
      · simp [Re.chr, Re.run, hx]

/-! ### STRUCT_LABEL_REGEX and VALUE_LABEL_REGEX -/

/-- label, acronym and brief found by STRUCT_LABEL_REGEX -/
structure LabelParts where
  label : Str
  acronym : Str
  brief : Option Str
  deriving DecidableEq

def structParts (s : Str) : LabelParts :=
  let r1 := dropOne '(' (s.dropWhile clsStructLabel)
  let r2 := dropOne ':' (dropOne ')' (r1.dropWhile clsAcronym))
  ⟨s.takeWhile clsStructLabel, r1.takeWhile clsAcronym, if r2 = [] then none else some r2⟩

theorem structLabel_match (s : Str) :
    ∃ m, reStructLabel.pmatch s = some m ∧ group m 1 = some (structParts s).label ∧
      group m 2 = some (structParts s).acronym ∧ group m 3 = (structParts s).brief := by
  unfold Re.pmatch reStructLabel
  simp only [Re.seqs]
  have e0 : (Re.bol.run ⟨true, s, []⟩).head? = some ⟨true, s, []⟩ := by simp [Re.run]
  have e1 := grp_star_head (n := 1) (p := clsStructLabel) (m := ⟨true, s, []⟩)
  obtain ⟨b2, e2⟩ := opt_chr_head '(' ⟨true && (s.takeWhile clsStructLabel).isEmpty, s.dropWhile clsStructLabel,
    [(1, s.takeWhile clsStructLabel)]⟩
  simp only at e1 e2
  generalize hr1 : dropOne '(' (s.dropWhile clsStructLabel) = r1 at e2
  have e3 := opt_head_some (grp_star_head (n := 2) (p := clsAcronym) (m := ⟨b2, r1, [(1, s.takeWhile clsStructLabel)]⟩))
  simp only at e3
  obtain ⟨b4, e4⟩ := opt_chr_head ')' ⟨b2 && (r1.takeWhile clsAcronym).isEmpty, r1.dropWhile clsAcronym,
    [(2, r1.takeWhile clsAcronym), (1, s.takeWhile clsStructLabel)]⟩
  simp only at e4
  obtain ⟨b5, e5⟩ := opt_chr_head ':' ⟨b4, dropOne ')' (r1.dropWhile clsAcronym),
    [(2, r1.takeWhile clsAcronym), (1, s.takeWhile clsStructLabel)]⟩
  simp only at e5
  obtain ⟨b6, e6⟩ := brief_tail_head b5 (dropOne ':' (dropOne ')' (r1.dropWhile clsAcronym)))
    [(2, r1.takeWhile clsAcronym), (1, s.takeWhile clsStructLabel)]
  rw [run_seq_head e0 (run_seq_head e1 (run_seq_head e2 (run_seq_head e3 (run_seq_head e4 (run_seq_head e5 e6)))))]
  refine ⟨_, rfl, ?_⟩
  simp only [structParts, hr1]
  split <;> simp [group, List.lookup]

/-- VALUE_LABEL_REGEX always matches; the label is the longest prefix of label characters -/
theorem valueLabel_match (s : Str) :
    ∃ m, reValueLabel.pmatch s = some m ∧ group m 1 = some (s.takeWhile clsValueLabel) := by
  unfold Re.pmatch reValueLabel
  simp only [Re.seqs]
  have e0 : (Re.bol.run ⟨true, s, []⟩).head? = some ⟨true, s, []⟩ := by simp [Re.run]
  have e1 := grp_star_head (n := 1) (p := clsValueLabel) (m := ⟨true, s, []⟩)
  simp only at e1
  obtain ⟨b2, e2⟩ := opt_chr_head ':' ⟨true && (s.takeWhile clsValueLabel).isEmpty, s.dropWhile clsValueLabel,
    [(1, s.takeWhile clsValueLabel)]⟩
  simp only at e2
  obtain ⟨b6, e6⟩ := brief_tail_head b2 (dropOne ':' (s.dropWhile clsValueLabel)) [(1, s.takeWhile clsValueLabel)]
  rw [run_seq_head e0 (run_seq_head e1 (run_seq_head e2 e6))]
  refine ⟨_, rfl, ?_⟩
  split <;> simp [group, List.lookup]

/-! ### LABEL_NUMERICAL_REARRANGE_REGEX -/

theorem numRearrange_none {s : Str} (h : s.takeWhile isDigit = []) : reNumRearrange.pmatch s = none := by
  unfold Re.pmatch reNumRearrange
  simp only [Re.seqs]
  rw [Re.run, Re.run, if_pos rfl, List.flatMap_cons, List.flatMap_nil, List.append_nil, Re.run, Re.run,
    plus_none (by simpa using takeWhile_eq_nil.mp h)]
  rfl

theorem numRearrange_some {s : Str} (h : s.takeWhile isDigit ≠ []) :
    ∃ m, reNumRearrange.pmatch s = some m ∧ group m 1 = some (s.takeWhile isDigit) ∧
      group m 2 = some ((s.dropWhile isDigit).takeWhile (· != '\n')) := by
  obtain ⟨c, s', hs, hc⟩ := exists_cons_of_takeWhile h
  unfold Re.pmatch reNumRearrange
  simp only [Re.seqs]
  have e0 : (Re.bol.run ⟨true, s, []⟩).head? = some ⟨true, s, []⟩ := by simp [Re.run]
  have e1 := grp_plus_head (n := 1) (p := isDigit) (m := ⟨true, s, []⟩) hs hc
  have e2 := grp_star_head (n := 2) (p := clsDot) (m := ⟨false, s.dropWhile isDigit, [(1, s.takeWhile isDigit)]⟩)
  simp only at e1 e2
  rw [run_seq_head e0 (run_seq_head e1 e2)]
  exact ⟨_, rfl, rfl, rfl⟩

/-! ### LABEL_VALIDATION_REGEX, ELLIPSIS_LABEL_REGEX -/

theorem labelValidation_iff (s : Str) : (reLabelValidation.pmatch s).isSome = true ↔
    ∃ c w, c.isAlpha = true ∧ (∀ x ∈ w, isWord x = true) ∧ (s = c :: w ∨ s = c :: w ++ ['\n']) := by
  rw [pmatch_isSome]
  unfold reLabelValidation
  simp only [Re.seqs, mem_run_seq, mem_run_eol, mem_run_cls, mem_run_star]
  constructor
  · rintro ⟨t, u, hu, v, ⟨c, s', h1, h2, rfl⟩, w, ⟨x, h3, h4, -, -⟩, rfl, h5⟩
    simp only [Re.run, if_true, List.mem_singleton] at hu
    subst hu
    simp only at h1 h3
    refine ⟨c, x, h2, h4, ?_⟩
    rcases h5 with h5 | h5
    · left; rw [h1, h3, h5]; simp
    · right; rw [h1, h3, h5]; simp
  · rintro ⟨c, w, h1, h2, h3 | h3⟩
    · exact ⟨_, ⟨true, s, []⟩, by simp [Re.run], _, ⟨c, w, h3, h1, rfl⟩, ⟨false && w.isEmpty, [], []⟩, ⟨w, by simp, h2, rfl, rfl⟩, rfl,
        .inl rfl⟩
    · exact ⟨_, ⟨true, s, []⟩, by simp [Re.run], _, ⟨c, w ++ ['\n'], by simpa using h3, h1, rfl⟩,
        ⟨false && w.isEmpty, ['\n'], []⟩, ⟨w, by simp, h2, rfl, rfl⟩, rfl, .inr rfl⟩

omit [Uni] in
theorem ellipsisLabel_iff (s : Str) : (reEllipsisLabel.pmatch s).isSome = true ↔
    (∃ w r, (∀ x ∈ w, isSpace x = true) ∧ s = w ++ '.' :: r) ∨
    (∃ w, (∀ x ∈ w, isSpace x = true) ∧ s = '…' :: w) := by
  rw [pmatch_isSome]
  unfold reEllipsisLabel
  simp only [Re.seqs, mem_run_alt, mem_run_seq, mem_run_eol, mem_run_star, Re.chr, mem_run_cls]
  constructor
  · rintro ⟨t, ⟨u, hu, v, ⟨w, h1, h2, -, -⟩, c, r, h3, h4, rfl⟩ | ⟨u, ⟨c, r, h1, h2, rfl⟩, v, ⟨w, h3, h4, -, -⟩, rfl, h5⟩⟩
    · left
      simp only [Re.run, if_true, List.mem_singleton] at hu
      subst hu
      simp only [beq_iff_eq] at h1 h4
      subst h4
      exact ⟨w, r, h2, by rw [h1, h3]⟩
    · right
      simp only [beq_iff_eq] at h1 h2 h3
      subst h2
      rcases h5 with h5 | h5
      · exact ⟨w, h4, by rw [h1, h3, h5]; simp⟩
      · refine ⟨w ++ ['\n'], ?_, by rw [h1, h3, h5]⟩
        intro x hx
        rcases List.mem_append.mp hx with hx | hx
        · exact h4 x hx
        · rw [List.mem_singleton] at hx
          subst hx
          decide
  · rintro (⟨w, r, h1, rfl⟩ | ⟨w, h1, rfl⟩)
    · exact ⟨_, .inl ⟨⟨true, w ++ '.' :: r, []⟩, by simp [Re.run], ⟨true && w.isEmpty, '.' :: r, []⟩, ⟨w, rfl, h1, rfl, rfl⟩,
        '.', r, rfl, by simp, rfl⟩⟩
    · exact ⟨_, .inr ⟨_, ⟨'…', w, rfl, by simp, rfl⟩, ⟨false && w.isEmpty, [], []⟩, ⟨w, by simp, h1, rfl, rfl⟩, rfl, .inl rfl⟩⟩

end
end Spex
