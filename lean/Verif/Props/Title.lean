import Verif.Lemmas.FigId
import Verif.Model.Ascii
import Mathlib.Data.List.TakeWhile
import Mathlib.Tactic.ByContra
/-
C62: which tables of a document are figures, their ids, and what belongs to their bodies.
-/
set_option autoImplicit false
namespace Spex

/-- **C62** The figure id of a title: the characters other than blanks, carets and colons which follow `Figure` and at least one
blank, as many as there are. -/
theorem C62_figure_id (title fid : Str) :
    figureId title = some fid ↔
      ∃ blanks rest, title = c!"Figure" ++ blanks ++ fid ++ rest ∧ blanks ≠ [] ∧ (∀ c ∈ blanks, isSpace c = true) ∧
        fid ≠ [] ∧ (∀ c ∈ fid, isSpace c = false ∧ c ≠ '^' ∧ c ≠ ':') ∧
        (∀ c r, rest = c :: r → isSpace c = true ∨ c = '^' ∨ c = ':') := by
  rw [figureId_eq]
  have hcls : ∀ c, clsFigId c = true ↔ isSpace c = false ∧ c ≠ '^' ∧ c ≠ ':' := by
    intro c; simp [clsFigId, and_assoc]
  constructor
  · intro h
    unfold figIdParts at h
    split at h
    · rename_i hp
      simp only at h
      split at h
      · simp at h
      · rename_i hb
        split at h
        · simp at h
        · rename_i hi
          injection h with h
          obtain ⟨r, rfl⟩ := hp
          have hd : (c!"Figure" ++ r).drop 6 = r := rfl
          rw [hd] at hb hi h
          refine ⟨r.takeWhile isSpace, (r.dropWhile isSpace).dropWhile clsFigId, ?_, hb, ?_, ?_, ?_, ?_⟩
          · rw [← h, List.append_assoc, List.takeWhile_append_dropWhile, List.append_assoc, List.takeWhile_append_dropWhile]
          · intro c hc; exact List.mem_takeWhile_imp hc
          · rw [← h]; exact hi
          · intro c hc; rw [← h] at hc; exact (hcls c).1 (List.mem_takeWhile_imp hc)
          · intro c r' hr
            have := List.head?_dropWhile_not clsFigId (r.dropWhile isSpace)
            rw [hr] at this
            simp only [List.head?_cons] at this
            by_contra hne
            simp only [not_or] at hne
            rw [(hcls c).2 ⟨by simpa using hne.1, hne.2⟩] at this
            simp at this
    · simp at h
  · rintro ⟨blanks, rest, rfl, hb, hbs, hf, hfs, hr⟩
    unfold figIdParts
    have hd : (c!"Figure" ++ blanks ++ fid ++ rest).drop 6 = blanks ++ (fid ++ rest) := by simp
    obtain ⟨f, fs, rfl⟩ := List.exists_cons_of_ne_nil hf
    have ht : (blanks ++ (f :: fs ++ rest)).takeWhile isSpace = blanks := by
      rw [List.takeWhile_append_of_pos hbs, List.cons_append, List.takeWhile_cons_of_neg (by simp [(hfs f (by simp)).1]), List.append_nil]
    have hdw : (blanks ++ (f :: fs ++ rest)).dropWhile isSpace = f :: fs ++ rest := by
      rw [List.dropWhile_append_of_pos hbs, List.cons_append, List.dropWhile_cons_of_neg (by simp [(hfs f (by simp)).1])]
    have hi : (f :: fs ++ rest).takeWhile clsFigId = f :: fs := by
      rw [List.takeWhile_append_of_pos (fun c hc => (hcls c).2 (hfs c hc))]
      cases rest with
      | nil => simp
      | cons c r =>
        rw [List.takeWhile_cons_of_neg, List.append_nil]
        rw [hcls]
        rcases hr c r rfl with h | h | h <;> simp [h]
    rw [if_pos ⟨blanks ++ (f :: fs) ++ rest, by simp⟩]
    simp only
    rw [hd, ht, if_neg hb, hdw, hi, if_neg (by simp)]

/-- **C62** A title without `Figure` is none; otherwise it is the text of the first row without blanks around it. -/
theorem C62_title (tr : Node) (title : Str) :
    figureTitle tr = some title ↔ title = strip tr.flat ∧ ∃ a b, title = a ++ c!"Figure" ++ b := by
  have hi : ∀ p s : Str, isInfix p s = true ↔ ∃ a b, s = a ++ p ++ b := by
    intro p s
    induction s with
    | nil =>
      simp only [isInfix, List.isPrefixOf_iff_prefix, List.prefix_nil]
      constructor
      · rintro rfl; exact ⟨[], [], rfl⟩
      · rintro ⟨a, b, h⟩
        have := h.symm
        simp only [List.append_eq_nil_iff] at this
        exact this.1.2
    | cons c s ih =>
      rw [isInfix, Bool.or_eq_true, ih, List.isPrefixOf_iff_prefix]
      constructor
      · rintro (⟨b, h⟩ | ⟨a, b, h⟩)
        · exact ⟨[], b, by rw [← h]; rfl⟩
        · exact ⟨c :: a, b, by rw [h]; rfl⟩
      · rintro ⟨a, b, h⟩
        cases a with
        | nil => exact .inl ⟨b, by rw [h]; rfl⟩
        | cons x a => injection h with h1 h2; exact .inr ⟨a, b, h2⟩
  unfold figureTitle
  by_cases h : isInfix c!"Figure" tr.toText = true
  · rw [if_pos h]
    constructor
    · intro e; injection e with e; subst e; exact ⟨rfl, (hi _ _).1 h⟩
    · rintro ⟨rfl, -⟩; rfl
  · rw [if_neg h]
    constructor
    · intro e; simp at e
    · rintro ⟨rfl, h'⟩; exact absurd ((hi _ _).2 h') h

theorem first_filter {p : Node → Bool} {ks : List Node} {x : Node} :
    (ks.filter p)[1 - 1]? = some x ↔ p x = true ∧ ∃ pre post, ks = pre ++ x :: post ∧ ∀ n ∈ pre, p n = false := by
  rw [show (ks.filter p)[1 - 1]? = (ks.filter p).head? from List.head?_eq_getElem?.symm, List.head?_filter, List.find?_eq_some_iff_append]
  simp

theorem hasTag_elem {t : Str} {n : Node} : n.hasTag t = true ↔ ∃ as ks, n = .elem t as ks := by
  cases n with
  | text s => simp [Node.hasTag]
  | elem t' as ks => simp [Node.hasTag]

/-- **C62** The body of a figure is its table without the first row; all else is kept in order. -/
theorem C62_body (tag : Str) (as : List (Str × Str)) (pre post : List Node) (ras : List (Str × Str)) (rks : List Node)
    (h : ∀ n ∈ pre, n.hasTag c!"tr" = false) :
    removeFirstTr (.elem tag as (pre ++ .elem c!"tr" ras rks :: post)) = .elem tag as (pre ++ post) := by
  rw [removeFirstTr, List.eraseP_append_right _ (by simpa using h)]
  rfl

/-- **C62** A table whose first cell starts with a table stands for that table; text before it does not matter. -/
theorem C62_wrapped (tag : Str) (as ras das : List (Str × Str)) (pre post rpre rpost dpre dpost : List Node) (inner : Node)
    (h1 : ∀ n ∈ pre, n.hasTag c!"tr" = false) (h2 : ∀ n ∈ rpre, n.hasTag c!"td" = false) (h3 : ∀ n ∈ dpre, n.isElem = false)
    (h4 : inner.hasTag c!"table" = true) :
    unwrapTable (.elem tag as (pre ++ .elem c!"tr" ras (rpre ++ .elem c!"td" das (dpre ++ inner :: dpost) :: rpost) :: post)) = inner := by
  have e1 : ((Node.elem tag as (pre ++ .elem c!"tr" ras (rpre ++ .elem c!"td" das (dpre ++ inner :: dpost) :: rpost) :: post)).nthChild tTr 1) =
      some (.elem c!"tr" ras (rpre ++ .elem c!"td" das (dpre ++ inner :: dpost) :: rpost)) :=
    first_filter.2 ⟨rfl, pre, post, rfl, h1⟩
  have e2 : ((Node.elem c!"tr" ras (rpre ++ .elem c!"td" das (dpre ++ inner :: dpost) :: rpost)).nthChild tTd 1) =
      some (.elem c!"td" das (dpre ++ inner :: dpost)) :=
    first_filter.2 ⟨rfl, rpre, rpost, rfl, h2⟩
  have e3 : (Node.elem c!"td" das (dpre ++ inner :: dpost)).elems.head? = some inner := by
    rw [List.head?_eq_getElem?]
    refine first_filter.2 ⟨?_, dpre, dpost, rfl, h3⟩
    obtain ⟨as, ks, rfl⟩ := hasTag_elem.1 h4
    rfl
  rw [unwrapTable, e1, Option.bind_some, e2, Option.bind_some, e3]
  simp only
  rw [if_pos h4]

/-- **C62** Any other table stands for itself. -/
theorem C62_not_wrapped (tbl : Node) (h : unwrapTable tbl ≠ tbl) :
    ∃ tag as ras das pre post rpre rpost dpre dpost inner,
      tbl = .elem tag as (pre ++ .elem c!"tr" ras (rpre ++ .elem c!"td" das (dpre ++ inner :: dpost) :: rpost) :: post) ∧
      (∀ n ∈ pre, n.hasTag c!"tr" = false) ∧ (∀ n ∈ rpre, n.hasTag c!"td" = false) ∧ (∀ n ∈ dpre, n.isElem = false) ∧
      inner.hasTag c!"table" = true ∧ unwrapTable tbl = inner := by
  rw [unwrapTable] at h
  obtain e1 | ⟨tr, e1⟩ := Option.eq_none_or_eq_some (tbl.nthChild tTr 1)
  · rw [e1] at h; exact absurd rfl h
  rw [e1, Option.bind_some] at h
  obtain e2 | ⟨td, e2⟩ := Option.eq_none_or_eq_some (tr.nthChild tTd 1)
  · rw [e2] at h; exact absurd rfl h
  rw [e2, Option.bind_some] at h
  obtain e3 | ⟨inner, e3⟩ := Option.eq_none_or_eq_some td.elems.head?
  · rw [e3] at h; exact absurd rfl h
  rw [e3] at h
  simp only at h
  by_cases h4 : inner.hasTag tTable = true
  rotate_left
  · rw [if_neg h4] at h; exact absurd rfl h
  obtain ⟨t1, pre, post, k1, h1⟩ := first_filter.1 e1
  obtain ⟨t2, rpre, rpost, k2, h2⟩ := first_filter.1 e2
  rw [List.head?_eq_getElem?] at e3
  obtain ⟨t3, dpre, dpost, k3, h3⟩ := first_filter.1 e3
  obtain ⟨ras, rks, rfl⟩ := hasTag_elem.1 t1
  obtain ⟨das, dks, rfl⟩ := hasTag_elem.1 t2
  cases tbl with
  | text s => simp [Node.kids] at k1
  | elem tag as ks =>
    simp only [Node.kids] at k1 k2 k3
    subst k1; subst k2; subst k3
    exact ⟨tag, as, ras, das, pre, post, rpre, rpost, dpre, dpost, inner, rfl, h1, h2, h3, h4,
      C62_wrapped tag as ras das pre post rpre rpost dpre dpost inner h1 h2 h3 h4⟩

/-- **C62** The tables of a document: those in its body, in order. -/
theorem C62_tables (root : Node) :
    figures root = root.kids.flatMap fun b => if b.hasTag c!"body" then b.kids.filter (Node.hasTag c!"table") else [] := by
  rw [figures, Node.childs]
  generalize root.kids = ks
  induction ks with
  | nil => rfl
  | cons k ks ih =>
    rw [List.filter_cons, List.flatMap_cons, ← ih]
    cases h : k.hasTag c!"body" <;> simp [Node.childs, tTable]

example : figureId c!"Figure  12_a: Command" = some c!"12_a" ∧ figureId c!"See Figure 3" = none ∧ figureId c!"Figure3" = none := by
  decide +kernel

/-- a wrapped table with a title row after some text -/
example : unwrapTable (.elem c!"table" [] [.text c!" ", .elem c!"tr" [] [.elem c!"td" [] [.text c!" ", .elem c!"table" [] []]]]) =
    .elem c!"table" [] [] :=
  C62_wrapped c!"table" [] [] [] [.text c!" "] [] [] [] [.text c!" "] [] (.elem c!"table" [] []) (by simp [Node.hasTag]) (by simp)
    (by simp [Node.isElem]) rfl

end Spex
