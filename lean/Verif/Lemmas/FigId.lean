import Verif.Model.Document
import Verif.Lemmas.Regex
/-
Closed form of the figure id of a title.
-/
set_option autoImplicit false
namespace Spex

/-- the class of characters of a figure id -/
def clsFigId (c : Char) : Bool := !isSpace c && c != '^' && c != ':'

/-- the figure id of a title -/
def figIdParts (s : Str) : Option Str :=
  if c!"Figure" <+: s then
    let r := s.drop 6
    if r.takeWhile isSpace = [] then none
    else
      let i := (r.dropWhile isSpace).takeWhile clsFigId
      if i = [] then none else some i
  else none

theorem run_lit {p : Str} (hp : p ≠ []) (b : Bool) (s : Str) (g : List (Nat × Str)) :
    (Re.lit p).run ⟨b, s, g⟩ = if p <+: s then [⟨false, s.drop p.length, g⟩] else [] := by
  induction p generalizing b s with
  | nil => exact absurd rfl hp
  | cons c p ih =>
    cases p with
    | nil =>
      cases s with
      | nil => simp [Re.lit, Re.seqs, Re.chr, Re.run]
      | cons d s =>
        simp only [Re.lit, List.map_cons, List.map_nil, Re.seqs, Re.chr, Re.run, beq_iff_eq, List.cons_prefix_cons, List.nil_prefix,
          and_true, List.length_cons, List.length_nil, Nat.zero_add, List.drop_succ_cons, List.drop_zero]
        by_cases h : d = c
        · simp [h]
        · simp [h, Ne.symm h]
    | cons c' p =>
      have e : (Re.lit (c :: c' :: p)).run ⟨b, s, g⟩ = ((Re.chr c).run ⟨b, s, g⟩).flatMap (Re.lit (c' :: p)).run := rfl
      rw [e]
      cases s with
      | nil => simp [Re.chr, Re.run]
      | cons d s =>
        simp only [Re.chr, Re.run, beq_iff_eq]
        by_cases h : d = c
        · subst h
          simp only [if_true, List.flatMap_cons, List.flatMap_nil, List.append_nil]
          rw [ih (by simp)]
          simp only [List.cons_prefix_cons, true_and, List.length_cons, List.drop_succ_cons]
        · simp only [h, if_false, List.flatMap_nil]
          rw [if_neg]
          simp only [List.cons_prefix_cons, not_and]
          exact fun h' => absurd h'.symm h

theorem figureId_eq (s : Str) : figureId s = figIdParts s := by
  unfold figureId figIdParts Re.pmatch reFigId
  have e : ∀ m, (Re.seqs [.lit c!"Figure", .plus isSpace, .grp 1 (.plus (fun c => !isSpace c && c != '^' && c != ':')),
      .star clsDot]).run m = ((Re.lit c!"Figure").run m).flatMap (Re.seqs [.plus isSpace, .grp 1 (.plus clsFigId), .star clsDot]).run :=
    fun _ => rfl
  rw [e, run_lit (by simp)]
  split
  rotate_left
  · rfl
  simp only [List.flatMap_cons, List.flatMap_nil, List.append_nil]
  generalize hr : s.drop c!"Figure".length = r
  simp only [Re.seqs]
  by_cases h1 : r.takeWhile isSpace = []
  · rw [if_pos h1]
    rw [Re.run, plus_none (by simpa using takeWhile_eq_nil.mp h1)]
    rfl
  · rw [if_neg h1]
    obtain ⟨c, r', hc, hs⟩ := exists_cons_of_takeWhile h1
    by_cases h2 : (r.dropWhile isSpace).takeWhile clsFigId = []
    · rw [if_pos h2]
      have : (Re.seq (Re.plus isSpace) (Re.seq (Re.grp 1 (Re.plus clsFigId)) (Re.star clsDot))).run ⟨false, r, []⟩ = [] := by
        rw [Re.run, List.flatMap_eq_nil_iff]
        intro t ht
        rw [Re.run, List.flatMap_eq_nil_iff]
        have hg : (Re.grp 1 (Re.plus clsFigId)).run t = [] := by
          rw [Re.run, plus_none]
          · rfl
          intro x hx
          simp only [Re.plus, Re.run, hc, hs, if_true, List.flatMap_cons, List.flatMap_nil, List.append_nil] at ht
          obtain ⟨u, hu1, hu2, -, -⟩ := mem_starRuns.mp ht
          by_cases hsp : isSpace x = true
          · simp [clsFigId, hsp]
          · obtain ⟨y, hy⟩ : ∃ y, t.rest = x :: y := by
              cases hh : t.rest with
              | nil => rw [hh] at hx; simp at hx
              | cons a y => rw [hh] at hx; simp at hx; exact ⟨y, by rw [hx]⟩
            have : r.dropWhile isSpace = x :: y := by
              rw [hc, hu1, hy, ← List.cons_append]
              exact dropWhile_append_stop (by
                intro z hz
                rcases List.mem_cons.mp hz with rfl | hz
                · exact hs
                · exact hu2 z hz) (by simpa using hsp)
            rw [this] at h2
            simpa using takeWhile_eq_nil.mp h2 x (by simp)
        rw [hg]
        intro x hx
        simp at hx
      rw [this]
      rfl
    · rw [if_neg h2]
      obtain ⟨d, q, hd, hq⟩ := exists_cons_of_takeWhile h2
      have e1 := plus_head (p := isSpace) (m := ⟨false, r, []⟩) hc hs
      have e2 := grp_plus_head (n := 1) (p := clsFigId) (m := ⟨false, r.dropWhile isSpace, []⟩) hd hq
      have e3 := star_head (p := clsDot) (m := ⟨false, (r.dropWhile isSpace).dropWhile clsFigId, [(1, (r.dropWhile isSpace).takeWhile clsFigId)]⟩)
      rw [run_seq_head e1 (run_seq_head e2 e3)]
      rfl

theorem figureId_ne {s i : Str} (h : figureId s = some i) : i ≠ [] := by
  rw [figureId_eq] at h
  unfold figIdParts at h
  simp only at h
  split at h
  · split at h
    · simp at h
    · split at h
      · simp at h
      · simp only [Option.some.injEq] at h
        rw [← h]; assumption
  · simp at h

end Spex
