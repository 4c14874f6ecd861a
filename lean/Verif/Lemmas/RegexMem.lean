import Verif.Lemmas.FigId
/-
What the successes of regular expressions are, and when there are none.
-/
set_option autoImplicit false
namespace Spex

theorem mem_run_plus {p : Char → Bool} {m t : MS} :
    t ∈ (Re.plus p).run m ↔ ∃ u, u ≠ [] ∧ (∀ c ∈ u, p c = true) ∧ m.rest = u ++ t.rest ∧ t.caps = m.caps ∧ t.start = false := by
  unfold Re.plus
  rw [mem_run_seq]
  constructor
  · rintro ⟨v, hv, ht⟩
    rw [Re.run] at hv
    cases hm : m.rest with
    | nil => rw [hm] at hv; simp at hv
    | cons c s =>
      rw [hm] at hv
      simp only at hv
      by_cases hc : p c = true
      · rw [if_pos hc, List.mem_singleton] at hv
        subst hv
        rw [Re.run, mem_starRuns] at ht
        obtain ⟨u, h1, h2, h3, h4⟩ := ht
        refine ⟨c :: u, by simp, ?_, congrArg (c :: ·) h1, h3, by rw [h4]; rfl⟩
        intro x hx
        rcases List.mem_cons.1 hx with rfl | hx
        · exact hc
        · exact h2 x hx
      · rw [if_neg hc] at hv; simp at hv
  · rintro ⟨u, h1, h2, h3, h4, h5⟩
    cases u with
    | nil => exact absurd rfl h1
    | cons c u =>
      refine ⟨⟨false, u ++ t.rest, m.caps⟩, ?_, ?_⟩
      · rw [Re.run, h3]
        simp [h2 c (by simp)]
      · rw [Re.run, mem_starRuns]
        exact ⟨u, rfl, fun x hx => h2 x (List.mem_cons_of_mem _ hx), h4, by rw [h5]; rfl⟩

theorem mem_run_grp {n : Nat} {a : Re} {m t : MS} :
    t ∈ (Re.grp n a).run m ↔ ∃ u ∈ a.run m, t = { u with caps := (n, m.rest.take (m.rest.length - u.rest.length)) :: u.caps } := by
  simp only [Re.run, List.mem_map]
  constructor
  · rintro ⟨u, h1, h2⟩; exact ⟨u, h1, h2.symm⟩
  · rintro ⟨u, h1, h2⟩; exact ⟨u, h1, h2.symm⟩

theorem mem_run_grp_plus {n : Nat} {p : Char → Bool} {m t : MS} :
    t ∈ (Re.grp n (Re.plus p)).run m ↔
      ∃ u, u ≠ [] ∧ (∀ c ∈ u, p c = true) ∧ m.rest = u ++ t.rest ∧ t.caps = (n, u) :: m.caps ∧ t.start = false := by
  rw [mem_run_grp]
  have e : ∀ u r : Str, (u ++ r).take ((u ++ r).length - r.length) = u := by
    intro u r
    have : (u ++ r).length - r.length = u.length := by simp
    rw [this, List.take_left]
  constructor
  · rintro ⟨v, hv, rfl⟩
    obtain ⟨u, h1, h2, h3, h4, h5⟩ := mem_run_plus.1 hv
    refine ⟨u, h1, h2, h3, ?_, h5⟩
    simp only [h3, h4, e]
  · rintro ⟨u, h1, h2, h3, h4, h5⟩
    refine ⟨⟨false, t.rest, m.caps⟩, mem_run_plus.2 ⟨u, h1, h2, h3, rfl, rfl⟩, ?_⟩
    rcases t with ⟨b, r, g⟩
    simp only at h3 h4 h5
    subst h5
    simp only [h3, e, h4]

theorem mem_run_lit {p : Str} (hp : p ≠ []) {m t : MS} :
    t ∈ (Re.lit p).run m ↔ m.rest = p ++ t.rest ∧ t.caps = m.caps ∧ t.start = false := by
  rcases m with ⟨b, s, g⟩
  rw [run_lit hp]
  by_cases h : p <+: s
  · rw [if_pos h, List.mem_singleton]
    obtain ⟨r, rfl⟩ := h
    rw [List.drop_left]
    constructor
    · rintro rfl; exact ⟨rfl, rfl, rfl⟩
    · rintro ⟨h1, h2, h3⟩
      rcases t with ⟨b', r', g'⟩
      simp only at h1 h2 h3
      rw [List.append_cancel_left h1, h2, h3]
  · rw [if_neg h]
    constructor
    · intro h; simp at h
    · rintro ⟨h1, -⟩
      exact absurd ⟨_, h1.symm⟩ h

theorem pmatch_some {r : Re} {s : Str} {caps : List (Nat × Str)} (h : r.pmatch s = some caps) :
    ∃ t, (r.run ⟨true, s, []⟩).head? = some t ∧ t ∈ r.run ⟨true, s, []⟩ ∧ t.caps = caps := by
  unfold Re.pmatch at h
  cases hr : (r.run ⟨true, s, []⟩).head? with
  | none => rw [hr] at h; cases h
  | some t =>
    rw [hr] at h
    cases h
    exact ⟨t, rfl, List.mem_of_head? hr, rfl⟩

theorem pmatch_none {r : Re} {s : Str} : r.pmatch s = none ↔ r.run ⟨true, s, []⟩ = [] := by
  unfold Re.pmatch
  cases r.run ⟨true, s, []⟩ <;> simp

end Spex
