import Mathlib.Data.List.Basic
/-
The elements of a list which a filter keeps, and their numbers before and after.
-/
set_option autoImplicit false
namespace Spex

/-- how many of the first `i` elements are kept -/
def rank {α : Type} (p : α → Bool) (l : List α) (i : Nat) : Nat := (l.take i).countP p

section
variable {α β : Type} {p : α → Bool} {l : List α}

theorem rank_get {i : Nat} {x : α} (h : l[i]? = some x) (hx : p x = true) : (l.filter p)[rank p l i]? = some x := by
  obtain ⟨hi, rfl⟩ := List.getElem?_eq_some_iff.1 h
  have h1 : l.filter p = (l.take i).filter p ++ (l.drop i).filter p := by rw [← List.filter_append, List.take_append_drop]
  rw [h1, List.drop_eq_getElem_cons hi, List.filter_cons_of_pos hx, rank, List.countP_eq_length_filter,
    List.getElem?_append_right (Nat.le_refl _), Nat.sub_self]
  rfl

theorem rank_succ {i : Nat} {x : α} (h : l[i]? = some x) : rank p l (i + 1) = rank p l i + if p x then 1 else 0 := by
  unfold rank
  rw [List.take_add_one, h, List.countP_append]
  simp [List.countP_cons]

theorem rank_mono {i j : Nat} (h : i ≤ j) : rank p l i ≤ rank p l j :=
  (List.take_sublist_take_left h).countP_le

theorem rank_lt {i j : Nat} {x : α} (hi : l[i]? = some x) (hx : p x = true) (h : i < j) : rank p l i < rank p l j := by
  have h1 := rank_succ (p := p) hi
  rw [if_pos hx] at h1
  have := rank_mono (p := p) (l := l) (show i + 1 ≤ j from h)
  omega

theorem rank_inj {i j : Nat} {x y : α} (hi : l[i]? = some x) (hx : p x = true) (hj : l[j]? = some y) (hy : p y = true)
    (h : rank p l i = rank p l j) : i = j := by
  rcases Nat.lt_trichotomy i j with h1 | h1 | h1
  · have := rank_lt hi hx h1; omega
  · exact h1
  · have := rank_lt hj hy h1; omega

theorem rank_inv {j : Nat} {x : α} (h : (l.filter p)[j]? = some x) : ∃ i, l[i]? = some x ∧ p x = true ∧ rank p l i = j := by
  induction l generalizing j with
  | nil => simp at h
  | cons a l ih =>
    by_cases ha : p a = true
    · rw [List.filter_cons_of_pos ha] at h
      cases j with
      | zero =>
        simp at h
        subst h
        exact ⟨0, rfl, ha, rfl⟩
      | succ j =>
        obtain ⟨i, h1, h2, h3⟩ := ih (j := j) (by simpa using h)
        refine ⟨i + 1, by simpa using h1, h2, ?_⟩
        rw [← h3]
        unfold rank
        rw [List.take_succ_cons, List.countP_cons_of_pos ha]
    · rw [List.filter_cons_of_neg ha] at h
      obtain ⟨i, h1, h2, h3⟩ := ih h
      refine ⟨i + 1, by simpa using h1, h2, ?_⟩
      rw [← h3]
      unfold rank
      rw [List.take_succ_cons, List.countP_cons_of_neg ha]

/-- the element kept after `rank p l s` others is the one at `s`, or one after elements which are not kept -/
theorem rank_find {i s : Nat} {y : α} (hi : l[i]? = some y) (hy : p y = true) (h : rank p l i = rank p l s) :
    i = s ∨ ∃ k z, i = k + 1 ∧ l[k]? = some z ∧ p z = false := by
  rcases Nat.lt_trichotomy i s with h1 | h1 | h1
  · have := rank_lt hi hy h1; omega
  · exact .inl h1
  · obtain ⟨k, rfl⟩ := Nat.exists_eq_add_of_lt h1
    right
    have hk : s + k < l.length := by have := (List.getElem?_eq_some_iff.1 hi).1; omega
    refine ⟨s + k, l[s + k], rfl, List.getElem?_eq_getElem hk, ?_⟩
    cases hp : p l[s + k] with
    | false => rfl
    | true =>
      exfalso
      have h2 := rank_lt (p := p) (List.getElem?_eq_getElem hk) hp (Nat.lt_succ_self _)
      have h3 := rank_mono (p := p) (l := l) (show s ≤ s + k by omega)
      have h4 : rank p l (s + k + 1) = rank p l s := h
      rw [Nat.succ_eq_add_one] at h2
      omega

theorem rank_congr {q : β → Bool} {l' : List β} (h : l.map p = l'.map q) (i : Nat) : rank p l i = rank q l' i := by
  have h1 : ∀ {γ : Type} (r : γ → Bool) (m : List γ), rank r m i = ((m.map r).take i).countP id := by
    intro γ r m
    unfold rank
    rw [← List.map_take, List.countP_map]
    rfl
  rw [h1, h1, h]

theorem filter_length_congr {q : β → Bool} {l' : List β} (h : l.map p = l'.map q) : (l.filter p).length = (l'.filter q).length := by
  have h1 : ∀ {γ : Type} (r : γ → Bool) (m : List γ), (m.filter r).length = (m.map r).countP id := by
    intro γ r m
    rw [List.countP_map, List.countP_eq_length_filter]
    rfl
  rw [h1, h1, h]

end
end Spex
