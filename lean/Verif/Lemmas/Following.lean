import Verif.Lemmas.RowText
import Verif.Lemmas.Rank
/-
Lemmas about the rows which follow a row that is handed out.
-/
set_option autoImplicit false
namespace Spex
section
variable [Uni]

/-- the cells which are stored for the rows below, and their counts -/
theorem storeSpans_source {tds : List Node} : ∀ {off : Int} {alst alst' : List Pend}, storeSpans off tds alst = .ok alst' →
    ∀ q ∈ alst', q ∈ alst ∨ ∃ td ∈ tds, rowspan td = .ok q.2.2 := by
  induction tds with
  | nil =>
    intro off alst alst' h q hq
    rw [storeSpans] at h
    cases h
    exact .inl hq
  | cons td tds ih =>
    intro off alst alst' h q hq
    rw [storeSpans] at h
    cases hr : rowspan td with
    | error e => rw [hr] at h; cases h
    | ok rs =>
      rw [hr] at h
      simp only at h
      cases hc : colspan td with
      | error e => rw [hc] at h; cases h
      | ok w =>
        rw [hc] at h
        simp only at h
        rcases ih h q hq with h1 | ⟨x, h1, h2⟩
        · split at h1
          · rcases alstInsert_mem h1 with h1 | rfl
            · exact .inl h1
            · exact .inr ⟨td, List.mem_cons_self, hr⟩
          · exact .inl h1
        · exact .inr ⟨x, List.mem_cons_of_mem _ h1, h2⟩

/-- the rows with data -/
def Row.isData (r : Row) : Bool := !containsTh r.node

/-- A row which is handed out is the row of the table, or else there is a cell above which reaches down to it. -/
theorem rowIterGo_origin {rows : List Row} : ∀ {alst : List Pend}, (∀ p ∈ alst, 0 < p.2.2) → ∀ {i : Nat} {r r0 : Row},
    (rowIterGo alst rows).1[i]? = some r → rows[i]? = some r0 → r = r0 ∨ r.following = [] ∧
      ((∃ p ∈ alst, (rank Row.isData rows i : Int) < p.2.2) ∨
        ∃ (k : Nat) (rk s : Row) (td : Node) (rs : Int), k < i ∧ (rowIterGo alst rows).1[k]? = some rk ∧ rows[k]? = some s ∧ s.isData = true ∧
          td ∈ rk.node.childs tTd ∧ rowspan td = .ok rs ∧ (rank Row.isData rows i : Int) < rank Row.isData rows k + rs) := by
  induction rows with
  | nil => intro alst _ i r r0 _ h; cases h
  | cons row rows ih =>
    intro alst hpos i r r0 h h0
    rw [rowIterGo] at h
    by_cases hth : containsTh row.node = true
    · rw [if_pos hth] at h
      have hd : row.isData = false := by unfold Row.isData; rw [hth]; rfl
      have hrank : ∀ j, rank Row.isData (row :: rows) (j + 1) = rank Row.isData rows j := by
        intro j
        unfold rank
        rw [List.take_succ_cons, List.countP_cons_of_neg (by rw [hd]; decide)]
      cases i with
      | zero =>
        simp only [List.getElem?_cons_zero, Option.some.injEq] at h h0
        exact .inl (h.symm.trans h0)
      | succ i =>
        simp only [List.getElem?_cons_succ] at h h0
        rcases ih hpos h h0 with e | ⟨h1, ⟨p, h2, h3⟩ | ⟨k, rk, s, td, rs, h2, h3, h4, h5, h6, h7, h8⟩⟩
        · exact .inl e
        · exact .inr ⟨h1, .inl ⟨p, h2, by rw [hrank]; exact h3⟩⟩
        · refine .inr ⟨h1, .inr ⟨k + 1, rk, s, td, rs, by omega, ?_, h4, h5, h6, h7, by rw [hrank, hrank]; exact h8⟩⟩
          rw [rowIterGo, if_pos hth]
          exact h3
    · rw [if_neg hth] at h
      have hd : row.isData = true := by
        unfold Row.isData
        rw [Bool.not_eq_true] at hth
        rw [hth]; rfl
      have hrank : ∀ j, rank Row.isData (row :: rows) (j + 1) = rank Row.isData rows j + 1 := by
        intro j
        unfold rank
        rw [List.take_succ_cons, List.countP_cons_of_pos hd]
      cases hb : rebuildRow row alst with
      | error e => rw [hb] at h; cases h
      | ok row' =>
        rw [hb] at h
        simp only at h
        cases hst : storeSpans 0 (row'.node.childs tTd) alst with
        | error e => rw [hst] at h; cases h
        | ok alst' =>
          rw [hst] at h
          simp only at h
          cases i with
          | zero =>
            simp only [List.getElem?_cons_zero, Option.some.injEq] at h h0
            subst h h0
            unfold rebuildRow at hb
            cases alst with
            | nil =>
              rw [if_pos (by rfl)] at hb
              cases hb
              exact .inl rfl
            | cons p alst =>
              rw [if_neg (by simp)] at hb
              refine .inr ⟨?_, .inl ⟨p, List.mem_cons_self, hpos p List.mem_cons_self⟩⟩
              split at hb
              · cases hb
              · cases hb; rfl
          | succ i =>
            simp only [List.getElem?_cons_succ] at h h0
            have hpos' : ∀ p ∈ alstCountDecr alst', 0 < p.2.2 := by
              intro p hp
              unfold alstCountDecr at hp
              obtain ⟨q, hq, rfl⟩ := List.mem_map.1 hp
              have := of_decide_eq_true (List.mem_filter.1 hq).2
              simp only
              omega
            have hout : ∀ {j : Nat} {x : Row}, (rowIterGo (alstCountDecr alst') rows).1[j]? = some x → (rowIterGo alst (row :: rows)).1[j + 1]? = some x := by
              intro j x hx
              rw [rowIterGo, if_neg hth, hb]
              simp only
              rw [hst]
              exact hx
            rcases ih hpos' h h0 with e | ⟨h1, ⟨p, h2, h3⟩ | ⟨k, rk, s, td, rs, h2, h3, h4, h5, h6, h7, h8⟩⟩
            · exact .inl e
            · unfold alstCountDecr at h2
              obtain ⟨q, hq, rfl⟩ := List.mem_map.1 h2
              simp only at h3
              refine .inr ⟨h1, ?_⟩
              rcases storeSpans_source hst q (List.mem_filter.1 hq).1 with h4 | ⟨td, h4, h5⟩
              · exact .inl ⟨q, h4, by rw [hrank]; omega⟩
              · refine .inr ⟨0, row', row, td, q.2.2, by omega, ?_, rfl, hd, h4, h5, ?_⟩
                · rw [rowIterGo, if_neg hth, hb]
                  simp only
                  rw [hst]
                  rfl
                · rw [hrank]
                  have : rank Row.isData (row :: rows) 0 = 0 := rfl
                  omega
            · exact .inr ⟨h1, .inr ⟨k + 1, rk, s, td, rs, by omega, hout h3, h4, h5, h6, h7, by rw [hrank, hrank]; omega⟩⟩

omit [Uni] in
/-- the rows below a row -/
theorem candidateRows_following {ks : List Node} (hk : ∀ k ∈ ks, k.hasTag tTr = true → (!(k.childs tTd).isEmpty || !(k.childs tTh).isEmpty) = true) :
    ∀ {i : Nat} {r : Row}, (candidateRows ks)[i]? = some r → r.following.filter (Node.hasTag tTr) = (ks.filter (Node.hasTag tTr)).drop (i + 1) := by
  induction ks with
  | nil => intro i r h; cases h
  | cons k ks ih =>
    intro i r h
    replace ih := @ih (fun k hk' => hk k (List.mem_cons_of_mem _ hk'))
    rw [candidateRows] at h
    by_cases ht : k.hasTag tTr = true
    · rw [if_pos (by rw [ht, hk k List.mem_cons_self ht]; rfl)] at h
      rw [List.filter_cons_of_pos ht, List.drop_succ_cons]
      cases i with
      | zero =>
        simp only [List.getElem?_cons_zero, Option.some.injEq] at h
        subst h
        simp only [List.drop_zero]
        rw [List.filter_filter]
        refine List.filter_congr fun x _ => ?_
        cases x with
        | text s => rfl
        | elem t as ks => simp [Node.isElem]
      | succ i => exact ih h
    · rw [if_neg (by rw [Bool.not_eq_true] at ht; rw [ht]; simp)] at h
      rw [List.filter_cons_of_neg ht]
      exact ih h

end
end Spex
