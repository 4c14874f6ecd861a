import Verif.Model.Grid
import Mathlib.Data.List.Basic
/-
Lemmas about the grid of a Word table.
-/
set_option autoImplicit false
namespace Spex

theorem except_bind_ok {α β : Type} {x : Except Exn α} {f : α → Except Exn β} {b : β} (h : (x >>= f) = .ok b) :
    ∃ a, x = .ok a ∧ f a = .ok b := by
  cases x with
  | error e => cases h
  | ok a => exact ⟨a, rfl, h⟩

theorem pyIndex_ok {α : Type} {l : List α} {i : Nat} {a : α} (h : pyIndex l (i : Int) = .ok a) : l[i]? = some a := by
  unfold pyIndex at h
  simp only [Int.natCast_nonneg, if_true] at h
  rw [Int.toNat_natCast] at h
  cases hl : l[i]? with
  | none => rw [hl] at h; cases h
  | some b => rw [hl] at h; cases h; rfl

theorem pyIndex_eq {α : Type} {l : List α} {i : Nat} {a : α} (h : l[i]? = some a) : pyIndex l (i : Int) = .ok a := by
  unfold pyIndex
  simp only [Int.natCast_nonneg, if_true]
  rw [Int.toNat_natCast, h]

/-- the item with a number, counted from the front from 0 on, or from the end from -1 on -/
theorem pyIndex_iff {α : Type} {l : List α} {i : Int} {a : α} :
    pyIndex l i = .ok a ↔ ∃ before after, l = before ++ a :: after ∧ (i = before.length ∨ i = -(after.length + 1 : Int)) := by
  unfold pyIndex
  constructor
  · intro h
    generalize hj : (if 0 ≤ i then i else i + (l.length : Int)) = j at h
    cases hx : l[j.toNat]? with
    | none => rw [hx] at h; cases h
    | some b =>
      rw [hx] at h
      simp only at h
      by_cases h0 : 0 ≤ j
      rotate_left
      · rw [if_neg h0] at h; cases h
      rw [if_pos h0] at h
      cases h
      obtain ⟨hlt, hb⟩ := List.getElem?_eq_some_iff.1 hx
      refine ⟨l.take j.toNat, l.drop (j.toNat + 1), ?_, ?_⟩
      · rw [← hb, List.getElem_cons_drop, List.take_append_drop]
      · rw [List.length_take, List.length_drop, Nat.min_eq_left (Nat.le_of_lt hlt)]
        by_cases hi : 0 ≤ i
        · rw [if_pos hi] at hj
          left; omega
        · rw [if_neg hi] at hj
          right; omega
  · rintro ⟨before, after, rfl, h | h⟩
    · subst h
      rw [if_pos (by omega), Int.toNat_natCast, List.getElem?_append_right (Nat.le_refl _), Nat.sub_self]
      simp
    · have h1 : ¬ 0 ≤ i := by omega
      have h2 : i + ((before ++ a :: after).length : Int) = (before.length : Int) := by
        rw [List.length_append, List.length_cons]; omega
      rw [if_neg h1, h2, Int.toNat_natCast, List.getElem?_append_right (Nat.le_refl _), Nat.sub_self]
      simp

theorem lastRow_ok {M : List (List Nat)} {row : List Nat} (h : lastRow M = .ok row) : ∃ n, M.length = n + 1 ∧ M[n]? = some row := by
  unfold lastRow pyIndex at h
  cases hM : M.length with
  | zero =>
    rw [hM] at h
    have : M = [] := List.length_eq_zero_iff.1 hM
    subst this
    cases h
  | succ n =>
    refine ⟨n, rfl, ?_⟩
    rw [hM] at h
    have h1 : ¬ (0 : Int) ≤ -1 := by omega
    rw [if_neg h1] at h
    have h2 : (-1 + ((n + 1 : Nat) : Int)) = (n : Int) := by omega
    rw [h2, Int.toNat_natCast] at h
    cases hl : M[n]? with
    | none => rw [hl] at h; cases h
    | some b =>
      rw [hl] at h
      simp only [Int.natCast_nonneg, if_true] at h
      cases h; rfl

theorem lastRow_eq {M : List (List Nat)} {row : List Nat} {n : Nat} (h1 : M.length = n + 1) (h2 : M[n]? = some row) :
    lastRow M = .ok row := by
  unfold lastRow pyIndex
  have h3 : ¬ (0 : Int) ≤ -1 := by omega
  rw [if_neg h3, h1]
  have h4 : (-1 + ((n + 1 : Nat) : Int)) = (n : Int) := by omega
  rw [h4, Int.toNat_natCast, h2]
  simp

/-- the entry of the matrix in row `r`, column `c` -/
def slot (M : List (List Nat)) (r c : Nat) : Option Nat := M[r]?.bind (·[c]?)

theorem slot_snoc_old {M : List (List Nat)} {row : List Nat} {r c : Nat} (h : r < M.length) :
    slot (M ++ [row]) r c = slot M r c := by
  unfold slot
  rw [List.getElem?_append_left h]

theorem slot_snoc_new {M : List (List Nat)} {row : List Nat} {c : Nat} : slot (M ++ [row]) M.length c = row[c]? := by
  unfold slot
  rw [List.getElem?_append_right (Nat.le_refl _)]
  simp

theorem slot_lt {M : List (List Nat)} {r c k : Nat} (h : slot M r c = some k) : r < M.length := by
  unfold slot at h
  by_contra hr
  rw [List.getElem?_eq_none (by omega)] at h
  cases h

theorem slot_snoc_some {M : List (List Nat)} {row : List Nat} {r c k : Nat} (h : slot (M ++ [row]) r c = some k) :
    (r < M.length ∧ slot M r c = some k) ∨ (r = M.length ∧ row[c]? = some k) := by
  have hr := slot_lt h
  rw [List.length_append] at hr
  simp only [List.length_singleton] at hr
  rcases Nat.lt_or_ge r M.length with h1 | h1
  · left; rw [slot_snoc_old h1] at h; exact ⟨h1, h⟩
  · right
    have : r = M.length := by omega
    subst this
    rw [slot_snoc_new] at h
    exact ⟨rfl, h⟩

theorem row_snoc_some {row : List Nat} {n k k' c : Nat} (h : (row ++ List.replicate n k)[c]? = some k') :
    (c < row.length ∧ row[c]? = some k') ∨ (row.length ≤ c ∧ c < row.length + n ∧ k' = k) := by
  rcases Nat.lt_or_ge c row.length with h1 | h1
  · left; rw [List.getElem?_append_left h1] at h; exact ⟨h1, h⟩
  · right
    rw [List.getElem?_append_right h1, List.getElem?_replicate] at h
    split at h
    · cases h; exact ⟨h1, by omega, rfl⟩
    · cases h

theorem row_snoc_new {row : List Nat} {n k c : Nat} (h1 : row.length ≤ c) (h2 : c < row.length + n) :
    (row ++ List.replicate n k)[c]? = some k := by
  rw [List.getElem?_append_right h1, List.getElem?_replicate, if_pos (by omega)]

theorem row_snoc_old {row : List Nat} {n k c k' : Nat} (h : row[c]? = some k') :
    (row ++ List.replicate n k)[c]? = some k' := by
  have : c < row.length := by
    by_contra hc
    rw [List.getElem?_eq_none (by omega)] at h
    cases h
  rw [List.getElem?_append_left this, h]

theorem setBottom_get {els : List GridEl} {k j : Nat} {b : Int} {e : GridEl} (h : els[j]? = some e) :
    (setBottom els k b)[j]? = some (if j = k then { e with bottom := b } else e) := by
  unfold setBottom
  rw [List.getElem?_modify, h]
  by_cases hj : k = j
  · simp [hj]
  · have : ¬ j = k := fun h => hj h.symm
    simp [hj, this]

theorem setBottom_get_inv {els : List GridEl} {k j : Nat} {b : Int} {e : GridEl} (h : (setBottom els k b)[j]? = some e) :
    ∃ e0, els[j]? = some e0 ∧ e = if j = k then { e0 with bottom := b } else e0 := by
  cases h0 : els[j]? with
  | none =>
    unfold setBottom at h
    rw [List.getElem?_modify, h0] at h
    cases h
  | some e0 =>
    rw [setBottom_get h0] at h
    cases h
    exact ⟨e0, rfl, rfl⟩

theorem snoc_get {els : List GridEl} {e' e : GridEl} {j : Nat} (h : (els ++ [e'])[j]? = some e) :
    els[j]? = some e ∨ (j = els.length ∧ e = e') := by
  rcases Nat.lt_or_ge j els.length with h1 | h1
  · left; rwa [List.getElem?_append_left h1] at h
  · right
    rw [List.getElem?_append_right h1] at h
    have : j - els.length = 0 := by
      by_contra hne
      rw [List.getElem?_eq_none (by simp; omega)] at h
      cases h
    rw [this] at h
    cases h
    exact ⟨by omega, rfl⟩

theorem snoc_get_old {els : List GridEl} {e' e : GridEl} {j : Nat} (h : els[j]? = some e) : (els ++ [e'])[j]? = some e := by
  have : j < els.length := by
    by_contra hc
    rw [List.getElem?_eq_none (by omega)] at h
    cases h
  rw [List.getElem?_append_left this, h]

theorem snoc_get_new {els : List GridEl} {e' : GridEl} : (els ++ [e'])[els.length]? = some e' := by simp

variable [Uni]

/-- what one cell does to the grid -/
inductive CellStep (M : List (List Nat)) (i : Int) (st : GridRow) (tc : LNode) : GridRow → Prop where
  | own (span : Int) (h1 : tcGridSpan tc.node = .ok span) (h2 : cellVMerge tc.node = .ok .none ∨ cellVMerge tc.node = .ok .restart) :
      CellStep M i st tc ⟨st.els ++ [⟨tc, i, i, st.cellIndex, st.cellIndex + span - 1⟩],
        st.row ++ List.replicate span.toNat st.els.length, st.cellIndex + span⟩
  | merged (span : Int) (above : List Nat) (k : Nat) (g : GridEl) (h1 : tcGridSpan tc.node = .ok span)
      (h2 : cellVMerge tc.node = .ok .merged) (h3 : lastRow M = .ok above) (h4 : pyIndex above st.cellIndex = .ok k)
      (h5 : st.els[k]? = some g) (h6 : span = g.colspan) :
      CellStep M i st tc ⟨setBottom st.els k i, st.row ++ List.replicate span.toNat k, st.cellIndex + span⟩

theorem gridCell_step {M : List (List Nat)} {i : Int} {st st' : GridRow} {tc : LNode} (h : gridCell M i st tc = .ok st') :
    CellStep M i st tc st' := by
  unfold gridCell at h
  obtain ⟨span, h1, h⟩ := except_bind_ok h
  obtain ⟨vm, h2, h⟩ := except_bind_ok h
  cases vm with
  | none => cases h; exact .own span h1 (.inl h2)
  | restart => cases h; exact .own span h1 (.inr h2)
  | merged =>
    obtain ⟨above, h3, h⟩ := except_bind_ok h
    obtain ⟨k, h4, h⟩ := except_bind_ok h
    obtain ⟨g, h5, h⟩ := except_bind_ok h
    by_cases h6 : span = g.colspan
    · rw [if_pos h6] at h
      cases h
      exact .merged span above k g h1 h2 h3 h4 (pyIndex_ok h5) h6
    · rw [if_neg h6] at h; cases h

/-- an invariant of the loop over the cells of a row -/
theorem gridCells_inv {M : List (List Nat)} {i : Int} {P : List LNode → GridRow → Prop} {tcs : List LNode}
    (hstep : ∀ done tc rest st st', tcs = done ++ tc :: rest → P done st → CellStep M i st tc st' → P (done ++ [tc]) st') :
    ∀ (done rest : List LNode) (st st' : GridRow), tcs = done ++ rest → P done st → gridCells M i st rest = .ok st' → P tcs st' := by
  intro done rest
  induction rest generalizing done with
  | nil =>
    intro st st' hd hP h
    cases h
    rw [hd, List.append_nil]; exact hP
  | cons tc rest ih =>
    intro st st' hd hP h
    unfold gridCells at h
    obtain ⟨st1, h1, h⟩ := except_bind_ok h
    exact ih (done ++ [tc]) st1 st' (by simp [hd]) (hstep done tc rest st st1 hd hP (gridCell_step h1)) h

/-- an invariant of the loop over the rows -/
theorem gridRows_inv {P : List LNode → Grid → Prop} {trs : List LNode}
    (hstep : ∀ done tr rest g r, trs = done ++ tr :: rest → P done g →
      gridCells g.matrix done.length ⟨g.els, [], 0⟩ (tr.childs wTc) = .ok r → P (done ++ [tr]) ⟨r.els, g.matrix ++ [r.row]⟩) :
    ∀ (done rest : List LNode) (g g' : Grid), trs = done ++ rest → P done g → gridRows done.length g rest = .ok g' → P trs g' := by
  intro done rest
  induction rest generalizing done with
  | nil =>
    intro g g' hd hP h
    cases h
    rw [hd, List.append_nil]; exact hP
  | cons tr rest ih =>
    intro g g' hd hP h
    unfold gridRows at h
    obtain ⟨r, h1, h⟩ := except_bind_ok h
    refine ih (done ++ [tr]) _ g' (by simp [hd]) (hstep done tr rest g r hd hP h1) ?_
    simpa using h

/-- every slot is occupied by an element whose upper left corner is that slot or an earlier one -/
def Originates (els : List GridEl) (M : List (List Nat)) : Prop :=
  ∀ r c k, slot M r c = some k → ∃ e : GridEl, els[k]? = some e ∧ ∃ t l : Nat, e.top = t ∧ e.left = l ∧ (t < r ∨ (t = r ∧ l ≤ c)) ∧
    slot M t l = some k

omit [Uni] in
theorem slot_mono {M : List (List Nat)} {row : List Nat} {n k r c k' : Nat} (h : slot (M ++ [row]) r c = some k') :
    slot (M ++ [row ++ List.replicate n k]) r c = some k' := by
  rcases slot_snoc_some h with ⟨hr, h'⟩ | ⟨hr, h'⟩
  · rw [slot_snoc_old hr]; exact h'
  · rw [hr, slot_snoc_new]; exact row_snoc_old h'

theorem grid_cells_origin {tbl : LNode} {g : Grid} (h : grid tbl = .ok g) :
    (∀ e ∈ g.els, ∃ tr ∈ tbl.childs wTr, e.cell ∈ tr.childs wTc) ∧
    ((∀ tr ∈ tbl.childs wTr, ∀ tc ∈ tr.childs wTc, ∀ v, tcGridSpan tc.node = .ok v → 0 ≤ v) → Originates g.els g.matrix) := by
  unfold grid at h
  have main := gridRows_inv (trs := tbl.childs wTr) (P := fun done g => g.matrix.length = done.length ∧
      (∀ e ∈ g.els, ∃ tr ∈ tbl.childs wTr, e.cell ∈ tr.childs wTc) ∧
      ((∀ tr ∈ tbl.childs wTr, ∀ tc ∈ tr.childs wTc, ∀ v, tcGridSpan tc.node = .ok v → 0 ≤ v) → Originates g.els g.matrix))
    ?_ [] (tbl.childs wTr) ⟨[], []⟩ g rfl ⟨rfl, by simp, fun _ r c k hk => by simp [slot] at hk⟩ h
  · exact main.2
  · rintro done tr rest g r hd ⟨hlen, hcell, horig⟩ hr
    have htr : tr ∈ tbl.childs wTr := by rw [hd]; simp
    have row := gridCells_inv (M := g.matrix) (i := done.length) (tcs := tr.childs wTc) (P := fun done' st =>
        (∀ e ∈ st.els, ∃ tr ∈ tbl.childs wTr, e.cell ∈ tr.childs wTc) ∧
        ((∀ tr ∈ tbl.childs wTr, ∀ tc ∈ tr.childs wTc, ∀ v, tcGridSpan tc.node = .ok v → 0 ≤ v) →
          st.cellIndex = st.row.length ∧ Originates st.els (g.matrix ++ [st.row])))
      ?_ [] (tr.childs wTc) ⟨g.els, [], 0⟩ r rfl ⟨hcell, fun hn => ⟨rfl, ?_⟩⟩ hr
    · refine ⟨by simp [hlen], row.1, fun hn => (row.2 hn).2⟩
    · rintro done' tc rest' st st' hd' ⟨h1, h2⟩ hs
      have htc : tc ∈ tr.childs wTc := by rw [hd']; simp
      cases hs with
      | own span g1 g2 =>
        refine ⟨?_, fun hn => ?_⟩
        · intro e he
          rcases List.mem_append.1 he with he | he
          · exact h1 e he
          · rw [List.mem_singleton] at he
            subst he
            exact ⟨tr, htr, htc⟩
        · obtain ⟨hi, ho⟩ := h2 hn
          have hpos := hn tr htr tc htc span g1
          refine ⟨?_, ?_⟩
          · simp only [List.length_append, List.length_replicate, hi]; omega
          · intro r' c k hk
            simp only at hk ⊢
            have old : slot (g.matrix ++ [st.row]) r' c = some k → ∃ e : GridEl, (st.els ++ [⟨tc, (done.length : Int), (done.length : Int), st.cellIndex, st.cellIndex + span - 1⟩])[k]? = some e ∧
                ∃ t l : Nat, e.top = t ∧ e.left = l ∧ (t < r' ∨ (t = r' ∧ l ≤ c)) ∧
                slot (g.matrix ++ [st.row ++ List.replicate span.toNat st.els.length]) t l = some k := by
              intro hk
              obtain ⟨e, he, t, l, h3, h4, h5, h6⟩ := ho r' c k hk
              exact ⟨e, snoc_get_old he, t, l, h3, h4, h5, slot_mono h6⟩
            rcases slot_snoc_some hk with ⟨hr', hk'⟩ | ⟨hr', hk'⟩
            · exact old (by rw [slot_snoc_old hr']; exact hk')
            · subst hr'
              rcases row_snoc_some hk' with ⟨_, hk'⟩ | ⟨c1, c2, hk'⟩
              · exact old (by rw [slot_snoc_new]; exact hk')
              · subst hk'
                refine ⟨_, snoc_get_new, g.matrix.length, st.row.length, by simp [hlen], hi, .inr ⟨rfl, c1⟩, ?_⟩
                rw [slot_snoc_new]
                exact row_snoc_new (Nat.le_refl _) (by omega)
      | merged span above k g' g1 g2 g3 g4 g5 g6 =>
        refine ⟨?_, fun hn => ?_⟩
        · intro e he
          obtain ⟨j, hj⟩ := List.mem_iff_getElem?.1 he
          obtain ⟨e', he', heq⟩ := setBottom_get_inv hj
          obtain ⟨tr', htr', hc'⟩ := h1 e' (List.mem_iff_getElem?.2 ⟨j, he'⟩)
          refine ⟨tr', htr', ?_⟩
          rw [heq]
          split <;> exact hc'
        · obtain ⟨hi, ho⟩ := h2 hn
          have hpos := hn tr htr tc htc span g1
          refine ⟨?_, ?_⟩
          · simp only [List.length_append, List.length_replicate, hi]; omega
          · have lift : ∀ r' c k', (∃ e : GridEl, st.els[k']? = some e ∧ ∃ t l : Nat, e.top = t ∧ e.left = l ∧ (t < r' ∨ (t = r' ∧ l ≤ c)) ∧
                slot (g.matrix ++ [st.row]) t l = some k') → ∃ e : GridEl, (setBottom st.els k (done.length : Int))[k']? = some e ∧
                ∃ t l : Nat, e.top = t ∧ e.left = l ∧ (t < r' ∨ (t = r' ∧ l ≤ c)) ∧
                slot (g.matrix ++ [st.row ++ List.replicate span.toNat k]) t l = some k' := by
              rintro r' c k' ⟨e, he, t, l, h3, h4, h5, h6⟩
              refine ⟨_, setBottom_get he, t, l, ?_, ?_, h5, slot_mono h6⟩
              · split <;> exact h3
              · split <;> exact h4
            intro r' c k' hk
            simp only at hk ⊢
            rcases slot_snoc_some hk with ⟨hr', hk'⟩ | ⟨hr', hk'⟩
            · exact lift r' c k' (ho r' c k' (by rw [slot_snoc_old hr']; exact hk'))
            · subst hr'
              rcases row_snoc_some hk' with ⟨_, hk'⟩ | ⟨c1, c2, hk'⟩
              · exact lift _ _ _ (ho _ _ _ (by rw [slot_snoc_new]; exact hk'))
              · subst hk'
                obtain ⟨n, hn1, hn2⟩ := lastRow_ok g3
                rw [hi] at g4
                have g4' := pyIndex_ok g4
                obtain ⟨e, he, t, l, h3, h4, h5, h6⟩ := ho n st.row.length k' (by
                  rw [slot_snoc_old (by omega)]; unfold slot; rw [hn2]; exact g4')
                exact lift _ _ _ ⟨e, he, t, l, h3, h4, .inl (by omega), h6⟩
    · intro r' c k hk
      rcases slot_snoc_some hk with ⟨hr', hk'⟩ | ⟨hr', hk'⟩
      · obtain ⟨e, he, t, l, h3, h4, h5, h6⟩ := horig hn r' c k hk'
        refine ⟨e, he, t, l, h3, h4, h5, ?_⟩
        rw [slot_snoc_old (slot_lt h6)]; exact h6
      · simp at hk'

end Spex
