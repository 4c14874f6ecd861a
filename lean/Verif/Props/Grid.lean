import Verif.Lemmas.Grid
import Verif.Props.Range
import Mathlib.Algebra.BigOperators.Group.List.Basic
/-
C39: the grid of a Word table.
-/
set_option autoImplicit false
namespace Spex
variable [Uni]

/-! ### Specification: Word tables -/

/-- a cell of a Word table: the element, its first column, the number of columns, and whether it continues the cell
above it -/
structure WCell where
  tc : LNode
  col : Nat
  span : Nat
  cont : Bool

/-- number of columns of some cells side by side -/
def widthOf (cells : List WCell) : Nat := (cells.map (·.span)).sum

/-- The cell's markup: `w:gridSpan` gives the number of columns (one if it is absent), `w:vMerge` without value says
that the cell continues the one above, `w:vMerge` with the value `restart` or no `w:vMerge` that it does not. -/
structure WCell.Markup (c : WCell) : Prop where
  span_pos : 1 ≤ c.span
  span : (c.tc.node.attrFirst [wTcPr, c!"w:gridSpan"] aVal = none ∧ c.span = 1) ∨
    ∃ v, c.tc.node.attrFirst [wTcPr, c!"w:gridSpan"] aVal = some v ∧ Numeral v c.span
  cont : c.cont = true → ∃ m, c.tc.node.first [wTcPr, c!"w:vMerge"] = some m ∧ (m.attr? aVal = none ∨ m.attr? aVal = some [])
  own : c.cont = false → c.tc.node.first [wTcPr, c!"w:vMerge"] = none ∨
    ∃ m, c.tc.node.first [wTcPr, c!"w:vMerge"] = some m ∧ m.attr? aVal = some c!"restart"

/-- `rows` describes the Word table `tbl`, all whose merges are rectangular -/
structure WordTable (tbl : LNode) (rows : List (List WCell)) : Prop where
  source : (tbl.childs wTr).map (·.childs wTc) = rows.map (·.map (·.tc))
  markup : ∀ row ∈ rows, ∀ c ∈ row, c.Markup
  /-- the cells of a row are side by side -/
  cols : ∀ row ∈ rows, ∀ before c after, row = before ++ c :: after → c.col = widthOf before
  /-- nothing continues the cells above the first row -/
  first : ∀ row, rows[0]? = some row → ∀ c ∈ row, c.cont = false
  /-- a cell which continues the one above has the same columns as that one -/
  aligned : ∀ (i : Nat) above row, rows[i]? = some above → rows[i + 1]? = some row → ∀ c ∈ row, c.cont = true →
    ∃ a ∈ above, a.col = c.col ∧ a.span = c.span

/-- the grid element `e` covers row `r`, column `c` -/
def GridEl.covers (e : GridEl) (r c : Nat) : Prop := e.top ≤ r ∧ r ≤ e.bottom ∧ e.left ≤ c ∧ c ≤ e.right

/-- The grid `g` lays the table out: -/
structure LaidOut (rows : List (List WCell)) (g : Grid) : Prop where
  /-- there are as many rows, -/
  height : g.matrix.length = rows.length
  /-- each as wide as its cells, -/
  width : ∀ (i : Nat) (row : List WCell) (m : List Nat), rows[i]? = some row → g.matrix[i]? = some m → m.length = widthOf row
  /-- the grid elements are the cells which do not continue others, each with its row, column and number of columns, -/
  own : g.els.map (fun e => (e.cell, e.top, e.left, e.colspan)) =
    (rows.mapIdx (fun i row => (row.filter (fun c => !c.cont)).map (fun c => (c.tc, (i : Int), (c.col : Int), (c.span : Int))))).flatten
  /-- and at least one row, -/
  proper : ∀ (k : Nat) (e : GridEl), g.els[k]? = some e → e.top ≤ e.bottom
  /-- every slot of a row is occupied by an element which covers it, -/
  sound : ∀ r c k, slot g.matrix r c = some k → ∃ e, g.els[k]? = some e ∧ e.covers r c
  /-- an element occupies all slots it covers, -/
  complete : ∀ (k : Nat) (e : GridEl), g.els[k]? = some e → ∀ r c, e.covers r c → slot g.matrix r c = some k
  /-- and a cell which continues the one above is occupied by the same element. -/
  cont : ∀ (i : Nat) (row : List WCell), rows[i + 1]? = some row → ∀ c ∈ row, c.cont = true → ∀ j, j < c.span →
    ∃ k, slot g.matrix (i + 1) (c.col + j) = some k ∧ slot g.matrix i (c.col + j) = some k

/-! ### Proof -/

omit [Uni] in
theorem widthOf_snoc (a : List WCell) (c : WCell) : widthOf (a ++ [c]) = widthOf a + c.span := by
  simp [widthOf]

theorem WCell.Markup.tcGridSpan {c : WCell} (h : c.Markup) : Spex.tcGridSpan c.tc.node = .ok (c.span : Int) := by
  unfold Spex.tcGridSpan
  rcases h.span with ⟨h1, h2⟩ | ⟨v, h1, h2⟩
  · rw [h1, h2]; rfl
  · rw [h1]; exact (numeral_digits h2).2.2

omit [Uni] in
theorem WCell.Markup.cellVMerge_cont {c : WCell} (h : c.Markup) (hc : c.cont = true) : cellVMerge c.tc.node = .ok .merged := by
  obtain ⟨m, h1, h2⟩ := h.cont hc
  unfold cellVMerge
  rw [h1]
  rcases h2 with h2 | h2 <;> simp only [h2]

omit [Uni] in
theorem WCell.Markup.cellVMerge_own {c : WCell} (h : c.Markup) (hc : c.cont = false) :
    cellVMerge c.tc.node = .ok .none ∨ cellVMerge c.tc.node = .ok .restart := by
  unfold cellVMerge
  rcases h.own hc with h1 | ⟨m, h1, h2⟩
  · rw [h1]; exact .inl rfl
  · right; rw [h1]; simp only [h2, if_true]

/-- the entries of the specification of `own` for row `i` -/
def ownKeys (i : Nat) (row : List WCell) : List (LNode × Int × Int × Int) :=
  (row.filter (fun c => !c.cont)).map (fun c => (c.tc, (i : Int), (c.col : Int), (c.span : Int)))

/-- the elements which occupy the first slots of the cells begin there -/
def Starts (els : List GridEl) (m : List Nat) (cells : List WCell) : Prop :=
  ∀ c ∈ cells, ∃ (k : Nat) (e : GridEl), m[c.col]? = some k ∧ els[k]? = some e ∧ e.left = c.col ∧ e.colspan = c.span

/-- the cells which continue others are occupied by the elements of the row above -/
def Conts (above m : List Nat) (cells : List WCell) : Prop :=
  ∀ c ∈ cells, c.cont = true → ∀ j, j < c.span → ∃ k : Nat, m[c.col + j]? = some k ∧ above[c.col + j]? = some k

/-- slots and elements agree -/
structure Tiled (els : List GridEl) (M : List (List Nat)) : Prop where
  proper : ∀ (k : Nat) (e : GridEl), els[k]? = some e → e.top ≤ e.bottom
  sound : ∀ r c k, slot M r c = some k → ∃ e, els[k]? = some e ∧ e.covers r c
  complete : ∀ (k : Nat) (e : GridEl), els[k]? = some e → ∀ r c, e.covers r c → slot M r c = some k

/-- the loop invariant within row `i`; `above` is the row above, with cells `up` -/
structure RowInv (M : List (List Nat)) (above : List Nat) (up : List WCell) (i : Nat)
    (keys : List (LNode × Int × Int × Int)) (before : List WCell) (st : GridRow) : Prop where
  index : st.cellIndex = (widthOf before : Nat)
  len : st.row.length = widthOf before
  own : st.els.map (fun e => (e.cell, e.top, e.left, e.colspan)) = keys ++ ownKeys i before
  tiled : Tiled st.els (M ++ [st.row])
  starts : Starts st.els st.row before
  upStarts : Starts st.els above up
  conts : Conts above st.row before

omit [Uni] in
theorem Starts.mono {els els' : List GridEl} {m m' : List Nat} {cells : List WCell} (h : Starts els m cells)
    (hm : ∀ (c k : Nat), m[c]? = some k → m'[c]? = some k)
    (he : ∀ (k : Nat) (e : GridEl), els[k]? = some e → ∃ e', els'[k]? = some e' ∧ e'.left = e.left ∧ e'.right = e.right) :
    Starts els' m' cells := by
  intro c hc
  obtain ⟨k, e, h1, h2, h3, h4⟩ := h c hc
  obtain ⟨e', g1, g2, g3⟩ := he k e h2
  refine ⟨k, e', hm _ _ h1, g1, by rw [g2, h3], ?_⟩
  unfold GridEl.colspan at h4 ⊢
  rw [g2, g3]; exact h4

omit [Uni] in
theorem rowInv_own {M : List (List Nat)} {above : List Nat} {up : List WCell} {i : Nat} {keys : List (LNode × Int × Int × Int)}
    {before : List WCell} {st : GridRow} {c : WCell} (hM : M.length = i) (h : RowInv M above up i keys before st)
    (hpos : 1 ≤ c.span) (hcol : c.col = widthOf before) (hown : c.cont = false) :
    RowInv M above up i keys (before ++ [c])
      ⟨st.els ++ [⟨c.tc, i, i, st.cellIndex, st.cellIndex + c.span - 1⟩], st.row ++ List.replicate c.span st.els.length,
        st.cellIndex + c.span⟩ := by
  have hget : ∀ (k : Nat) (e : GridEl), st.els[k]? = some e →
      ∃ e', (st.els ++ [⟨c.tc, i, i, st.cellIndex, st.cellIndex + c.span - 1⟩])[k]? = some e' ∧ e'.left = e.left ∧ e'.right = e.right :=
    fun k e he => ⟨e, snoc_get_old he, rfl, rfl⟩
  constructor
  · show st.cellIndex + c.span = _
    rw [h.index, widthOf_snoc]; omega
  · show (st.row ++ List.replicate c.span st.els.length).length = _
    rw [List.length_append, List.length_replicate, widthOf_snoc, h.len]
  · show (st.els ++ [_]).map _ = _
    rw [List.map_append, h.own]
    unfold ownKeys
    rw [List.filter_append, List.map_append, ← List.append_assoc]
    congr 1
    have : List.filter (fun c : WCell => !c.cont) [c] = [c] := by simp [hown]
    rw [this]
    simp only [List.map_cons, List.map_nil]
    have : (GridEl.mk c.tc (i : Int) i st.cellIndex (st.cellIndex + c.span - 1)).colspan = (c.span : Int) := by
      unfold GridEl.colspan; simp only; omega
    rw [this, h.index, hcol]
  · constructor
    · intro k e hk
      rcases snoc_get hk with hk' | ⟨_, he⟩
      · exact h.tiled.proper k e hk'
      · subst he; exact Int.le_refl _
    · intro r x k hk
      rcases slot_snoc_some hk with ⟨hr, hk'⟩ | ⟨hr, hk'⟩
      · have : slot (M ++ [st.row]) r x = some k := by rw [slot_snoc_old hr]; exact hk'
        obtain ⟨e, he, hc⟩ := h.tiled.sound r x k this
        exact ⟨e, snoc_get_old he, hc⟩
      · subst hr
        rcases row_snoc_some hk' with ⟨_, hk'⟩ | ⟨h1, h2, hk'⟩
        · have : slot (M ++ [st.row]) M.length x = some k := by rw [slot_snoc_new]; exact hk'
          obtain ⟨e, he, hc⟩ := h.tiled.sound _ x k this
          exact ⟨e, snoc_get_old he, hc⟩
        · subst hk'
          refine ⟨_, snoc_get_new, ?_⟩
          have := h.index
          have := h.len
          refine ⟨?_, ?_, ?_, ?_⟩ <;> simp only <;> omega
    · intro k e hk r x hcov
      rcases snoc_get hk with hk' | ⟨hk', he⟩
      · have := h.tiled.complete k e hk' r x hcov
        rcases slot_snoc_some this with ⟨hr, hs⟩ | ⟨hr, hs⟩
        · rw [slot_snoc_old hr]; exact hs
        · rw [hr, slot_snoc_new]; exact row_snoc_old hs
      · subst he
        obtain ⟨h1, h2, h3, h4⟩ := hcov
        simp only at h1 h2 h3 h4
        have hr : r = M.length := by omega
        subst hr
        rw [slot_snoc_new, hk']
        have := h.index
        have := h.len
        exact row_snoc_new (by omega) (by omega)
  · intro d hd
    rcases List.mem_append.1 hd with hd | hd
    · exact h.starts.mono (fun _ _ h => row_snoc_old h) hget d hd
    · rw [List.mem_singleton] at hd
      subst hd
      refine ⟨st.els.length, _, row_snoc_new ?_ ?_, snoc_get_new, ?_, ?_⟩
      · rw [hcol, h.len]
        exact Nat.le_refl _
      · rw [hcol, h.len]; omega
      · show st.cellIndex = _
        rw [h.index, hcol]
      · unfold GridEl.colspan; simp only; omega
  · exact h.upStarts.mono (fun _ _ h => h) hget
  · intro d hd hdc j hj
    rcases List.mem_append.1 hd with hd | hd
    · obtain ⟨k, h1, h2⟩ := h.conts d hd hdc j hj
      exact ⟨k, row_snoc_old h1, h2⟩
    · rw [List.mem_singleton] at hd
      subst hd
      rw [hown] at hdc; cases hdc

omit [Uni] in
theorem rowInv_cont {M : List (List Nat)} {above : List Nat} {up : List WCell} {n : Nat} {keys : List (LNode × Int × Int × Int)}
    {before : List WCell} {st : GridRow} {c : WCell} (hM : M.length = n + 1) (hab : M[n]? = some above)
    (h : RowInv M above up (n + 1) keys before st)
    (hpos : 1 ≤ c.span) (hcol : c.col = widthOf before) (hcont : c.cont = true)
    (hal : ∃ a ∈ up, a.col = c.col ∧ a.span = c.span) :
    ∃ (k : Nat) (g : GridEl), pyIndex above st.cellIndex = .ok k ∧ st.els[k]? = some g ∧ (c.span : Int) = g.colspan ∧
      RowInv M above up (n + 1) keys (before ++ [c])
        ⟨setBottom st.els k ((n + 1 : Nat) : Int), st.row ++ List.replicate c.span k, st.cellIndex + c.span⟩ := by
  obtain ⟨a, ha, ha1, ha2⟩ := hal
  obtain ⟨k, g, hk, hg, hg1, hg2⟩ := h.upStarts a ha
  rw [ha1] at hk hg1
  rw [ha2] at hg2
  have hslotup : ∀ x : Nat, x < (M ++ [st.row]).length → x < n + 1 + 1 := by
    intro x hx; simp at hx; omega
  have hsa : ∀ x, slot (M ++ [st.row]) n x = above[x]? := by
    intro x
    rw [slot_snoc_old (by omega)]
    unfold slot; rw [hab]; rfl
  -- the element above reaches row n
  obtain ⟨g', hg', hcov⟩ := h.tiled.sound n c.col k (by rw [hsa]; exact hk)
  rw [hg] at hg'
  cases hg'
  have hb : (n : Int) ≤ g.bottom := hcov.2.1
  have htop : g.top ≤ n := hcov.1
  have hspan : g.right = c.col + c.span - 1 := by
    unfold GridEl.colspan at hg2; omega
  -- and not row n + 1 yet, or it already has these slots
  have hidx := h.index
  have hlen := h.len
  have hget : ∀ (j : Nat) (e : GridEl), st.els[j]? = some e →
      ∃ e', (setBottom st.els k ((n + 1 : Nat) : Int))[j]? = some e' ∧ e'.left = e.left ∧ e'.right = e.right := by
    intro j e he
    refine ⟨_, setBottom_get he, ?_⟩
    split <;> exact ⟨rfl, rfl⟩
  have hgb : g.bottom ≤ n := by
    by_contra hgt
    have := h.tiled.complete k g hg (n + 1) c.col ⟨by omega, by omega, by omega, by omega⟩
    rw [← hM, slot_snoc_new, hcol, ← hlen, List.getElem?_eq_none (Nat.le_refl _)] at this
    cases this
  refine ⟨k, g, ?_, hg, hg2.symm, ?_⟩
  · rw [hidx, ← hcol]; exact pyIndex_eq hk
  constructor
  · show st.cellIndex + c.span = _
    rw [h.index, widthOf_snoc]; omega
  · show (st.row ++ List.replicate c.span k).length = _
    rw [List.length_append, List.length_replicate, widthOf_snoc, h.len]
  · show (setBottom st.els k _).map _ = _
    have : ownKeys (n + 1) (before ++ [c]) = ownKeys (n + 1) before := by
      unfold ownKeys
      rw [List.filter_append]
      have : List.filter (fun c : WCell => !c.cont) [c] = [] := by simp [hcont]
      rw [this, List.append_nil]
    rw [this, ← h.own]
    apply List.ext_getElem?
    intro j
    rw [List.getElem?_map, List.getElem?_map]
    cases hj : st.els[j]? with
    | none =>
      have : (setBottom st.els k ((n + 1 : Nat) : Int))[j]? = none := by
        unfold setBottom
        rw [List.getElem?_modify, hj]; rfl
      rw [this]
    | some e =>
      rw [setBottom_get hj]
      simp only [Option.map_some]
      split <;> rfl
  · constructor
    · intro j e hj
      obtain ⟨e0, he0, he⟩ := setBottom_get_inv hj
      have := h.tiled.proper j e0 he0
      by_cases hjk : j = k
      · rw [if_pos hjk] at he
        subst hjk
        rw [hg] at he0
        cases he0
        subst he
        show g.top ≤ ((n + 1 : Nat) : Int)
        omega
      · rw [if_neg hjk] at he
        subst he
        exact this
    · intro r x k' hk'
      have hold : slot (M ++ [st.row]) r x = some k' → ∃ e, (setBottom st.els k ((n + 1 : Nat) : Int))[k']? = some e ∧ e.covers r x := by
        intro hs
        obtain ⟨e, he, hc⟩ := h.tiled.sound r x k' hs
        refine ⟨_, setBottom_get he, ?_⟩
        split
        · have hr := hslotup r (slot_lt hs)
          exact ⟨hc.1, by show (r : Int) ≤ ((n + 1 : Nat) : Int); omega, hc.2.2.1, hc.2.2.2⟩
        · exact hc
      rcases slot_snoc_some hk' with ⟨hr, hs⟩ | ⟨hr, hs⟩
      · exact hold (by rw [slot_snoc_old hr]; exact hs)
      · rcases row_snoc_some hs with ⟨_, hs⟩ | ⟨h1, h2, hs⟩
        · exact hold (by rw [hr, slot_snoc_new]; exact hs)
        · rw [hs]
          refine ⟨_, setBottom_get hg, ?_⟩
          rw [if_pos rfl]
          refine ⟨?_, ?_, ?_, ?_⟩ <;> simp only <;> omega
    · intro j e hj r x hcv
      obtain ⟨e0, he0, he⟩ := setBottom_get_inv hj
      have hext : slot (M ++ [st.row]) r x = some j →
          slot (M ++ [st.row ++ List.replicate c.span k]) r x = some j := by
        intro hs
        rcases slot_snoc_some hs with ⟨hr, hs⟩ | ⟨hr, hs⟩
        · rw [slot_snoc_old hr]; exact hs
        · rw [hr, slot_snoc_new]; exact row_snoc_old hs
      by_cases hjk : j = k
      · rw [if_pos hjk] at he
        subst hjk
        rw [hg] at he0
        cases he0
        subst he
        obtain ⟨c1, c2, c3, c4⟩ := hcv
        simp only at c1 c2 c3 c4
        by_cases hr : r = n + 1
        · subst hr
          rw [← hM, slot_snoc_new]
          exact row_snoc_new (by omega) (by omega)
        · exact hext (h.tiled.complete j g hg r x ⟨c1, by omega, c3, c4⟩)
      · rw [if_neg hjk] at he
        subst he
        exact hext (h.tiled.complete j e he0 r x hcv)
  · intro d hd
    rcases List.mem_append.1 hd with hd | hd
    · exact h.starts.mono (fun _ _ h => row_snoc_old h) hget d hd
    · rw [List.mem_singleton] at hd
      subst hd
      refine ⟨k, _, row_snoc_new ?_ ?_, setBottom_get hg, ?_, ?_⟩
      · rw [hcol, h.len]
        exact Nat.le_refl _
      · rw [hcol, h.len]; omega
      · rw [if_pos rfl]; exact hg1
      · rw [if_pos rfl]; exact hg2
  · exact h.upStarts.mono (fun _ _ h => h) hget
  · intro d hd hdc j hj
    rcases List.mem_append.1 hd with hd | hd
    · obtain ⟨k, h1, h2⟩ := h.conts d hd hdc j hj
      exact ⟨k, row_snoc_old h1, h2⟩
    · rw [List.mem_singleton] at hd
      subst hd
      refine ⟨k, row_snoc_new (by omega) (by omega), ?_⟩
      have := h.tiled.complete k g hg n (d.col + j) ⟨by omega, by omega, by omega, by omega⟩
      rw [hsa] at this
      exact this

/-- the cells of a row -/
theorem rowInv_cells {M : List (List Nat)} {above : List Nat} {up : List WCell} {i : Nat} {keys : List (LNode × Int × Int × Int)}
    {row : List WCell} (hM : M.length = i) (hmk : ∀ c ∈ row, c.Markup)
    (hcols : ∀ before c after, row = before ++ c :: after → c.col = widthOf before)
    (hcont : ∀ c ∈ row, c.cont = true → ∃ n, i = n + 1 ∧ M[n]? = some above ∧ ∃ a ∈ up, a.col = c.col ∧ a.span = c.span) :
    ∀ (before rest : List WCell) (st : GridRow), row = before ++ rest → RowInv M above up i keys before st →
      ∃ st', gridCells M i st (rest.map (·.tc)) = .ok st' ∧ RowInv M above up i keys row st' := by
  intro before rest
  induction rest generalizing before with
  | nil =>
    intro st hr h
    refine ⟨st, rfl, ?_⟩
    rw [hr, List.append_nil]; exact h
  | cons c rest ih =>
    intro st hr h
    have hc : c ∈ row := by rw [hr]; simp
    have hm := hmk c hc
    have hcol := hcols before c rest hr
    have hstep : ∃ st', gridCell M i st c.tc = .ok st' ∧ RowInv M above up i keys (before ++ [c]) st' := by
      cases hcc : c.cont with
      | false =>
        refine ⟨_, ?_, rowInv_own hM h hm.span_pos hcol hcc⟩
        unfold gridCell
        rw [hm.tcGridSpan]
        rcases hm.cellVMerge_own hcc with h1 | h1 <;> rw [h1] <;> rfl
      | true =>
        obtain ⟨n, hn, hab, hal⟩ := hcont c hc hcc
        subst hn
        obtain ⟨k, g, h1, h2, h3, h4⟩ := rowInv_cont hM hab h hm.span_pos hcol hcc hal
        refine ⟨_, ?_, h4⟩
        unfold gridCell
        rw [hm.tcGridSpan, hm.cellVMerge_cont hcc]
        show (lastRow M >>= fun above => pyIndex above st.cellIndex >>= fun k => pyIndex st.els k >>= fun g => _) = _
        rw [lastRow_eq hM hab]
        show (pyIndex above st.cellIndex >>= fun k => pyIndex st.els k >>= fun g => _) = _
        rw [h1]
        show (pyIndex st.els k >>= fun g => _) = _
        rw [pyIndex_eq h2]
        show (if (c.span : Int) = g.colspan then _ else _) = _
        rw [if_pos h3]
        rfl
    obtain ⟨st', hs, hi⟩ := hstep
    obtain ⟨st'', hs', hi'⟩ := ih (before ++ [c]) st' (by simp [hr]) hi
    refine ⟨st'', ?_, hi'⟩
    rw [List.map_cons, gridCells, hs]
    exact hs'

/-- the invariant of the loop over the rows -/
structure RowsInv (done : List (List WCell)) (g : Grid) : Prop where
  laid : LaidOut done g
  starts : ∀ n row m, done.length = n + 1 → done[n]? = some row → g.matrix[n]? = some m → Starts g.els m row

theorem rowsInv_rows {rows : List (List WCell)} {tbl : LNode} (hW : WordTable tbl rows) :
    ∀ (done rest : List (List WCell)) (trs : List LNode) (g : Grid), rows = done ++ rest →
      trs.map (·.childs wTc) = rest.map (·.map (·.tc)) → RowsInv done g →
      ∃ g', gridRows done.length g trs = .ok g' ∧ RowsInv rows g' := by
  intro done rest
  induction rest generalizing done with
  | nil =>
    intro trs g hr ht h
    have : trs = [] := by simpa using ht
    subst this
    refine ⟨g, rfl, ?_⟩
    rw [hr, List.append_nil]; exact h
  | cons row rest ih =>
    intro trs g hr ht h
    cases trs with
    | nil => simp at ht
    | cons tr trs =>
      simp only [List.map_cons, List.cons.injEq] at ht
      have hmem : row ∈ rows := by rw [hr]; simp
      have hrow : rows[done.length]? = some row := by rw [hr]; simp
      have hM : g.matrix.length = done.length := h.laid.height
      -- the row above
      let above := (g.matrix.getLast?).getD []
      let up := (done.getLast?).getD []
      have habove : ∀ n, done.length = n + 1 → g.matrix[n]? = some above ∧ done[n]? = some up ∧ Starts g.els above up := by
        intro n hn
        have h1 : g.matrix[n]? = some above := by
          show _ = some ((g.matrix.getLast?).getD [])
          rw [List.getLast?_eq_getElem?, hM, hn, Nat.add_sub_cancel, List.getElem?_eq_getElem (by omega)]; rfl
        have h2 : done[n]? = some up := by
          show _ = some ((done.getLast?).getD [])
          rw [List.getLast?_eq_getElem?, hn, Nat.add_sub_cancel, List.getElem?_eq_getElem (by omega)]; rfl
        exact ⟨h1, h2, h.starts n up above hn h2 h1⟩
      have hup : Starts g.els above up := by
        cases hd : done.length with
        | zero =>
          have : done = [] := List.length_eq_zero_iff.1 hd
          intro c hc
          have hu : up = [] := by show (done.getLast?).getD [] = []; rw [this]; rfl
          rw [hu] at hc; cases hc
        | succ n => exact (habove n hd).2.2
      have hinit : RowInv g.matrix above up done.length (g.els.map (fun e => (e.cell, e.top, e.left, e.colspan))) [] ⟨g.els, [], 0⟩ := by
        refine ⟨rfl, rfl, ?_, ?_, ?_, hup, ?_⟩
        · simp [ownKeys]
        · constructor
          · exact h.laid.proper
          · intro r c k hk
            rcases slot_snoc_some hk with ⟨_, hk⟩ | ⟨_, hk⟩
            · exact h.laid.sound r c k hk
            · simp at hk
          · intro k e hk r c hc
            have := h.laid.complete k e hk r c hc
            rw [slot_snoc_old (slot_lt this)]; exact this
        · intro c hc; cases hc
        · intro c hc; cases hc
      have hcont : ∀ c ∈ row, c.cont = true → ∃ n, done.length = n + 1 ∧ g.matrix[n]? = some above ∧ ∃ a ∈ up, a.col = c.col ∧ a.span = c.span := by
        intro c hc hcc
        cases hd : done.length with
        | zero =>
          have := hW.first row (by rw [← hd]; exact hrow) c hc
          rw [hcc] at this; cases this
        | succ n =>
          obtain ⟨h1, h2, _⟩ := habove n hd
          refine ⟨n, rfl, h1, hW.aligned n up row ?_ (by rw [← hd]; exact hrow) c hc hcc⟩
          rw [hr, List.getElem?_append_left (by omega)]; exact h2
      obtain ⟨st, hst, hinv⟩ := rowInv_cells hM (hW.markup row hmem) (hW.cols row hmem) hcont [] row ⟨g.els, [], 0⟩ rfl hinit
      have hnew : RowsInv (done ++ [row]) ⟨st.els, g.matrix ++ [st.row]⟩ := by
        refine ⟨⟨?_, ?_, ?_, hinv.tiled.proper, hinv.tiled.sound, hinv.tiled.complete, ?_⟩, ?_⟩
        · simp [hM]
        · intro i r m hi hm
          rcases Nat.lt_trichotomy i done.length with hl | hl | hl
          · rw [List.getElem?_append_left hl] at hi
            rw [List.getElem?_append_left (by omega)] at hm
            exact h.laid.width i r m hi hm
          · subst hl
            rw [List.getElem?_append_right (Nat.le_refl _)] at hi
            rw [List.getElem?_append_right (by omega)] at hm
            simp at hi
            rw [hM] at hm
            simp at hm
            rw [← hi, ← hm, hinv.len]
          · rw [List.getElem?_eq_none (by simp; omega)] at hi; cases hi
        · show st.els.map _ = _
          rw [hinv.own, h.laid.own, List.mapIdx_append, List.flatten_append]
          congr 1
          unfold ownKeys
          simp
        · intro i r hi c hc hcc j hj
          rcases Nat.lt_trichotomy (i + 1) done.length with hl | hl | hl
          · rw [List.getElem?_append_left hl] at hi
            obtain ⟨k, h1, h2⟩ := h.laid.cont i r hi c hc hcc j hj
            exact ⟨k, by rw [slot_snoc_old (by omega)]; exact h1, by rw [slot_snoc_old (by omega)]; exact h2⟩
          · rw [hl, List.getElem?_append_right (Nat.le_refl _)] at hi
            simp at hi
            subst hi
            obtain ⟨k, h1, h2⟩ := hinv.conts c hc hcc j hj
            refine ⟨k, ?_, ?_⟩
            · rw [hl, ← hM, slot_snoc_new]; exact h1
            · rw [slot_snoc_old (by omega)]
              unfold slot
              rw [(habove i hl.symm).1]
              exact h2
          · rw [List.getElem?_eq_none (by simp; omega)] at hi; cases hi
        · intro n r m hn hr' hm
          have hn' : n = done.length := by simp at hn; omega
          subst hn'
          rw [List.getElem?_append_right (Nat.le_refl _)] at hr'
          rw [List.getElem?_append_right (by omega), hM] at hm
          simp at hr' hm
          subst hr'; subst hm
          exact hinv.starts
      obtain ⟨g', hg', hfin⟩ := ih (done ++ [row]) trs ⟨st.els, g.matrix ++ [st.row]⟩ (by simp [hr]) ht.2 hnew
      refine ⟨g', ?_, hfin⟩
      rw [gridRows, ht.1, hst]
      rw [List.length_append] at hg'
      exact hg'

/-! ### C39 -/

/-- C39: a Word table whose merges are rectangular gets a grid, and the grid lays it out as a tiling. The statement does
not hold for tables with other merges, see `C39_misaligned_false`. -/
theorem C39_tiling_partial (tbl : LNode) (rows : List (List WCell)) (h : WordTable tbl rows) :
    ∃ g, grid tbl = .ok g ∧ LaidOut rows g := by
  have hinit : RowsInv [] ⟨[], []⟩ := by
    refine ⟨⟨rfl, ?_, rfl, ?_, ?_, ?_, ?_⟩, ?_⟩
    · intro i row m hi; simp at hi
    · intro k e hk; simp at hk
    · intro r c k hk; simp [slot] at hk
    · intro k e hk; simp at hk
    · intro i row hi; simp at hi
    · intro n row m hn; simp at hn
  obtain ⟨g, hg, hi⟩ := rowsInv_rows h [] rows (tbl.childs wTr) ⟨[], []⟩ rfl h.source hinit
  exact ⟨g, hg, hi.laid⟩

/-- C39: a cell whose `w:vMerge` has another value than `restart` is never laid out: the table is refused (also the value
`continue`, which WordprocessingML allows). -/
theorem C39_other_vmerge_refused (tbl tr tc : LNode) (m : Node) (v : Str) (htr : tr ∈ tbl.childs wTr) (htc : tc ∈ tr.childs wTc)
    (hm : tc.node.first [wTcPr, c!"w:vMerge"] = some m) (hv : m.attr? aVal = some v) (h1 : v ≠ []) (h2 : v ≠ c!"restart") :
    ∃ e, grid tbl = .error e := by
  have hvm : ∀ vm, cellVMerge tc.node ≠ .ok vm := by
    intro vm h
    unfold cellVMerge at h
    rw [hm] at h
    cases v with
    | nil => exact h1 rfl
    | cons c v => simp only [hv, if_neg h2] at h; cases h
  cases hg : grid tbl with
  | error e => exact ⟨e, rfl⟩
  | ok g =>
    exfalso
    unfold grid at hg
    have := gridRows_inv (P := fun done _ => tr ∉ done) (trs := tbl.childs wTr) (by
      intro done tr' rest g r _ hd hr hmem
      rcases List.mem_append.1 hmem with h | h
      · exact hd h
      · rw [List.mem_singleton] at h
        subst h
        have := gridCells_inv (P := fun done _ => tc ∉ done) (tcs := tr.childs wTc) (by
          intro done tc' rest st st' _ hd hs hmem
          rcases List.mem_append.1 hmem with h | h
          · exact hd h
          · rw [List.mem_singleton] at h
            subst h
            cases hs with
            | own span h1 h2 => rcases h2 with h2 | h2 <;> exact hvm _ h2
            | merged span above k g h1 h2 => exact hvm _ h2) [] (tr.childs wTc) _ _ rfl (by simp) hr
        exact this htc) [] (tbl.childs wTr) ⟨[], []⟩ g rfl (by simp) hg
    exact this htr

/-! ### Examples -/

/-- a Word cell -/
def exTc (pr : List Node) (content : List Node) : Node := .elem wTc [] (.elem wTcPr [] pr :: content)
/-- `w:gridSpan` -/
def exSpan (n : Str) : Node := .elem c!"w:gridSpan" [(aVal, n)] []
/-- `w:vMerge` -/
def exMerge (v : List (Str × Str)) : Node := .elem c!"w:vMerge" v []

/-- a paragraph -/
def exWP (s : Str) : Node := .elem c!"w:p" [] [.elem c!"w:r" [] [.elem c!"w:t" [] [.text s]]]
/-- a grey background -/
def exGrey : Node := .elem c!"w:shd" [(c!"w:fill", c!"D9D9D9")] []

/-- a table with a header row and three other rows; A spans two rows and two columns, E two columns -/
def exWord (p : List Nat) : LNode := ⟨p, .elem wTbl []
  [.elem wTr [] [exTc [exGrey] [exWP c!"G"], exTc [exSpan c!"2", exGrey] [exWP c!"H"]],
   .elem wTr [] [exTc [exSpan c!"2", exMerge [(aVal, c!"restart")]] [exWP c!"A"], exTc [] [exWP c!"B"]],
   .elem wTr [] [exTc [exSpan c!"2", exMerge []] [], exTc [] [exWP c!"C"]],
   .elem wTr [] [exTc [] [exWP c!"D"], exTc [exSpan c!"2"] [exWP c!"E"]]]⟩

def exWordCell (p : List Nat) (i j : Nat) : LNode :=
  ((((exWord p).childs wTr)[i]?.map (·.childs wTc)).bind (·[j]?)).getD ⟨[], .text []⟩

def exWordRows (p : List Nat) : List (List WCell) :=
  [[⟨exWordCell p 0 0, 0, 1, false⟩, ⟨exWordCell p 0 1, 1, 2, false⟩],
   [⟨exWordCell p 1 0, 0, 2, false⟩, ⟨exWordCell p 1 1, 2, 1, false⟩],
   [⟨exWordCell p 2 0, 0, 2, true⟩, ⟨exWordCell p 2 1, 2, 1, false⟩],
   [⟨exWordCell p 3 0, 0, 1, false⟩, ⟨exWordCell p 3 1, 1, 2, false⟩]]

omit [Uni] in
theorem exWord_table (p : List Nat) : WordTable (exWord p) (exWordRows p) := by
  have hn : ∀ n, n = 2 → Numeral c!"2" n := by
    intro n hn; subst hn; exact ⟨by decide, by decide, by decide, by decide⟩
  constructor
  · rfl
  · intro row hr c hc
    simp only [exWordRows, List.mem_cons, List.not_mem_nil, or_false] at hr
    rcases hr with rfl | rfl | rfl | rfl <;> simp only [List.mem_cons, List.not_mem_nil, or_false] at hc <;>
      rcases hc with rfl | rfl
    · exact ⟨by simp, .inl ⟨rfl, rfl⟩, by simp, fun _ => .inl rfl⟩
    · exact ⟨by simp, .inr ⟨c!"2", rfl, hn _ rfl⟩, by simp, fun _ => .inl rfl⟩
    · exact ⟨by simp, .inr ⟨c!"2", rfl, hn _ rfl⟩, by simp, fun _ => .inr ⟨_, rfl, rfl⟩⟩
    · exact ⟨by simp, .inl ⟨rfl, rfl⟩, by simp, fun _ => .inl rfl⟩
    · exact ⟨by simp, .inr ⟨c!"2", rfl, hn _ rfl⟩, fun _ => ⟨_, rfl, .inl rfl⟩, by simp⟩
    · exact ⟨by simp, .inl ⟨rfl, rfl⟩, by simp, fun _ => .inl rfl⟩
    · exact ⟨by simp, .inl ⟨rfl, rfl⟩, by simp, fun _ => .inl rfl⟩
    · exact ⟨by simp, .inr ⟨c!"2", rfl, hn _ rfl⟩, by simp, fun _ => .inl rfl⟩
  · intro row hr before c after h
    have h2 : before = row.take before.length := by rw [h]; simp
    have h3 : row[before.length]? = some c := by rw [h]; simp
    simp only [exWordRows, List.mem_cons, List.not_mem_nil, or_false] at hr
    generalize before.length = n at h2 h3
    rcases hr with rfl | rfl | rfl | rfl <;> match n with
      | 0 => cases h3; rw [h2]; rfl
      | 1 => cases h3; rw [h2]; rfl
      | n + 2 => simp at h3
  · intro row hr c hc
    cases hr
    simp only [List.mem_cons, List.not_mem_nil, or_false] at hc
    rcases hc with rfl | rfl <;> rfl
  · intro i above row h1 h2 c hc hcc
    match i with
    | 0 =>
      cases h1; cases h2
      simp only [List.mem_cons, List.not_mem_nil, or_false] at hc
      rcases hc with rfl | rfl <;> cases hcc
    | 1 =>
      cases h1; cases h2
      simp only [List.mem_cons, List.not_mem_nil, or_false] at hc
      rcases hc with rfl | rfl
      · exact ⟨_, List.mem_cons_self, rfl, rfl⟩
      · cases hcc
    | 2 =>
      cases h1; cases h2
      simp only [List.mem_cons, List.not_mem_nil, or_false] at hc
      rcases hc with rfl | rfl <;> cases hcc
    | i + 3 => simp [exWordRows] at h2

/-- what is compared of a grid element in the examples -/
def GridEl.rect (e : GridEl) : List Int := [e.top, e.bottom, e.left, e.right]

example : letI := Uni.ascii
    (grid (exWord [0])).toOption.map (fun g => (g.matrix, g.els.map GridEl.rect)) =
      some ([[0, 1, 1], [2, 2, 3], [2, 2, 4], [5, 6, 6]],
        [[0, 0, 0, 0], [0, 0, 1, 2], [1, 2, 0, 1], [1, 1, 2, 2], [2, 2, 2, 2], [3, 3, 0, 0], [3, 3, 1, 2]]) := by
  decide +kernel

omit [Uni] in
/-- C39 is false for merges which are not rectangular: the second cell of the second row continues the two columns wide
cell above its first column, one column to the right of it. The table is accepted; the element of the cell above claims
the rectangle of rows 0 to 1 and columns 0 to 1, but its slots are columns 0 to 1 of the first and 1 to 2 of the second
row, and the slot in row 1, column 0 belongs to another element. -/
theorem C39_misaligned_false : letI := Uni.ascii
    (grid ⟨[0], .elem wTbl []
        [.elem wTr [] [exTc [exSpan c!"2", exMerge [(aVal, c!"restart")]] [], exTc [] []],
         .elem wTr [] [exTc [] [], exTc [exSpan c!"2", exMerge []] []]]⟩).toOption.map
      (fun g => (g.matrix, g.els.map GridEl.rect)) =
    some ([[0, 0, 1], [2, 0, 0]], [[0, 1, 0, 1], [0, 0, 2, 2], [1, 1, 0, 0]]) := by
  decide +kernel

example : ∃ e, letI := Uni.ascii; grid ⟨[0], .elem wTbl []
    [.elem wTr [] [exTc [exMerge [(aVal, c!"restart")]] []], .elem wTr [] [exTc [exMerge [(aVal, c!"continue")]] []]]⟩ = .error e := by
  let _ := Uni.ascii
  exact C39_other_vmerge_refused _ ⟨[0, 1], .elem wTr [] [exTc [exMerge [(aVal, c!"continue")]] []]⟩
    ⟨[0, 1, 0], exTc [exMerge [(aVal, c!"continue")]] []⟩ _ c!"continue" (List.mem_cons_of_mem _ List.mem_cons_self)
    List.mem_cons_self rfl rfl (by decide) (by decide)

end Spex
