import Verif.Lemmas.RowIter
import Verif.Model.Ascii
import Mathlib.Data.List.Forall2
import Mathlib.Tactic.ByContra
/-
C10, C11, C12: row iteration.
-/
set_option autoImplicit false
namespace Spex
variable [Uni]

/-! ### C10 -/

/-- a table row with at least one cell -/
def HasCell (k : Node) : Bool := k.hasTag tTr && (!(k.childs tTd).isEmpty || !(k.childs tTh).isEmpty)

/-- `out` is handed out for the source row `src`: same tag and attributes, all data cells of the source in their order,
and a row with a header cell is unchanged -/
def HandedOut (src out : Node) : Prop :=
  out.tag? = src.tag? ∧ (∀ a, out.attr? a = src.attr? a) ∧ (src.childs tTd).Sublist (out.childs tTd) ∧
  (containsTh src = true → out = src)

omit [Uni] in
theorem candidateRows_nodes (ks : List Node) : (candidateRows ks).map (·.node) = ks.filter HasCell := by
  induction ks with
  | nil => rfl
  | cons k ks ih =>
    have e : candidateRows (k :: ks) = if HasCell k = true then ⟨k, ks.filter Node.isElem⟩ :: candidateRows ks else candidateRows ks := rfl
    rw [e]
    by_cases h : HasCell k = true
    · rw [List.filter_cons_of_pos h, if_pos h, List.map_cons, ih]
    · rw [List.filter_cons_of_neg h, if_neg h, ih]

theorem sorted_sublist (off : Int) (tds : List Node) (alst : List Pend) (l : List Node)
    (h : sortedRowChildren off tds alst = .ok l) : tds.Sublist l := by
  induction tds generalizing off alst l with
  | nil => exact List.nil_sublist _
  | cons td tds ih =>
    simp only [sortedRowChildren] at h
    split at h
    · simp at h
    · split at h
      · simp at h
      · split at h
        · simp at h
        · rename_i hh
          simp only [Except.ok.injEq] at h
          rw [← h]
          exact (List.Sublist.cons_cons td (ih _ _ _ hh)).trans (List.sublist_append_right _ _)

theorem rebuildRow_handedOut {row row' : Row} {alst : List Pend} (hth : containsTh row.node = false)
    (h : rebuildRow row alst = .ok row') : HandedOut row.node row'.node := by
  unfold rebuildRow at h
  split at h
  · simp only [Except.ok.injEq] at h
    subst h
    exact ⟨rfl, fun _ => rfl, List.Sublist.refl _, fun _ => rfl⟩
  · split at h
    · simp at h
    · rename_i tds htds
      simp only [Except.ok.injEq] at h
      subst h
      have hs := sorted_sublist _ _ _ _ htds
      cases hn : row.node with
      | text s => exact ⟨rfl, fun _ => rfl, by simp [Node.childs, Node.kids], fun _ => rfl⟩
      | elem t as ks =>
        refine ⟨rfl, fun _ => rfl, ?_, ?_⟩
        · rw [hn] at hs
          have := hs.filter (Node.hasTag tTd)
          simp only [Node.childs, Node.kids] at this ⊢
          rwa [List.filter_filter, show (fun a => Node.hasTag tTd a && Node.hasTag tTd a) = Node.hasTag tTd by
            funext a; simp] at this
        · intro hc
          rw [hn] at hth
          rw [hth] at hc
          cases hc

/-- C10: the rows handed out are, one by one and in document order, those of an initial piece of the rows which have a
cell; the piece is everything unless a malformed span attribute stops the iteration with an exception. -/
theorem C10_rows_preserved (tbl : Node) :
    ∃ done todo, tbl.kids.filter HasCell = done ++ todo ∧
      List.Forall₂ HandedOut done ((rowIter tbl).1.map (·.node)) ∧ ((rowIter tbl).2 = none ↔ todo = []) := by
  unfold rowIter
  rw [← candidateRows_nodes]
  generalize candidateRows tbl.kids = rows
  generalize ([] : List Pend) = alst
  induction rows generalizing alst with
  | nil => exact ⟨[], [], rfl, .nil, by simp [rowIterGo]⟩
  | cons r rows ih =>
    by_cases hth : containsTh r.node = true
    · obtain ⟨d, t, h1, h2, h3⟩ := ih alst
      simp only [rowIterGo, if_pos hth]
      refine ⟨r.node :: d, t, by simp [h1], ?_, h3⟩
      exact .cons ⟨rfl, fun _ => rfl, List.Sublist.refl _, fun _ => rfl⟩ h2
    · simp only [rowIterGo, if_neg hth]
      cases hr : rebuildRow r alst with
      | error e => exact ⟨[], _, by simp; rfl, .nil, by simp⟩
      | ok row' =>
        simp only
        cases hs : storeSpans 0 (row'.node.childs tTd) alst with
        | error e => exact ⟨[], _, by simp; rfl, .nil, by simp⟩
        | ok alst' =>
          obtain ⟨d, t, h1, h2, h3⟩ := ih (alstCountDecr alst')
          refine ⟨r.node :: d, t, by simp [h1], ?_, h3⟩
          exact .cons (rebuildRow_handedOut (by simpa using hth) hr) h2

/-! ### C12 -/

/-- spans of a cell are numbers, and the row span is at most 1 -/
def PlainCell (td : Node) : Prop := (∃ w, colspan td = .ok w) ∧ ∃ r, rowspan td = .ok r ∧ r ≤ 1

/-- C12: without row spans the rows are handed out unchanged. -/
theorem C12_identity (tbl : Node)
    (h : ∀ tr ∈ tbl.childs tTr, containsTh tr = false → ∀ td ∈ tr.childs tTd, PlainCell td) :
    (rowIter tbl).1.map (·.node) = tbl.kids.filter HasCell ∧ (rowIter tbl).2 = none := by
  unfold rowIter
  rw [← candidateRows_nodes]
  have hr : ∀ r ∈ candidateRows tbl.kids, containsTh r.node = false → ∀ td ∈ r.node.childs tTd, PlainCell td := by
    intro r hr
    have : r.node ∈ tbl.kids.filter HasCell := by
      rw [← candidateRows_nodes]; exact List.mem_map_of_mem hr
    rw [List.mem_filter] at this
    apply h
    unfold Node.childs
    rw [List.mem_filter]
    refine ⟨this.1, ?_⟩
    have := this.2
    unfold HasCell at this
    simp only [Bool.and_eq_true] at this
    exact this.1
  generalize candidateRows tbl.kids = rows at hr
  have hstore : ∀ (tds : List Node) (off : Int), (∀ td ∈ tds, PlainCell td) → storeSpans off tds [] = .ok [] := by
    intro tds
    induction tds with
    | nil => intros; rfl
    | cons td tds ih =>
      intro off htd
      obtain ⟨⟨w, hw⟩, r, hr, hr1⟩ := htd td (by simp)
      simp only [storeSpans, hr, hw]
      rw [if_neg (by omega)]
      exact ih _ (fun x hx => htd x (List.mem_cons_of_mem _ hx))
  suffices hmain : rowIterGo [] rows = (rows, none) by rw [hmain]; exact ⟨rfl, rfl⟩
  induction rows with
  | nil => rfl
  | cons r rows ih =>
    have ih' := ih (fun x hx => hr x (List.mem_cons_of_mem _ hx))
    by_cases hth : containsTh r.node = true
    · simp only [rowIterGo, if_pos hth, ih']
    · simp only [rowIterGo, if_neg hth, rebuildRow, List.isEmpty_nil, if_true,
        hstore _ 0 (hr r (by simp) (by simpa using hth)), alstCountDecr, List.filter_nil, List.map_nil, ih']

/-! ### C11 -/

/-- A cell of the visual grid: upper left corner, extent, element. -/
structure GridCell where
  top : Nat
  left : Nat
  height : Nat
  width : Nat
  node : Node

/-- the cell covers row `i` -/
def GridCell.coversRow (g : GridCell) (i : Nat) : Prop := g.top ≤ i ∧ i < g.top + g.height

/-- the cell covers the slot `(i, j)` -/
def GridCell.covers (g : GridCell) (i j : Nat) : Prop := g.coversRow i ∧ g.left ≤ j ∧ j < g.left + g.width

instance (g : GridCell) (i : Nat) : Decidable (g.coversRow i) := inferInstanceAs (Decidable (_ ∧ _))

/-- `rows` (row by row, the cells which start there, from left to right) is a table whose row number `i` is `W i` columns wide: span
attributes agree with the extents and every slot is covered exactly once -/
structure Rectangular (W : Nat → Nat) (rows : List (List GridCell)) : Prop where
  cell : ∀ (i : Nat) (row : List GridCell), rows[i]? = some row → ∀ g ∈ row, g.top = i ∧ 1 ≤ g.width ∧ 1 ≤ g.height ∧
    g.node.hasTag tTd = true ∧ colspan g.node = .ok (g.width : Int) ∧ rowspan g.node = .ok (g.height : Int)
  order : ∀ row ∈ rows, row.Pairwise (fun a b => a.left < b.left)
  ownCell : ∀ row ∈ rows, row ≠ []
  inside : ∀ g ∈ rows.flatten, ∀ i j, i < rows.length → g.covers i j → j < W i
  total : ∀ i j, i < rows.length → j < W i → ∃ g ∈ rows.flatten, g.covers i j
  unique : ∀ g ∈ rows.flatten, ∀ h ∈ rows.flatten, ∀ i j, i < rows.length → g.covers i j → h.covers i j → g = h

/-- the element shown for a cell in row `i`: the cell itself where it starts, below without the attribute `rowspan` -/
def GridCell.shownAt (g : GridCell) (i : Nat) : Node := if g.top = i then g.node else dropRowspan g.node

/-- `L` lists the cells which cover row `i`, from left to right -/
def VisualRow (rows : List (List GridCell)) (i : Nat) (L : List GridCell) : Prop :=
  L.Pairwise (fun a b => a.left < b.left) ∧ ∀ g, g ∈ L ↔ g ∈ rows.flatten ∧ g.coversRow i

omit [Uni] in
theorem sorted_ext {A B : List GridCell} (hA : A.Pairwise (fun a b => a.left < b.left))
    (hB : B.Pairwise (fun a b => a.left < b.left)) (h : ∀ g, g ∈ A ↔ g ∈ B) : A = B := by
  induction A generalizing B with
  | nil =>
    cases B with
    | nil => rfl
    | cons b B => exact absurd ((h b).mpr (by simp)) (by simp)
  | cons a A ih =>
    cases B with
    | nil => exact absurd ((h a).mp (by simp)) (by simp)
    | cons b B =>
      rw [List.pairwise_cons] at hA hB
      have hab : a = b := by
        have h1 := (h a).mp (by simp)
        have h2 := (h b).mpr (by simp)
        rcases List.mem_cons.mp h1 with h1 | h1
        · exact h1
        · rcases List.mem_cons.mp h2 with h2 | h2
          · exact h2.symm
          · have := hA.1 b h2
            have := hB.1 a h1
            omega
      subst hab
      rw [ih hA.2 hB.2]
      intro g
      constructor
      · intro hg
        rcases List.mem_cons.mp ((h g).mp (List.mem_cons_of_mem _ hg)) with rfl | h'
        · have := hA.1 g hg; omega
        · exact h'
      · intro hg
        rcases List.mem_cons.mp ((h g).mpr (List.mem_cons_of_mem _ hg)) with rfl | h'
        · have := hB.1 g hg; omega
        · exact h'

/-- a visual row as slots of the row iterator -/
def slotsAt (i : Nat) (L : List GridCell) : List Slot :=
  L.map (fun g => ⟨g.left, g.shownAt i, g.width, (g.top + g.height : Nat) - (i : Int), g.top = i⟩)

omit [Uni] in
theorem side_of_cover (i W : Nat) (L : List GridCell) (c : Nat) (hsort : L.Pairwise (fun a b => a.left < b.left))
    (hw : ∀ g ∈ L, 1 ≤ g.width) (hin : ∀ g ∈ L, ∀ j, g.left ≤ j → j < g.left + g.width → c ≤ j ∧ j < W)
    (htot : ∀ j, c ≤ j → j < W → ∃ g ∈ L, g.left ≤ j ∧ j < g.left + g.width)
    (huniq : ∀ g ∈ L, ∀ h ∈ L, ∀ j, g.left ≤ j → j < g.left + g.width → h.left ≤ j → j < h.left + h.width → g = h) :
    Side c (slotsAt i L) := by
  induction L generalizing c with
  | nil => trivial
  | cons g L ih =>
    rw [List.pairwise_cons] at hsort
    have hwg := hw g (by simp)
    have hgi := hin g (by simp) g.left (by omega) (by omega)
    have hgl : g.left = c := by
      obtain ⟨h, hh, h1, h2⟩ := htot c (by omega) (by omega)
      rcases List.mem_cons.mp hh with rfl | hh
      · omega
      · have := hsort.1 h hh; omega
    refine ⟨by simp [hgl], by simp only; omega, ?_⟩
    have := ih (c + g.width) hsort.2 (fun x hx => hw x (List.mem_cons_of_mem _ hx)) ?_ ?_
      (fun x hx y hy => huniq x (List.mem_cons_of_mem _ hx) y (List.mem_cons_of_mem _ hy))
    · rw [Int.natCast_add] at this
      exact this
    · intro h hh j h1 h2
      have h3 := hin h (List.mem_cons_of_mem _ hh) j h1 h2
      refine ⟨?_, h3.2⟩
      by_contra hlt
      have hgh := hsort.1 h hh
      have := huniq g (by simp) h (List.mem_cons_of_mem _ hh) j (by omega) (by omega) h1 h2
      subst this
      omega
    · intro j h1 h2
      obtain ⟨h, hh, h3, h4⟩ := htot j (by omega) h2
      rcases List.mem_cons.mp hh with rfl | hh
      · omega
      · exact ⟨h, hh, h3, h4⟩

omit [Uni] in
/-- the visual row exists -/
theorem exists_visualRow {rows : List (List GridCell)} (hu : ∀ g ∈ rows.flatten, ∀ h ∈ rows.flatten, ∀ i j,
      i < rows.length → g.covers i j → h.covers i j → g = h) (hw : ∀ g ∈ rows.flatten, 1 ≤ g.width) (i : Nat) (hi : i < rows.length)
    (hnd : rows.flatten.Nodup) : ∃ L, VisualRow rows i L := by
  let le : GridCell → GridCell → Bool := fun a b => decide (a.left ≤ b.left)
  have hp := List.mergeSort_perm (rows.flatten.filter (fun g => decide (g.coversRow i))) le
  have hs := List.pairwise_mergeSort (le := le) (by intro a b c; simp [le]; omega) (by intro a b; simp [le]; omega)
    (rows.flatten.filter (fun g => decide (g.coversRow i)))
  generalize (rows.flatten.filter (fun g => decide (g.coversRow i))).mergeSort le = L at hp hs
  have hmem : ∀ g, g ∈ L ↔ g ∈ rows.flatten ∧ g.coversRow i := by
    intro g
    rw [hp.mem_iff, List.mem_filter]
    simp
  have hnodup : L.Nodup := hp.symm.nodup (hnd.filter _)
  refine ⟨L, ?_, hmem⟩
  have := hs.and hnodup
  refine List.Pairwise.imp_of_mem ?_ this
  rintro a b ha hb ⟨h1, h2⟩
  simp only [le, decide_eq_true_eq] at h1
  rcases Nat.lt_or_ge a.left b.left with h | h
  · exact h
  · exfalso
    apply h2
    have ha' := (hmem a).mp ha
    have hb' := (hmem b).mp hb
    have hwa := hw a ha'.1
    have hwb := hw b hb'.1
    exact hu a ha'.1 b hb'.1 i a.left hi ⟨ha'.2, by omega, by omega⟩ ⟨hb'.2, by omega, by omega⟩

omit [Uni] in
theorem mem_rows_top {rows : List (List GridCell)} (hc : ∀ (i : Nat) (row : List GridCell), rows[i]? = some row → ∀ g ∈ row, g.top = i) (g : GridCell)
    (i : Nat) (row : List GridCell) (hr : rows[i]? = some row) : g ∈ row ↔ g ∈ rows.flatten ∧ g.top = i := by
  constructor
  · intro h
    refine ⟨?_, hc i row hr g h⟩
    rw [List.mem_flatten]
    exact ⟨row, List.mem_of_getElem? hr, h⟩
  · rintro ⟨h, ht⟩
    rw [List.mem_flatten] at h
    obtain ⟨row', hr', hg⟩ := h
    obtain ⟨k, hk⟩ := List.getElem?_of_mem hr'
    have := hc k row' hk g hg
    have hki : k = i := by omega
    subst hki
    rw [hr] at hk
    cases hk
    exact hg

theorem rectangular_rows {W : Nat → Nat} {rows : List (List GridCell)} (hR : Rectangular W rows) (Ls : List (List GridCell))
    (i : Nat) (prev : List Slot) (hlen : i + Ls.length = rows.length) (hL : ∀ (k : Nat) L, Ls[k]? = some L → VisualRow rows (i + k) L)
    (hprev : ∀ L, VisualRow rows i L → (slotsAt i L).filter (fun s => !s.own) = handDown prev) :
    Rows prev (Ls.mapIdx (fun k L => slotsAt (i + k) L)) := by
  have hcell : ∀ g ∈ rows.flatten, 1 ≤ g.width ∧ 1 ≤ g.height ∧
      g.node.hasTag tTd = true ∧ colspan g.node = .ok (g.width : Int) ∧ rowspan g.node = .ok (g.height : Int) := by
    intro g hg
    rw [List.mem_flatten] at hg
    obtain ⟨row, hr, hg⟩ := hg
    obtain ⟨k, hk⟩ := List.getElem?_of_mem hr
    exact (hR.cell k row hk g hg).2
  induction Ls generalizing i prev with
  | nil => trivial
  | cons L Ls ih =>
    have hV := hL 0 L rfl
    rw [Nat.add_zero] at hV
    simp only [List.length_cons] at hlen
    rw [List.mapIdx_cons]
    refine ⟨?_, ?_, hprev L hV, ?_⟩
    · have hm : ∀ g ∈ L, g ∈ rows.flatten ∧ g.coversRow i := fun g hg => (hV.2 g).mp hg
      have := side_of_cover i (W i) L 0 hV.1 (fun g hg => (hcell g (hm g hg).1).1)
        (fun g hg j h1 h2 => ⟨by omega, hR.inside g (hm g hg).1 i j (by omega) ⟨(hm g hg).2, h1, h2⟩⟩)
        (fun j _ hj => by
          obtain ⟨g, hg, hc⟩ := hR.total i j (by omega) hj
          exact ⟨g, (hV.2 g).mpr ⟨hg, hc.1⟩, hc.2⟩)
        (fun g hg h hh j h1 h2 h3 h4 => hR.unique g (hm g hg).1 h (hm h hh).1 i j (by omega) ⟨(hm g hg).2, h1, h2⟩
          ⟨(hm h hh).2, h3, h4⟩)
      simpa using this
    · intro s hs
      unfold slotsAt at hs
      obtain ⟨g, hg, rfl⟩ := List.mem_map.mp hs
      obtain ⟨h1, h2, h3, h4, h5⟩ := hcell g ((hV.2 g).mp hg).1
      have hc := ((hV.2 g).mp hg).2
      unfold GridCell.coversRow at hc
      unfold SlotOk GridCell.shownAt
      simp only [Nat.add_zero]
      by_cases ht : g.top = i
      · simp only [ht, if_true, decide_true]
        refine ⟨h3, h4, by omega, by omega, ?_⟩
        rw [h5]; congr 1; omega
      · simp only [ht, if_false, decide_false, Bool.false_eq_true]
        exact ⟨by rw [dropRowspan_hasTag]; exact h3, by rw [colspan_dropRowspan]; exact h4, by omega, by omega,
          dropRowspan_idem _⟩
    · have hnext := ih (i + 1) (slotsAt i L) (by omega) (by
        intro k L' hk
        have := hL (k + 1) L' (by simpa using hk)
        rwa [show i + 1 + k = i + (k + 1) by omega]) ?_
      · rw [show (fun k L => slotsAt (i + (k + 1)) L) = (fun k L => slotsAt (i + 1 + k) L) by
          funext k L; rw [show i + 1 + k = i + (k + 1) by omega]]
        simpa using hnext
      · intro L' hV'
        -- both sides are the cells which start at or above row i and cover row i + 1
        have heq : L'.filter (fun g => g.top ≠ i + 1) = L.filter (fun g => decide (g.top + g.height > i + 1)) := by
          apply sorted_ext (hV'.1.filter _) (hV.1.filter _)
          intro g
          rw [List.mem_filter, List.mem_filter, hV'.2 g, hV.2 g]
          unfold GridCell.coversRow
          simp only [decide_eq_true_eq]
          constructor
          · rintro ⟨⟨h1, h2, h3⟩, h4⟩
            exact ⟨⟨h1, by omega, by omega⟩, by omega⟩
          · rintro ⟨⟨h1, h2, h3⟩, h4⟩
            exact ⟨⟨h1, by omega, by omega⟩, by omega⟩
        have e1 : (slotsAt (i + 1) L').filter (fun s => !s.own) = slotsAt (i + 1) (L'.filter (fun g => g.top ≠ i + 1)) := by
          unfold slotsAt
          rw [List.filter_map]
          congr 1
          apply List.filter_congr
          intro g _
          simp
        have e2 : handDown (slotsAt i L) = slotsAt (i + 1) (L.filter (fun g => decide (g.top + g.height > i + 1))) := by
          unfold handDown slotsAt
          rw [List.filter_map, List.map_map]
          have : L.filter ((fun s : Slot => decide (s.rem > 1)) ∘ fun g : GridCell =>
              (⟨g.left, g.shownAt i, g.width, (g.top + g.height : Nat) - (i : Int), decide (g.top = i)⟩ : Slot)) =
              L.filter (fun g => decide (g.top + g.height > i + 1)) := by
            apply List.filter_congr
            intro g _
            simp only [Function.comp, decide_eq_decide]
            omega
          rw [this]
          apply List.map_congr_left
          intro g hg
          have hg' := (List.mem_filter.mp hg).1
          have hc := ((hV.2 g).mp hg').2
          unfold GridCell.coversRow at hc
          simp only [Function.comp, GridCell.shownAt]
          rw [if_neg (by omega : ¬ g.top = i + 1)]
          congr 1
          · split
            · rfl
            · exact dropRowspan_idem _
          · omega
          · simp; omega
        rw [e1, e2, heq]

omit [Uni] in
theorem flatten_nodup {rows : List (List GridCell)} (hc : ∀ (i : Nat) (row : List GridCell), rows[i]? = some row → ∀ g ∈ row, g.top = i)
    (ho : ∀ row ∈ rows, row.Pairwise (fun a b => a.left < b.left)) : rows.flatten.Nodup := by
  unfold List.Nodup
  rw [List.pairwise_flatten]
  constructor
  · intro row hr
    exact (ho row hr).imp (fun h e => by subst e; omega)
  · rw [List.pairwise_iff_getElem]
    intro i j hi hj hij a ha b hb e
    subst e
    have h1 := hc i _ (List.getElem?_eq_getElem hi) a ha
    have h2 := hc j _ (List.getElem?_eq_getElem hj) a hb
    omega

omit [Uni] in
theorem dataCells_candidates (ks : List Node) : dataCells (candidateRows ks) =
    ((ks.filter (Node.hasTag tTr)).filter (fun k => !containsTh k && !(k.childs tTd).isEmpty)).map (·.childs tTd) := by
  induction ks with
  | nil => rfl
  | cons k ks ih =>
    simp only [candidateRows]
    by_cases ht : k.hasTag tTr = true
    · rw [List.filter_cons_of_pos ht]
      simp only [ht, Bool.true_and]
      by_cases hth : containsTh k = true
      · rw [List.filter_cons_of_neg (by simp [hth]), ← ih]
        split
        · unfold dataCells
          rw [List.filter_cons_of_neg (by simp [hth])]
        · rfl
      · have hth' : (k.childs tTh).isEmpty = true := by
          unfold containsTh at hth; simpa using hth
        by_cases htd : (k.childs tTd).isEmpty = true
        · rw [List.filter_cons_of_neg (by simp [htd]), ← ih, if_neg (by simp [htd, hth'])]
        · rw [List.filter_cons_of_pos (by simp [hth, htd]), List.map_cons, ← ih, if_pos (by simp [htd])]
          unfold dataCells
          rw [List.filter_cons_of_pos (by simpa using hth)]
          rfl
    · rw [List.filter_cons_of_neg ht, ← ih, if_neg (by simp [ht])]

/-- C11: in a table whose data rows have no gaps and no overlaps (they need not be of the same width), the data rows handed out are the visual rows: for each row
the cells which cover it, from left to right, each with its own content. Rows with header cells may be interspersed. -/
theorem C11_visual_rows (tbl : Node) (W : Nat → Nat) (rows : List (List GridCell)) (hR : Rectangular W rows)
    (hsrc : ((tbl.childs tTr).filter (fun tr => !containsTh tr)).map (·.childs tTd) = rows.map (·.map (·.node))) :
    ∃ Ls : List (List GridCell), Ls.length = rows.length ∧ (∀ (i : Nat) L, Ls[i]? = some L → VisualRow rows i L) ∧ (rowIter tbl).2 = none ∧
      (((rowIter tbl).1.map (·.node)).filter (fun r => !containsTh r)).map (·.childs tTd) =
        Ls.mapIdx (fun i L => L.map (·.shownAt i)) := by
  have htop : ∀ (i : Nat) (row : List GridCell), rows[i]? = some row → ∀ g ∈ row, g.top = i := fun i row h g hg => (hR.cell i row h g hg).1
  have hcell : ∀ g ∈ rows.flatten, 1 ≤ g.width ∧ 1 ≤ g.height := by
    intro g hg
    rw [List.mem_flatten] at hg
    obtain ⟨row, hr, hg⟩ := hg
    obtain ⟨k, hk⟩ := List.getElem?_of_mem hr
    have := hR.cell k row hk g hg
    exact ⟨this.2.1, this.2.2.1⟩
  have hnd := flatten_nodup htop hR.order
  have hex : ∀ i : Fin rows.length, ∃ L, VisualRow rows i L := fun i =>
    exists_visualRow hR.unique (fun g hg => (hcell g hg).1) i i.2 hnd
  let LL : Fin rows.length → List GridCell := fun i => Classical.choose (hex i)
  have hLL : ∀ i : Fin rows.length, VisualRow rows i (LL i) := fun i => Classical.choose_spec (hex i)
  generalize hLs : List.ofFn LL = Ls
  have hlen : Ls.length = rows.length := by rw [← hLs]; simp
  have hV : ∀ i L, Ls[i]? = some L → VisualRow rows i L := by
    intro i L h
    rw [← hLs, List.getElem?_ofFn] at h
    split at h
    · simp only [Option.some.injEq] at h
      rw [← h]
      exact hLL ⟨i, by assumption⟩
    · simp at h
  refine ⟨Ls, hlen, hV, ?_⟩
  have hrows := rectangular_rows hR Ls 0 [] (by simpa using hlen) (by simpa using hV) (by
    intro L hL
    rw [show handDown [] = [] by rfl]
    rw [List.filter_eq_nil_iff]
    intro s hs
    unfold slotsAt at hs
    obtain ⟨g, hg, rfl⟩ := List.mem_map.mp hs
    have := ((hL.2 g).mp hg).2
    unfold GridCell.coversRow at this
    simp
    omega)
  have hown : dataCells (candidateRows tbl.kids) =
      (Ls.mapIdx (fun k L => slotsAt (0 + k) L)).map (fun L => (L.filter (·.own)).map (·.td)) := by
    rw [dataCells_candidates]
    have h1 : (tbl.kids.filter (Node.hasTag tTr)).filter (fun k => !containsTh k && !(k.childs tTd).isEmpty) =
        (tbl.childs tTr).filter (fun tr => !containsTh tr) := by
      apply List.filter_congr
      intro k hk
      cases hth : containsTh k with
      | true => rfl
      | false =>
        have hm : k.childs tTd ∈ rows.map (·.map (·.node)) := by
          rw [← hsrc]
          apply List.mem_map_of_mem
          rw [List.mem_filter]
          exact ⟨hk, by simp [hth]⟩
        obtain ⟨row, hr, he⟩ := List.mem_map.mp hm
        rw [← he]
        have := hR.ownCell row hr
        simpa using this
    rw [h1, hsrc]
    apply List.ext_getElem?
    intro i
    rw [List.getElem?_map, List.getElem?_map, List.getElem?_mapIdx]
    cases hr : rows[i]? with
    | none =>
      have : Ls[i]? = none := by
        rw [List.getElem?_eq_none_iff] at hr ⊢; omega
      rw [this]; rfl
    | some row =>
      have hi : i < Ls.length := by
        rw [hlen]; exact (List.getElem?_eq_some_iff.mp hr).1
      have hLi : Ls[i]? = some Ls[i] := List.getElem?_eq_getElem hi
      rw [hLi]
      have hVi := hV i _ hLi
      simp only [Option.map_some, Nat.zero_add]
      congr 1
      unfold slotsAt
      rw [List.filter_map, List.map_map]
      have he : row = Ls[i].filter ((fun s : Slot => s.own) ∘ fun g : GridCell =>
              (⟨g.left, g.shownAt i, g.width, (g.top + g.height : Nat) - (i : Int), decide (g.top = i)⟩ : Slot)) := by
        apply sorted_ext (hR.order row (List.mem_of_getElem? hr)) (hVi.1.filter _)
        intro g
        rw [mem_rows_top htop g i row hr, List.mem_filter, hVi.2 g]
        simp only [Function.comp, decide_eq_true_eq]
        constructor
        · rintro ⟨h1, h2⟩
          have := hcell g h1
          exact ⟨⟨h1, by unfold GridCell.coversRow; omega⟩, h2⟩
        · rintro ⟨⟨h1, -⟩, h2⟩
          exact ⟨h1, h2⟩
      rw [← he]
      apply List.map_congr_left
      intro g hg
      simp only [Function.comp, GridCell.shownAt, htop i row hr g hg, if_true]
  have helem : ∀ r ∈ candidateRows tbl.kids, r.node.isElem = true := by
    intro r hr
    have : r.node ∈ tbl.kids.filter HasCell := by
      rw [← candidateRows_nodes]; exact List.mem_map_of_mem hr
    have := (List.mem_filter.mp this).2
    cases hn : r.node with
    | text s => rw [hn] at this; simp [HasCell, Node.hasTag] at this
    | elem t as ks => rfl
  obtain ⟨h1, h2⟩ := rowIterGo_rows _ [] _ hrows helem hown
  rw [show (handDown []).map (fun s => (s.col, s.td, s.rem)) = [] by rfl] at h1 h2
  refine ⟨h1, ?_⟩
  unfold rowIter
  rw [List.filter_map, List.map_map]
  unfold dataCells at h2
  rw [show ((fun r => !containsTh r) ∘ fun r : Row => r.node) = (fun r : Row => !containsTh r.node) by rfl]
  rw [show ((fun x : Node => x.childs tTd) ∘ fun r : Row => r.node) = (fun r : Row => r.node.childs tTd) by rfl]
  rw [h2]
  apply List.ext_getElem?
  intro i
  rw [List.getElem?_map, List.getElem?_mapIdx, List.getElem?_mapIdx]
  cases Ls[i]? with
  | none => rfl
  | some L => simp [slotsAt, Function.comp]

/-! examples -/

section
omit [Uni]

/-- a data cell with a text and span attributes -/
def exTd (attrs : List (Str × Str)) (t : Str) : Node := .elem tTd attrs [.text t]

/-- A spans two rows; B, C are beside it; D spans both columns -/
def exRows : List (List GridCell) :=
  [[⟨0, 0, 2, 1, exTd [(aRowspan, c!"2")] c!"A"⟩, ⟨0, 1, 1, 1, exTd [] c!"B"⟩], [⟨1, 1, 1, 1, exTd [] c!"C"⟩],
   [⟨2, 0, 1, 2, exTd [(aColspan, c!"2")] c!"D"⟩]]

def exTable : Node := .elem tTable [] (exRows.map (fun r => .elem tTr [] (r.map (·.node))))

example : letI := Uni.ascii; Rectangular (fun _ => 2) exRows := by
  let _ := Uni.ascii
  constructor
  · intro i row h g hg
    match i with
    | 0 =>
      cases h
      simp only [List.mem_cons, List.not_mem_nil, or_false] at hg
      rcases hg with rfl | rfl <;> decide +kernel
    | 1 =>
      cases h
      simp only [List.mem_cons, List.not_mem_nil, or_false] at hg
      subst hg; decide +kernel
    | 2 =>
      cases h
      simp only [List.mem_cons, List.not_mem_nil, or_false] at hg
      subst hg; decide +kernel
    | i + 3 => simp [exRows] at h
  · simp [exRows]
  · simp [exRows]
  · simp [exRows, GridCell.covers, GridCell.coversRow]
    omega
  · simp [exRows, GridCell.covers, GridCell.coversRow]
    omega
  · intro g hg h hh i j _ h1 h2
    simp only [exRows, List.flatten_cons, List.flatten_nil, List.cons_append, List.nil_append, List.mem_cons,
      List.not_mem_nil, or_false] at hg hh
    unfold GridCell.covers GridCell.coversRow at h1 h2
    rcases hg with rfl | rfl | rfl | rfl <;> rcases hh with rfl | rfl | rfl | rfl <;>
      first | rfl | (exfalso; simp only at h1 h2; omega)

/-- a table with rows of different widths: A spans two rows and is the last cell of the second one -/
def exRagged : List (List GridCell) :=
  [[⟨0, 0, 1, 1, exTd [] c!"B"⟩, ⟨0, 1, 2, 1, exTd [(aRowspan, c!"2")] c!"A"⟩, ⟨0, 2, 1, 2, exTd [(aColspan, c!"2")] c!"D"⟩],
   [⟨1, 0, 1, 1, exTd [] c!"C"⟩], [⟨2, 0, 1, 1, exTd [] c!"E"⟩]]

example : letI := Uni.ascii; Rectangular (fun i => [4, 2, 1].getD i 0) exRagged := by
  let _ := Uni.ascii
  constructor
  · intro i row h g hg
    match i with
    | 0 =>
      cases h
      simp only [List.mem_cons, List.not_mem_nil, or_false] at hg
      rcases hg with rfl | rfl | rfl <;> decide +kernel
    | 1 =>
      cases h
      simp only [List.mem_cons, List.not_mem_nil, or_false] at hg
      subst hg; decide +kernel
    | 2 =>
      cases h
      simp only [List.mem_cons, List.not_mem_nil, or_false] at hg
      subst hg; decide +kernel
    | i + 3 => simp [exRagged] at h
  · simp [exRagged]
  · simp [exRagged]
  · intro g hg i j hi h1
    have hi : i < 3 := hi
    simp only [exRagged, List.flatten_cons, List.flatten_nil, List.cons_append, List.nil_append, List.mem_cons,
      List.not_mem_nil, or_false] at hg
    unfold GridCell.covers GridCell.coversRow at h1
    match i with
    | 0 => rcases hg with rfl | rfl | rfl | rfl | rfl <;> simp only at h1 <;> simp <;> omega
    | 1 => rcases hg with rfl | rfl | rfl | rfl | rfl <;> simp only at h1 <;> simp <;> omega
    | 2 => rcases hg with rfl | rfl | rfl | rfl | rfl <;> simp only at h1 <;> simp <;> omega
  · intro i j hi h1
    have hi : i < 3 := hi
    simp only [exRagged, GridCell.covers, GridCell.coversRow]
    match i with
    | 0 => simp at h1 ⊢; omega
    | 1 => simp at h1 ⊢; omega
    | 2 => simp at h1 ⊢; omega
  · intro g hg h hh i j _ h1 h2
    simp only [exRagged, List.flatten_cons, List.flatten_nil, List.cons_append, List.nil_append, List.mem_cons,
      List.not_mem_nil, or_false] at hg hh
    unfold GridCell.covers GridCell.coversRow at h1 h2
    rcases hg with rfl | rfl | rfl | rfl | rfl <;> rcases hh with rfl | rfl | rfl | rfl | rfl <;>
      first | rfl | (exfalso; simp only at h1 h2; omega)

example : letI := Uni.ascii
    ((rowIter (.elem tTable [] (exRagged.map (fun r => .elem tTr [] (r.map (·.node)))))).1.map (fun r => (r.node.childs tTd).map Node.toText)) =
      [[c!"B", c!"A", c!"D"], [c!"C", c!"A"], [c!"E"]] := by decide +kernel

example : letI := Uni.ascii
    ((rowIter exTable).1.map (fun r => (r.node.childs tTd).map Node.toText)) =
      [[c!"A", c!"B"], [c!"A", c!"C"], [c!"D"]] := by decide +kernel

/-- C11 needs that every row has a cell of its own: a row which consists of spanned cells only has no cell element, is not
handed out, and the cell below is presented with the spanned one (the table has 3 rows, 2 are handed out, and "D", which
is alone in the third row, is presented beside "A" and "B"). -/
theorem C11_row_without_own_cell_false : letI := Uni.ascii
    (rowIter (.elem tTable []
        [.elem tTr [] [exTd [(aRowspan, c!"2")] c!"A", exTd [(aRowspan, c!"2")] c!"B"], .elem tTr [] [],
         .elem tTr [] [exTd [] c!"C", exTd [] c!"D"]])).1.map (fun r => (r.node.childs tTd).map Node.toText) =
      [[c!"A", c!"B"], [c!"A", c!"B", c!"C", c!"D"]] := by decide +kernel

/-- C11 needs that rows have no gaps: if a row ends to the left of the first cell from above which comes next, this cell is lost (`B`), but the ones
to the right of it are shown (`C`). -/
theorem C11_gap_false : letI := Uni.ascii
    (rowIter (.elem tTable []
        [.elem tTr [] [exTd [(aColspan, c!"2")] c!"A", exTd [(aRowspan, c!"2")] c!"B", exTd [(aRowspan, c!"2")] c!"C"],
         .elem tTr [] [exTd [] c!"D"]])).1.map (fun r => (r.node.childs tTd).map Node.toText) =
      [[c!"A", c!"B", c!"C"], [c!"D", c!"C"]] := by decide +kernel

/-- a malformed span stops the iteration after the first row -/
example : letI := Uni.ascii
    let t : Node := .elem tTable [] [.elem tTr [] [exTd [] c!"A"], .elem tTr [] [exTd [(aRowspan, c!"x")] c!"B"],
      .elem tTr [] [exTd [] c!"C"]]
    (rowIter t).1.length = 1 ∧ (rowIter t).2 = some .valueError ∧ (t.kids.filter HasCell).length = 3 := by
  decide +kernel

example : letI := Uni.ascii
    ∀ tr ∈ (Node.elem tTable [] [.elem tTr [] [exTd [(aColspan, c!"2")] c!"A"], .elem tTr [] [exTd [(aRowspan, c!"1")] c!"B"]]).childs tTr,
      containsTh tr = false → ∀ td ∈ tr.childs tTd, PlainCell td := by
  let _ := Uni.ascii
  intro tr htr _ td htd
  simp [Node.childs, Node.kids, Node.hasTag] at htr
  rcases htr with rfl | rfl
  · simp [Node.childs, Node.kids, Node.hasTag, exTd] at htd
    subst htd
    exact ⟨⟨2, by decide +kernel⟩, 1, by decide +kernel, by decide⟩
  · simp [Node.childs, Node.kids, Node.hasTag, exTd] at htd
    subst htd
    exact ⟨⟨1, by decide +kernel⟩, 1, by decide +kernel, by decide⟩

end

end Spex
