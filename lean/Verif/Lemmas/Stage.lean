import Verif.Props.Table
import Verif.Props.RowIter
import Verif.Props.JsonText
/-
From the cells of a Word table to the rows of the second stage.
-/
set_option autoImplicit false
namespace Spex

/-! ### Numbers -/

/-- numbers with at most 4300 digits, python's limit -/
def intLimit : Nat := 10 ^ 4300

theorem natDigits_length (f n k : Nat) (h : n < 10 ^ (k + 1)) : (natDigitsRev f n).length ≤ k + 1 := by
  induction f generalizing n k with
  | zero => simp [natDigitsRev]
  | succ f ih =>
    rw [natDigitsRev]
    split
    · simp
    · rename_i hn
      cases k with
      | zero => exact absurd h (by simpa using hn)
      | succ k =>
        rw [List.length_cons]
        have : n / 10 < 10 ^ (k + 1) := by
          rw [Nat.div_lt_iff_lt_mul (by decide)]
          calc n < 10 ^ (k + 1 + 1) := h
            _ = 10 ^ (k + 1) * 10 := Nat.pow_succ ..
        have := ih (n / 10) k this
        omega

theorem natStr_numeral {n : Nat} (h : n < intLimit) : Numeral (natStr n) n := by
  refine ⟨?_, ?_, ?_, ?_⟩
  · rw [natStr, natDigitsRev]; split <;> simp
  · intro c hc
    have := natDigits_digit _ _ c (List.mem_reverse.1 hc)
    unfold jsonDigit at this
    unfold Char.isDigit
    simpa [UInt32.le_iff_toNat_le] using this
  · unfold natStr
    rw [List.length_reverse]
    exact natDigits_length _ _ 4299 h
  · have := natDigits_value (n + 1) n (by omega)
    unfold natStr Nat.ofDigitChars
    rw [List.foldl_reverse]
    exact this

theorem pyInt_intStr [Uni] {n : Nat} (h : n < intLimit) : pyInt (intStr n) = .ok (n : Int) :=
  (numeral_digits (natStr_numeral h)).2.2

/-! ### Geometry of Word tables -/

/-- the places of the cells of some rows of a Word table -/
structure Placed (rows : List (List WCell)) : Prop where
  cols : ∀ row ∈ rows, ∀ before c after, row = before ++ c :: after → c.col = widthOf before
  pos : ∀ row ∈ rows, ∀ c ∈ row, 1 ≤ c.span
  first : ∀ row, rows[0]? = some row → ∀ c ∈ row, c.cont = false
  aligned : ∀ (i : Nat) above row, rows[i]? = some above → rows[i + 1]? = some row → ∀ c ∈ row, c.cont = true →
    ∃ a ∈ above, a.col = c.col ∧ a.span = c.span

/-- The cell `x` of row `i` belongs to the cell `c` of row `k`, which does not continue another one: it is `c` itself, or `c` is
above it, has the same columns, and is continued by all the cells from there to row `i`. -/
structure Origin (rows : List (List WCell)) (i : Nat) (x : WCell) (k : Nat) (c : WCell) : Prop where
  le : k ≤ i
  row : ∃ row, rows[k]? = some row ∧ c ∈ row
  own : c.cont = false
  col : c.col = x.col
  span : c.span = x.span
  here : k = i → c = x
  cont : ∀ d, k < d → d ≤ i → ∃ row, rows[d]? = some row ∧ ∃ y ∈ row, y.col = x.col ∧ y.cont = true

section
variable {rows : List (List WCell)}

theorem Placed.same (hP : Placed rows) {row : List WCell} (hr : row ∈ rows) {x y : WCell} (hx : x ∈ row) (hy : y ∈ row)
    (h : x.col = y.col) : x = y := by
  have h1 := hP.pos row hr x hx
  have h2 := hP.pos row hr y hy
  exact cols_disjoint (hP.cols row hr) hx hy (k := x.col) (by omega) (by omega) (by omega) (by omega)

theorem Placed.order (hP : Placed rows) {row : List WCell} (hr : row ∈ rows) : row.Pairwise (fun a b => a.col < b.col) := by
  have hc := hP.cols row hr
  have hp := hP.pos row hr
  rw [List.pairwise_iff_forall_sublist]
  intro a b hs
  obtain ⟨l1, l2, rfl, h1, h2⟩ := List.cons_sublist_iff.1 hs
  obtain ⟨p, q, rfl⟩ := List.append_of_mem h1
  rw [List.singleton_sublist] at h2
  obtain ⟨p', q', rfl⟩ := List.append_of_mem h2
  have e1 := hc p a (q ++ (p' ++ b :: q')) (by simp)
  have e2 := hc (p ++ a :: q ++ p') b q' (by simp)
  have := hp a (by simp)
  rw [widthOf_append, widthOf_append, widthOf_cons] at e2
  omega

theorem Placed.inside (hP : Placed rows) {row : List WCell} (hr : row ∈ rows) {c : WCell} (hc : c ∈ row) : c.col + c.span ≤ widthOf row := by
  obtain ⟨p, q, rfl⟩ := List.append_of_mem hc
  have h2 := hP.cols _ hr p c q rfl
  rw [widthOf_append, widthOf_cons]
  omega

theorem Placed.origin (hP : Placed rows) {i : Nat} {row : List WCell} (hi : rows[i]? = some row) {x : WCell} (hx : x ∈ row) :
    ∃ k c, Origin rows i x k c := by
  induction i generalizing row x with
  | zero => exact ⟨0, x, Nat.le_refl _, ⟨row, hi, hx⟩, hP.first row hi x hx, rfl, rfl, fun _ => rfl, fun d h1 h2 => by omega⟩
  | succ i ih =>
    cases hc : x.cont with
    | false => exact ⟨i + 1, x, Nat.le_refl _, ⟨row, hi, hx⟩, hc, rfl, rfl, fun _ => rfl, fun d h1 h2 => by omega⟩
    | true =>
      have hlt := (List.getElem?_eq_some_iff.1 hi).1
      obtain ⟨above, ha⟩ : ∃ above, rows[i]? = some above := ⟨_, List.getElem?_eq_getElem (by omega)⟩
      obtain ⟨a, ham, h1, h2⟩ := hP.aligned i above row ha hi x hx hc
      obtain ⟨k, c, ho⟩ := ih ha ham
      refine ⟨k, c, by have := ho.le; omega, ho.row, ho.own, ho.col.trans h1, ho.span.trans h2, fun h => ?_, fun d hd1 hd2 => ?_⟩
      · have := ho.le; omega
      · by_cases hd : d = i + 1
        · subst hd; exact ⟨row, hi, x, hx, rfl, hc⟩
        · rw [← h1]; exact ho.cont d hd1 (by omega)

theorem Origin.below {i k h : Nat} {x c : WCell} (ho : Origin rows i x k c) (he : Extends rows k c h) : i < k + h := by
  by_contra hlt
  have := he.pos
  obtain ⟨row, hr, y, hy, h1, h2⟩ := ho.cont (k + h) (by omega) (by omega)
  have := he.last row hr y hy (h1.trans ho.col.symm)
  rw [h2] at this
  cases this

/-- a cell is continued in all rows it extends over -/
theorem Placed.continued (hP : Placed rows) {k h i : Nat} {row : List WCell} (hk : rows[k]? = some row) {c : WCell} (hc : c ∈ row)
    (he : Extends rows k c h) (h1 : k ≤ i) (h2 : i < k + h) :
    ∃ row', rows[i]? = some row' ∧ ∃ x ∈ row', x.col = c.col ∧ x.span = c.span ∧ (k = i → x = c) ∧ (k < i → x.cont = true) := by
  obtain ⟨d, rfl⟩ := Nat.exists_eq_add_of_le h1
  induction d with
  | zero => exact ⟨row, hk, c, hc, rfl, rfl, fun _ => rfl, fun h => by omega⟩
  | succ d ih =>
    obtain ⟨above, ha, y, hy, e1, e2, -⟩ := ih (by omega) (by omega)
    obtain ⟨r', hr', x, hx, f1, f2⟩ := he.below (d + 1) (by omega) (by omega)
    obtain ⟨a, ham, g1, g2⟩ := hP.aligned _ above r' ha hr' x hx f2
    have : a = y := hP.same (List.mem_of_getElem? ha) ham hy (by omega)
    subst this
    exact ⟨r', hr', x, hx, f1, g2.symm.trans e2, fun h => by omega, fun _ => f2⟩

/-- the grid cell `g` is the place of the cell `c` of row `i` -/
structure PlaceOf (rows : List (List WCell)) (i : Nat) (c : WCell) (g : GridCell) : Prop where
  top : g.top = i
  left : g.left = c.col
  width : g.width = c.span
  height : Extends rows i c g.height

/-- the grid cells of all cells which do not continue others -/
structure Places (rows : List (List WCell)) (G : List (List GridCell)) : Prop where
  length : G.length = rows.length
  cells : ∀ (i : Nat) row gs, rows[i]? = some row → G[i]? = some gs →
    List.Forall₂ (PlaceOf rows i) (row.filter (fun c => !c.cont)) gs

theorem forall2_left {α β : Type} {P : α → β → Prop} {as : List α} {bs : List β} (h : List.Forall₂ P as bs) {a : α} (ha : a ∈ as) :
    ∃ b ∈ bs, P a b := by
  induction h with
  | nil => cases ha
  | cons h1 _ ih =>
    rcases List.mem_cons.1 ha with rfl | ha
    · exact ⟨_, List.mem_cons_self, h1⟩
    · obtain ⟨b, hb, hp⟩ := ih ha; exact ⟨b, List.mem_cons_of_mem _ hb, hp⟩

theorem forall2_right {α β : Type} {P : α → β → Prop} {as : List α} {bs : List β} (h : List.Forall₂ P as bs) {b : β} (hb : b ∈ bs) :
    ∃ a ∈ as, P a b := by
  induction h with
  | nil => cases hb
  | cons h1 _ ih =>
    rcases List.mem_cons.1 hb with rfl | hb
    · exact ⟨_, List.mem_cons_self, h1⟩
    · obtain ⟨a, ha, hp⟩ := ih hb; exact ⟨a, List.mem_cons_of_mem _ ha, hp⟩

theorem Places.row {G : List (List GridCell)} (h : Places rows G) {i : Nat} {gs : List GridCell} (hg : G[i]? = some gs) :
    ∃ row, rows[i]? = some row := by
  have := (List.getElem?_eq_some_iff.1 hg).1
  exact ⟨_, List.getElem?_eq_getElem (by have := h.length; omega)⟩

theorem Places.grow {G : List (List GridCell)} (h : Places rows G) {i : Nat} {row : List WCell} (hg : rows[i]? = some row) :
    ∃ gs, G[i]? = some gs := by
  have := (List.getElem?_eq_some_iff.1 hg).1
  exact ⟨_, List.getElem?_eq_getElem (by have := h.length; omega)⟩

theorem Places.mem {G : List (List GridCell)} (h : Places rows G) {g : GridCell} (hg : g ∈ G.flatten) :
    ∃ k row gs c, rows[k]? = some row ∧ G[k]? = some gs ∧ g ∈ gs ∧ c ∈ row ∧ c.cont = false ∧ PlaceOf rows k c g := by
  obtain ⟨gs, h1, h2⟩ := List.mem_flatten.1 hg
  obtain ⟨k, hk⟩ := List.getElem?_of_mem h1
  obtain ⟨row, hr⟩ := h.row hk
  obtain ⟨c, hc, hp⟩ := forall2_right (h.cells k row gs hr hk) h2
  obtain ⟨hc1, hc2⟩ := List.mem_filter.1 hc
  exact ⟨k, row, gs, c, hr, hk, h2, hc1, by simpa using hc2, hp⟩

theorem Places.get {G : List (List GridCell)} (h : Places rows G) {k : Nat} {row : List WCell} (hk : rows[k]? = some row) {c : WCell}
    (hc : c ∈ row) (ho : c.cont = false) : ∃ gs g, G[k]? = some gs ∧ g ∈ gs ∧ PlaceOf rows k c g := by
  obtain ⟨gs, hg⟩ := h.grow hk
  obtain ⟨g, hgm, hp⟩ := forall2_left (h.cells k row gs hk hg) (List.mem_filter.2 ⟨hc, by simp [ho]⟩)
  exact ⟨gs, g, hg, hgm, hp⟩

theorem forall2_order {i : Nat} {cs : List WCell} {gs : List GridCell} (h : List.Forall₂ (PlaceOf rows i) cs gs)
    (hc : cs.Pairwise (fun a b => a.col < b.col)) : gs.Pairwise (fun a b => a.left < b.left) := by
  induction h with
  | nil => exact .nil
  | cons h1 h2 ih =>
    rw [List.pairwise_cons] at hc ⊢
    refine ⟨fun g hg => ?_, ih hc.2⟩
    obtain ⟨c, hcm, hp⟩ := forall2_right h2 hg
    rw [h1.left, hp.left]
    exact hc.1 c hcm

theorem sorted_same {gs : List GridCell} (h : gs.Pairwise (fun a b => a.left < b.left)) {a b : GridCell} (ha : a ∈ gs) (hb : b ∈ gs)
    (he : a.left = b.left) : a = b := by
  induction h with
  | nil => cases ha
  | cons h1 _ ih =>
    rcases List.mem_cons.1 ha with rfl | ha' <;> rcases List.mem_cons.1 hb with rfl | hb'
    · rfl
    · have := h1 _ hb'; omega
    · have := h1 _ ha'; omega
    · exact ih ha' hb'

theorem Places.order {G : List (List GridCell)} (hG : Places rows G) (hP : Placed rows) {i : Nat} {gs : List GridCell}
    (hg : G[i]? = some gs) : gs.Pairwise (fun a b => a.left < b.left) := by
  obtain ⟨row, hr⟩ := hG.row hg
  exact forall2_order (hG.cells i row gs hr hg) ((hP.order (List.mem_of_getElem? hr)).filter _)

/-- two cells which cover the same slot are the same -/
theorem Places.unique {G : List (List GridCell)} (hG : Places rows G) (hP : Placed rows) {g g' : GridCell} (hg : g ∈ G.flatten)
    (hg' : g' ∈ G.flatten) {i j : Nat} (h1 : g.covers i j) (h2 : g'.covers i j) : g = g' := by
  obtain ⟨k, row, gs, c, a1, a2, a3, a4, a5, a6⟩ := hG.mem hg
  obtain ⟨k', row', gs', c', b1, b2, b3, b4, b5, b6⟩ := hG.mem hg'
  obtain ⟨⟨u1, u2⟩, u3, u4⟩ := h1
  obtain ⟨⟨v1, v2⟩, v3, v4⟩ := h2
  rw [a6.top] at u1 u2
  rw [b6.top] at v1 v2
  rw [a6.left] at u3 u4
  rw [b6.left] at v3 v4
  rw [a6.width] at u4
  rw [b6.width] at v4
  obtain ⟨r, hr, x, hx, x1, x2, -⟩ := hP.continued a1 a4 a6.height u1 u2
  obtain ⟨r', hr', x', hx', x1', x2', -⟩ := hP.continued b1 b4 b6.height v1 v2
  rw [hr] at hr'
  cases hr'
  have hxx : x = x' := cols_disjoint (hP.cols r (List.mem_of_getElem? hr)) hx hx' (k := j) (by omega) (by omega) (by omega) (by omega)
  subst hxx
  have hkk : k = k' := by
    rcases Nat.lt_trichotomy k k' with hlt | he | hlt
    · exfalso
      obtain ⟨s, hs, y, hy, y1, -, -, y2⟩ := hP.continued a1 a4 a6.height (i := k') (by omega) (by omega)
      rw [b1] at hs; cases hs
      have := hP.same (List.mem_of_getElem? b1) hy b4 (by omega)
      rw [this] at y2
      rw [y2 hlt] at b5; cases b5
    · exact he
    · exfalso
      obtain ⟨s, hs, y, hy, y1, -, -, y2⟩ := hP.continued b1 b4 b6.height (i := k) (by omega) (by omega)
      rw [a1] at hs; cases hs
      have := hP.same (List.mem_of_getElem? a1) hy a4 (by omega)
      rw [this] at y2
      rw [y2 hlt] at a5; cases a5
  subst hkk
  rw [a2] at b2; cases b2
  exact sorted_same (hG.order hP a2) a3 b3 (by rw [a6.left, b6.left]; omega)

theorem Places.rectangular [Uni] {G : List (List GridCell)} (hG : Places rows G) (hP : Placed rows)
    (hown : ∀ row ∈ rows, ∃ c ∈ row, c.cont = false)
    (hcell : ∀ g ∈ G.flatten, g.node.hasTag tTd = true ∧ colspan g.node = .ok (g.width : Int) ∧ rowspan g.node = .ok (g.height : Int)) :
    Rectangular (fun i => widthOf ((rows[i]?).getD [])) G := by
  constructor
  · intro i gs hi g hg
    obtain ⟨row, hr⟩ := hG.row hi
    obtain ⟨c, hc, hp⟩ := forall2_right (hG.cells i row gs hr hi) hg
    refine ⟨hp.top, ?_, hp.height.pos, hcell g (List.mem_flatten.2 ⟨gs, List.mem_of_getElem? hi, hg⟩)⟩
    rw [hp.width]
    exact hP.pos row (List.mem_of_getElem? hr) c (List.mem_filter.1 hc).1
  · intro gs hg
    obtain ⟨k, hk⟩ := List.getElem?_of_mem hg
    exact hG.order hP hk
  · intro gs hg he
    obtain ⟨k, hk⟩ := List.getElem?_of_mem hg
    obtain ⟨row, hr⟩ := hG.row hk
    obtain ⟨c, hc, ho⟩ := hown row (List.mem_of_getElem? hr)
    obtain ⟨g, hgm, -⟩ := forall2_left (hG.cells k row gs hr hk) (List.mem_filter.2 ⟨hc, by simp [ho]⟩)
    rw [he] at hgm; cases hgm
  · intro g hg i j hi hc
    obtain ⟨k, row, gs, c, a1, a2, a3, a4, a5, a6⟩ := hG.mem hg
    obtain ⟨⟨u1, u2⟩, h3⟩ := hc
    rw [a6.top] at u1 u2
    rw [a6.left, a6.width] at h3
    obtain ⟨row', hr', x, hx, x1, x2, -, -⟩ := hP.continued a1 a4 a6.height u1 u2
    have := hP.inside (List.mem_of_getElem? hr') hx
    rw [hr', Option.getD_some]
    omega
  · intro i j hi hj
    rw [hG.length] at hi
    obtain ⟨row, hr⟩ : ∃ row, rows[i]? = some row := ⟨_, List.getElem?_eq_getElem hi⟩
    have hm := List.mem_of_getElem? hr
    obtain ⟨x, hx, h1, h2⟩ := cols_cover (hP.cols row hm) (k := j) (by rw [hr, Option.getD_some] at hj; exact hj)
    obtain ⟨k, c, ho⟩ := hP.origin hr hx
    obtain ⟨row', hr', hc⟩ := ho.row
    obtain ⟨gs, g, g1, g2, g3⟩ := hG.get hr' hc ho.own
    refine ⟨g, List.mem_flatten.2 ⟨gs, List.mem_of_getElem? g1, g2⟩, ⟨?_, ?_⟩, ?_, ?_⟩
    · rw [g3.top]; exact ho.le
    · rw [g3.top]; exact ho.below g3.height
    · rw [g3.left, ho.col]; exact h1
    · rw [g3.left, g3.width, ho.col, ho.span]; exact h2
  · intro g hg g' hg' i j hi h1 h2
    exact hG.unique hP hg hg' h1 h2

/-- the cells of a visual row are those of the Word table -/
theorem Places.visual {G : List (List GridCell)} (hG : Places rows G) (hP : Placed rows) {i : Nat} {row : List WCell}
    (hr : rows[i]? = some row) {L : List GridCell} (hL : VisualRow G i L) :
    List.Forall₂ (fun x g => ∃ k c gs, Origin rows i x k c ∧ G[k]? = some gs ∧ g ∈ gs ∧ PlaceOf rows k c g) row L := by
  have hm := List.mem_of_getElem? hr
  have hex : ∀ xs : List WCell, (∀ x ∈ xs, x ∈ row) → ∃ L', List.Forall₂
      (fun x g => ∃ k c gs, Origin rows i x k c ∧ G[k]? = some gs ∧ g ∈ gs ∧ PlaceOf rows k c g) xs L' := by
    intro xs
    induction xs with
    | nil => exact fun _ => ⟨[], .nil⟩
    | cons x xs ih =>
      intro h
      obtain ⟨L', hL'⟩ := ih (fun y hy => h y (List.mem_cons_of_mem _ hy))
      obtain ⟨k, c, ho⟩ := hP.origin hr (h x List.mem_cons_self)
      obtain ⟨row', hr', hc⟩ := ho.row
      obtain ⟨gs, g, g1, g2, g3⟩ := hG.get hr' hc ho.own
      exact ⟨g :: L', .cons ⟨k, c, gs, ho, g1, g2, g3⟩ hL'⟩
  obtain ⟨L', hL'⟩ := hex row (fun _ h => h)
  have he : L = L' := by
    refine sorted_ext hL.1 ?_ (fun g => ?_)
    · have ho := hP.order hm
      clear hex
      generalize row = xs at hL' ho
      induction hL' with
      | nil => exact .nil
      | cons h1 h2 ih =>
        rw [List.pairwise_cons] at ho ⊢
        refine ⟨fun g hg => ?_, ih ho.2⟩
        obtain ⟨y, hy, k', c', gs', o', -, -, p'⟩ := forall2_right h2 hg
        obtain ⟨k, c, gs, o, -, -, p⟩ := h1
        have := ho.1 y hy
        rw [p.left, p'.left, o.col, o'.col]
        exact this
    · rw [hL.2 g]
      constructor
      · rintro ⟨hg, hc⟩
        obtain ⟨k, row', gs, c, a1, a2, a3, a4, a5, a6⟩ := hG.mem hg
        obtain ⟨u1, u2⟩ := hc
        rw [a6.top] at u1 u2
        obtain ⟨r, hr', x, hx, x1, x2, -⟩ := hP.continued a1 a4 a6.height u1 u2
        rw [hr] at hr'; cases hr'
        obtain ⟨g', hg', k', c', gs', o', q1, q2, q3⟩ := forall2_left hL' hx
        have hp := hP.pos _ hm x hx
        have : g = g' := hG.unique hP hg (List.mem_flatten.2 ⟨gs', List.mem_of_getElem? q1, q2⟩) (i := i) (j := x.col)
          ⟨⟨by rw [a6.top]; exact u1, by rw [a6.top]; exact u2⟩, by rw [a6.left]; omega, by rw [a6.left, a6.width]; omega⟩
          ⟨⟨by rw [q3.top]; exact o'.le, by rw [q3.top]; exact o'.below q3.height⟩, by rw [q3.left, o'.col] <;> omega, by
            rw [q3.left, q3.width, o'.col, o'.span]; omega⟩
        rw [this]; exact hg'
      · intro hg
        obtain ⟨x, hx, k, c, gs, o, q1, q2, q3⟩ := forall2_right hL' hg
        exact ⟨List.mem_flatten.2 ⟨gs, List.mem_of_getElem? q1, q2⟩, by rw [q3.top]; exact o.le, by rw [q3.top]; exact o.below q3.height⟩
  rw [he]
  exact hL'

end

end Spex
