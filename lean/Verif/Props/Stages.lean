import Verif.Lemmas.Stage
import Verif.Model.Document
import Verif.Lemmas.Rank
/-
C41: the rows of a Word table, after both stages.
-/
set_option autoImplicit false
namespace Spex

/-! ### Specification -/

/-- a Word cell with a shade of grey other than white; such cells mark header rows -/
def Grey [Uni] (tc : Node) : Prop :=
  ∃ a b, tc.attrFirst [wTcPr, c!"w:shd"] c!"w:fill" = some [a, b, a, b, a, b] ∧ lower [a, b, a, b, a, b] ≠ c!"ffffff"

/-- `y` stands for the cell `x` of row `i` of the Word table shown by the `table` element `n`: it is the element of the cell which
`x` belongs to, as it is in the page, and without `rowspan` in the rows below. -/
def StandsFor [Uni] (doc : WordDoc) (cls : Classes) (rows : List (List WCell)) (n : Node) (i : Nat) (x : WCell) (y : Node) : Prop :=
  ∃ k c tr td, Origin rows i x k c ∧ (n.childs tTr)[k]? = some tr ∧ td ∈ tr.childs tTd ∧ ShowsCell doc cls rows k c td.clean ∧
    y = if k = i then td else dropRowspan td

/-- What is assumed of a Word table: above the data there may be header rows, each with a grey cell. The data rows have no grey
cells, are at most `W` columns wide, each of them has a cell of its own, and no cell of the header reaches into them. -/
structure DataTable [Uni] (hdr body : List (List WCell)) (W : Nat) : Prop where
  header : ∀ row ∈ hdr, ∃ c ∈ row, c.cont = false ∧ Grey c.tc.node
  data : ∀ row ∈ body, ∀ c ∈ row, c.cont = false → ¬ Grey c.tc.node
  width : ∀ row ∈ body, widthOf row ≤ W
  own : ∀ row ∈ body, ∃ c ∈ row, c.cont = false
  first : ∀ row, body[0]? = some row → ∀ c ∈ row, c.cont = false
  /-- numbers up to 4300 digits -/
  small : W < intLimit ∧ hdr.length + body.length < intLimit

/-- The rows `out` handed out for the table element `n`: first its header rows from number `k`, as they are. Then the data rows: a
row for each row of the Word table, without header cells, and in it for each cell of the Word table one cell, from left to right. -/
def RowsOf [Uni] (doc : WordDoc) (cls : Classes) (rows : List (List WCell)) (n : Node) (k : Nat) (hdr body : List (List WCell))
    (out : List Node) : Prop :=
  ∃ H B, out = H ++ B ∧ H = ((n.childs tTr).drop k).take hdr.length ∧ B.length = body.length ∧
    (∀ r ∈ B, r.childs tTh = []) ∧ ∀ (i : Nat) row r, body[i]? = some row → B[i]? = some r →
      List.Forall₂ (StandsFor doc cls rows n (k + hdr.length + i)) row (r.childs tTd)

/-- a header row: it has a grey cell -/
def HeadRow [Uni] (row : List WCell) : Prop := ∃ c ∈ row, c.cont = false ∧ Grey c.tc.node

/-- What is assumed of the rows of a Word table, if there may be header rows anywhere: the data rows are at most `W` columns wide, and each of them has a
cell of its own. No cell reaches from a header row into a data row, or from a data row into a header row, or into the first row, if it has data. -/
structure MixedTable [Uni] (rows : List (List WCell)) (W : Nat) : Prop where
  width : ∀ row ∈ rows, ¬ HeadRow row → widthOf row ≤ W
  own : ∀ row ∈ rows, ¬ HeadRow row → ∃ c ∈ row, c.cont = false
  first : ∀ row, rows[0]? = some row → ¬ HeadRow row → ∀ c ∈ row, c.cont = false
  apart : ∀ (i : Nat) above row, rows[i]? = some above → rows[i + 1]? = some row → (HeadRow above ↔ ¬ HeadRow row) → ∀ c ∈ row, c.cont = false
  /-- numbers up to 4300 digits -/
  small : W < intLimit ∧ rows.length < intLimit

/-- The rows `out` handed out for the table element `n`: a row for each row of the Word table from number `k` on. Header rows are as they are, and
in data rows there is for each cell of the Word table one cell, from left to right. -/
def MixedRows [Uni] (doc : WordDoc) (cls : Classes) (all : List (List WCell)) (n : Node) (k : Nat) (rows : List (List WCell)) (out : List Node) : Prop :=
  out.length = rows.length ∧ ∀ (i : Nat) row r, rows[i]? = some row → out[i]? = some r →
    (HeadRow row → (n.childs tTr)[k + i]? = some r ∧ containsTh r = true) ∧
    (¬ HeadRow row → r.childs tTh = [] ∧ List.Forall₂ (StandsFor doc cls all n (k + i)) row (r.childs tTd))

/-! ### Proof -/

theorem hasTag_clean (n : Node) (t : Str) : n.clean.hasTag t = n.hasTag t := by
  cases n <;> rfl

theorem attr_clean (n : Node) (a : Str) : n.clean.attr? a = n.attr? a := by
  cases n <;> rfl

theorem cleans_hasTag (ks : List Node) (t : Str) : (cleans ks).filter (Node.hasTag t) = (ks.filter (Node.hasTag t)).map Node.clean := by
  induction ks with
  | nil => rfl
  | cons k ks ih =>
    rw [cleans]
    cases k with
    | text s =>
      rw [List.filter_cons_of_neg (by simp [Node.hasTag])]
      split
      · exact ih
      · rw [List.filter_cons_of_neg (by simp [Node.hasTag, Node.clean]), ih]
    | elem tag as kk =>
      rw [if_neg (by simp [Node.isBlank])]
      by_cases h : Node.hasTag t (.elem tag as kk) = true
      · rw [List.filter_cons_of_pos h, List.filter_cons_of_pos (by rw [hasTag_clean]; exact h), List.map_cons, ih]
      · rw [List.filter_cons_of_neg h, List.filter_cons_of_neg (by rw [hasTag_clean]; exact h), ih]

theorem childs_clean {n : Node} {tag : Str} {as : List (Str × Str)} {ks : List Node} (h : n.clean = .elem tag as ks)
    (hl : isLeafTag tag = false) (t : Str) : (n.childs t).map Node.clean = ks.filter (Node.hasTag t) := by
  obtain ⟨ks', rfl⟩ := clean_elem h
  rw [Node.clean, hl, if_neg (by decide)] at h
  cases h
  rw [cleans_hasTag]; rfl

section
variable [Uni]

theorem spanAttr_cell {n : Node} {tag : Str} {w h : Nat} {cl : Option Str} {ks : List Node}
    (he : n.clean = .elem tag (cellAttrs w h cl) ks) (hw : 1 ≤ w) (hh : 1 ≤ h) (hw' : w < intLimit) (hh' : h < intLimit) :
    colspan n = .ok (w : Int) ∧ rowspan n = .ok (h : Int) := by
  have h1 : n.attr? aColspan = if 1 < w then some (intStr w) else none := by
    rw [← attr_clean, he]
    have e1 : ((1 : Int) < (w : Int)) = (1 < w) := propext (by omega)
    have e2 : ((1 : Int) < (h : Int)) = (1 < h) := propext (by omega)
    unfold cellAttrs optAttr Node.attr?
    simp only [e1, e2]
    by_cases c1 : 1 < w <;> by_cases c2 : 1 < h <;> cases cl <;> simp only [c1, c2, if_true, if_false] <;> rfl
  have h2 : n.attr? aRowspan = if 1 < h then some (intStr h) else none := by
    rw [← attr_clean, he]
    have e1 : ((1 : Int) < (w : Int)) = (1 < w) := propext (by omega)
    have e2 : ((1 : Int) < (h : Int)) = (1 < h) := propext (by omega)
    unfold cellAttrs optAttr Node.attr?
    simp only [e1, e2]
    by_cases c1 : 1 < w <;> by_cases c2 : 1 < h <;> cases cl <;> simp only [c1, c2, if_true, if_false] <;> rfl
  unfold colspan rowspan spanAttr
  rw [h1, h2]
  constructor
  · by_cases c1 : 1 < w
    · rw [if_pos c1]; exact pyInt_intStr hw'
    · rw [if_neg c1, show w = 1 by omega]; rfl
  · by_cases c1 : 1 < h
    · rw [if_pos c1]; exact pyInt_intStr hh'
    · rw [if_neg c1, show h = 1 by omega]; rfl

theorem tag_grey {tc : Node} {fill : Option Str} {tag : Str} (hf : FillOf tc fill) (ht : TagOf fill tag) :
    (Grey tc → tag = c!"th") ∧ (¬ Grey tc → tag = c!"td") := by
  rcases ht with ⟨h1, a, b, h2⟩ | ⟨h1, h2⟩
  · refine ⟨fun _ => h1, fun h => absurd ?_ h⟩
    obtain ⟨h3, -, h4⟩ := (hf _).1 h2
    exact ⟨a, b, h3, h4⟩
  · refine ⟨fun h => absurd ?_ (h2 h.choose h.choose_spec.choose), fun _ => h1⟩
    obtain ⟨h3, h4⟩ := h.choose_spec.choose_spec
    exact (hf _).2 ⟨h3, rfl, h4⟩

omit [Uni] in
theorem forall2_lift {α β γ : Type} {f : γ → β} {Q : α → γ → Prop} {as : List α} {bs : List β}
    (h : List.Forall₂ (fun a b => ∃ g, f g = b ∧ Q a g) as bs) : ∃ gs, gs.map f = bs ∧ List.Forall₂ Q as gs := by
  induction h with
  | nil => exact ⟨[], rfl, .nil⟩
  | cons h1 _ ih =>
    obtain ⟨g, rfl, hq⟩ := h1
    obtain ⟨gs, rfl, hqs⟩ := ih
    exact ⟨g :: gs, rfl, .cons hq hqs⟩

omit [Uni] in
theorem list_choice {α : Type} {P : Nat → α → Prop} (n : Nat) (h : ∀ i, i < n → ∃ x, P i x) :
    ∃ l : List α, l.length = n ∧ ∀ (i : Nat) x, l[i]? = some x → P i x := by
  refine ⟨List.ofFn (fun i : Fin n => (h i i.2).choose), by simp, fun i x hx => ?_⟩
  rw [List.getElem?_ofFn] at hx
  split at hx
  · rename_i hi
    cases hx
    exact (h i hi).choose_spec
  · cases hx

variable {pre body : List (List WCell)}

omit [Uni] in
theorem get_body (k : Nat) : (pre ++ body)[pre.length + k]? = body[k]? := by
  rw [List.getElem?_append_right (by omega)]; congr 1; omega

omit [Uni] in
theorem extends_body {i h : Nat} {c : WCell} (he : Extends (pre ++ body) (pre.length + i) c h) : Extends body i c h := by
  refine ⟨he.pos, fun d h1 h2 => ?_, fun row hr => he.last row ?_⟩
  · obtain ⟨row, hr, h⟩ := he.below d h1 h2
    rw [Nat.add_assoc, get_body] at hr
    exact ⟨row, hr, h⟩
  · rw [Nat.add_assoc, get_body]; exact hr

omit [Uni] in
theorem extends_le {rows : List (List WCell)} {i h : Nat} {c : WCell} {row : List WCell} (hi : rows[i]? = some row)
    (he : Extends rows i c h) : h ≤ rows.length := by
  have hp := he.pos
  have := (List.getElem?_eq_some_iff.1 hi).1
  by_cases h1 : h = 1
  · omega
  · obtain ⟨r, hr, -⟩ := he.below (h - 1) (by omega) (by omega)
    have := (List.getElem?_eq_some_iff.1 hr).1
    omega

omit [Uni] in
theorem origin_body {i k : Nat} {x c : WCell} (h : Origin body i x k c) :
    Origin (pre ++ body) (pre.length + i) x (pre.length + k) c := by
  refine ⟨by have := h.le; omega, ?_, h.own, h.col, h.span, fun he => h.here (by omega), fun d h1 h2 => ?_⟩
  · rw [get_body]; exact h.row
  · obtain ⟨e, rfl⟩ := Nat.exists_eq_add_of_le (show pre.length ≤ d by omega)
    rw [get_body]
    exact h.cont e (by omega) (by omega)

omit [Uni] in
theorem HandedOut.eq_of_th {as bs : List Node} (h : List.Forall₂ HandedOut as bs) (hth : ∀ a ∈ as, containsTh a = true) : bs = as := by
  induction h with
  | nil => rfl
  | cons h1 _ ih =>
    rw [h1.2.2.2 (hth _ List.mem_cons_self), ih (fun a ha => hth a (List.mem_cons_of_mem _ ha))]

/-- the rows of a table element, and their cells -/
theorem shown_rows {doc : WordDoc} {cls : Classes} {rows : List (List WCell)} {n : Node} (hs : ShowsTable doc cls rows n.clean) :
    (n.childs tTr).length = rows.length ∧
    ∀ (i : Nat) row tr, rows[i]? = some row → (n.childs tTr)[i]? = some tr → ∃ ns,
      List.Forall₂ (ShowsCell doc cls rows i) (row.filter (fun c => !c.cont)) ns ∧
      ∀ t, (tr.childs t).map Node.clean = ns.filter (Node.hasTag t) := by
  obtain ⟨id, trs, hn, hl, hc⟩ := hs
  have h1 := childs_clean hn (by decide) tTr
  have h2 : (trs.map (Node.elem c!"tr" [])).filter (Node.hasTag tTr) = trs.map (Node.elem c!"tr" []) := by
    rw [List.filter_eq_self]
    intro a ha
    obtain ⟨ns, -, rfl⟩ := List.mem_map.1 ha
    simp [Node.hasTag]
  rw [h2] at h1
  refine ⟨?_, fun i row tr hi ht => ?_⟩
  · have := congrArg List.length h1
    simp only [List.length_map] at this
    omega
  · have h3 := congrArg (·[i]?) h1
    simp only [List.getElem?_map, ht, Option.map_some] at h3
    cases hns : trs[i]? with
    | none => rw [hns] at h3; cases h3
    | some ns =>
      rw [hns] at h3
      have h4 : tr.clean = .elem c!"tr" [] ns := Option.some.inj h3
      exact ⟨ns, hc i row ns hi hns, childs_clean h4 (by decide)⟩

omit [Uni] in
/-- if no others are kept, but as many are kept, then they are the same -/
theorem flags_eq {α : Type} {p : α → Bool} {as bs : List α} (h : List.Forall₂ (fun a b => p a = true → p b = true) as bs)
    (hc : (as.filter p).length = (bs.filter p).length) : as.map p = bs.map p := by
  have hle : ∀ {as bs : List α}, List.Forall₂ (fun a b => p a = true → p b = true) as bs → (as.filter p).length ≤ (bs.filter p).length := by
    intro as bs h
    induction h with
    | nil => exact Nat.le_refl _
    | @cons a b as bs h1 _ ih =>
      by_cases ha : p a = true
      · rw [List.filter_cons_of_pos ha, List.filter_cons_of_pos (h1 ha), List.length_cons, List.length_cons]; omega
      · rw [List.filter_cons_of_neg ha]
        by_cases hb : p b = true
        · rw [List.filter_cons_of_pos hb, List.length_cons]; omega
        · rw [List.filter_cons_of_neg hb]; exact ih
  induction h with
  | nil => rfl
  | @cons a b as bs h1 h2 ih =>
    have := hle h2
    by_cases ha : p a = true
    · rw [List.filter_cons_of_pos ha, List.filter_cons_of_pos (h1 ha), List.length_cons, List.length_cons] at hc
      rw [List.map_cons, List.map_cons, ha, h1 ha, ih (by omega)]
    · rw [List.filter_cons_of_neg ha] at hc
      by_cases hb : p b = true
      · rw [List.filter_cons_of_pos hb, List.length_cons] at hc; omega
      · rw [List.filter_cons_of_neg hb] at hc
        rw [List.map_cons, List.map_cons, Bool.not_eq_true _ |>.mp ha, Bool.not_eq_true _ |>.mp hb, ih hc]

omit [Uni] in
theorem filter_hasCell (n : Node) : n.kids.filter HasCell = (n.childs tTr).filter HasCell := by
  unfold Node.childs
  rw [List.filter_filter]
  refine List.filter_congr (fun k _ => ?_)
  unfold HasCell
  cases k.hasTag tTr <;> simp

open Classical in
/-- a row which is not a header row -/
noncomputable def dataRow (row : List WCell) : Bool := if HeadRow row then false else true

theorem dataRow_iff {row : List WCell} : dataRow row = true ↔ ¬ HeadRow row := by
  unfold dataRow; by_cases h : HeadRow row <;> simp [h]

theorem dataRow_false {row : List WCell} : dataRow row = false ↔ HeadRow row := by
  unfold dataRow; by_cases h : HeadRow row <;> simp [h]

section
variable {rows : List (List WCell)} {W : Nat}

/-- a row which continues a data row is a data row -/
theorem MixedTable.continues (hM : MixedTable rows W) {i : Nat} {a b : List WCell} (ha : rows[i]? = some a) (hb : rows[i + 1]? = some b)
    (hd : dataRow a = true) {c : WCell} (hc : c ∈ b) (hk : c.cont = true) : dataRow b = true := by
  rw [dataRow_iff] at hd ⊢
  intro h
  have := hM.apart i a b ha hb ⟨fun h' => absurd h' hd, fun h' => absurd h h'⟩ c hc
  rw [hk] at this; cases this

/-- rows below a data row which continue it, one after another -/
theorem MixedTable.run (hM : MixedTable rows W) {i h : Nat} {row : List WCell} (hi : rows[i]? = some row) (hd : dataRow row = true)
    (hb : ∀ d, 0 < d → d < h → ∃ row, rows[i + d]? = some row ∧ ∃ x ∈ row, x.cont = true) :
    ∀ d, d < h → ∃ row, rows[i + d]? = some row ∧ dataRow row = true ∧ rank dataRow rows (i + d) = rank dataRow rows i + d := by
  intro d
  induction d with
  | zero => intro _; exact ⟨row, hi, hd, rfl⟩
  | succ d ih =>
    intro hlt
    obtain ⟨a, h1, h2, h3⟩ := ih (by omega)
    obtain ⟨b, h4, x, h5, h6⟩ := hb (d + 1) (by omega) hlt
    refine ⟨b, h4, hM.continues h1 h4 h2 h5 h6, ?_⟩
    have := rank_succ (p := dataRow) h1
    rw [h2, if_pos rfl, h3] at this
    rw [← Nat.add_assoc, this, Nat.add_assoc]

/-- the data rows alone -/
theorem MixedTable.extends (hM : MixedTable rows W) {i h : Nat} {row : List WCell} {c : WCell} (hi : rows[i]? = some row)
    (hd : dataRow row = true) (he : Extends rows i c h) : Extends (rows.filter dataRow) (rank dataRow rows i) c h := by
  have hrun := hM.run hi hd (h := h) (fun d h1 h2 => by
    obtain ⟨r, h3, x, h4, -, h5⟩ := he.below d h1 h2
    exact ⟨r, h3, x, h4, h5⟩)
  refine ⟨he.pos, fun d h1 h2 => ?_, fun r hr => ?_⟩
  · obtain ⟨r, h3, h4⟩ := he.below d h1 h2
    obtain ⟨r', h5, h6, h7⟩ := hrun d h2
    rw [h3] at h5
    cases h5
    refine ⟨r, ?_, h4⟩
    rw [← h7]
    exact rank_get h3 h6
  · obtain ⟨j, h1, h2, h3⟩ := rank_inv hr
    have hp := he.pos
    obtain ⟨r', h5, h6, h7⟩ := hrun (h - 1) (by omega)
    have h8 := rank_succ (p := dataRow) h5
    rw [h6, if_pos rfl, h7, show i + (h - 1) + 1 = i + h by omega] at h8
    rcases rank_find (s := i + h) h1 h2 (by omega) with rfl | ⟨k, z, rfl, h9, h10⟩
    · exact he.last r h1
    · intro x hx _
      exact hM.apart k z r h9 h1 ⟨fun _ => dataRow_iff.1 h2, fun _ => dataRow_false.1 h10⟩ x hx

theorem MixedTable.origin (hM : MixedTable rows W) {i k : Nat} {row : List WCell} {x c : WCell} (hi : rows[i]? = some row)
    (hd : dataRow row = true) (h : Origin (rows.filter dataRow) (rank dataRow rows i) x k c) :
    ∃ j row', rows[j]? = some row' ∧ dataRow row' = true ∧ c ∈ row' ∧ rank dataRow rows j = k ∧ Origin rows i x j c := by
  obtain ⟨row', h1, h2⟩ := h.row
  obtain ⟨j, h3, h4, h5⟩ := rank_inv h1
  refine ⟨j, row', h3, h4, h2, h5, ?_⟩
  -- the rows from there to row i
  have key : ∀ e, k + e ≤ rank dataRow rows i → ∃ r, rows[j + e]? = some r ∧ dataRow r = true ∧ rank dataRow rows (j + e) = k + e ∧
      (0 < e → ∃ y ∈ r, y.col = x.col ∧ y.cont = true) := by
    intro e
    induction e with
    | zero => intro _; exact ⟨row', h3, h4, h5, fun h => absurd h (by omega)⟩
    | succ e ih =>
      intro hle
      obtain ⟨a, a1, a2, a3, -⟩ := ih (by omega)
      obtain ⟨r, b1, y, b2, b3, b4⟩ := h.cont (k + (e + 1)) (by omega) hle
      obtain ⟨s, c1, c2, c3⟩ := rank_inv b1
      have hs := rank_succ (p := dataRow) a1
      rw [a2, if_pos rfl, a3] at hs
      rcases rank_find (s := j + e + 1) c1 c2 (by omega) with rfl | ⟨q, z, rfl, d1, d2⟩
      · exact ⟨r, c1, c2, c3, fun _ => ⟨y, b2, b3, b4⟩⟩
      · have := hM.apart q z r d1 c1 ⟨fun _ => dataRow_iff.1 c2, fun _ => dataRow_false.1 d2⟩ y b2
        rw [b4] at this; cases this
  have hle := h.le
  obtain ⟨r, e1, e2, e3, -⟩ := key (rank dataRow rows i - k) (by omega)
  have hji : j + (rank dataRow rows i - k) = i := rank_inj e1 e2 hi hd (by omega)
  refine ⟨by omega, ⟨row', h3, h2⟩, h.own, h.col, h.span, fun he => h.here (by subst he; omega), fun d f1 f2 => ?_⟩
  obtain ⟨r, g1, -, -, g2⟩ := key (d - j) (by omega)
  rw [show j + (d - j) = d by omega] at g1
  exact ⟨r, g1, g2 (by omega)⟩

theorem MixedTable.placed {tbl : LNode} (hW : WordTable tbl (pre ++ rows)) (hM : MixedTable rows W) : Placed (rows.filter dataRow) := by
  have hm : ∀ row ∈ rows.filter dataRow, row ∈ pre ++ rows := fun row h => List.mem_append.2 (.inr (List.mem_filter.1 h).1)
  refine ⟨fun row hr => hW.cols row (hm row hr), fun row hr c hc => (hW.markup row (hm row hr) c hc).span_pos, fun row hr c hc => ?_,
    fun i above row h1 h2 c hc hk => ?_⟩
  · obtain ⟨j, h1, h2, h3⟩ := rank_inv hr
    rcases rank_find (s := 0) h1 h2 (by rw [h3]; rfl) with rfl | ⟨k, z, rfl, h4, h5⟩
    · exact hM.first row h1 (dataRow_iff.1 h2) c hc
    · exact hM.apart k z row h4 h1 ⟨fun _ => dataRow_iff.1 h2, fun _ => dataRow_false.1 h5⟩ c hc
  · obtain ⟨j, a1, a2, a3⟩ := rank_inv h1
    obtain ⟨s, b1, b2, b3⟩ := rank_inv h2
    have hs := rank_succ (p := dataRow) a1
    rw [a2, if_pos rfl, a3] at hs
    rcases rank_find (s := j + 1) b1 b2 (by omega) with rfl | ⟨q, z, rfl, d1, d2⟩
    · refine hW.aligned (pre.length + j) above row ?_ ?_ c hc hk
      · rw [get_body]; exact a1
      · rw [Nat.add_assoc, get_body]; exact b1
    · have := hM.apart q z row d1 b1 ⟨fun _ => dataRow_iff.1 b2, fun _ => dataRow_false.1 d2⟩ c hc
      rw [hk] at this; cases this
end

/-- header rows and data rows of a Word table, through both stages -/
theorem mixed_stages {doc : WordDoc} {cls : Classes} {rows : List (List WCell)} {tbl : LNode} {n m : Node} {W : Nat}
    (hW : WordTable tbl (pre ++ rows)) (hM : MixedTable rows W) (hs : ShowsTable doc cls (pre ++ rows) n.clean)
    (hm : m.childs tTr = (n.childs tTr).drop pre.length) :
    (rowIter m).2 = none ∧ MixedRows doc cls (pre ++ rows) n pre.length rows ((rowIter m).1.map (·.node)) := by
  obtain ⟨hlen, hrow⟩ := shown_rows hs
  have hP := hM.placed hW
  generalize hT : n.childs tTr = T at *
  generalize hTB : T.drop pre.length = TB at *
  have hTlen : T.length = pre.length + rows.length := by rw [hlen, List.length_append]
  have hTBlen : TB.length = rows.length := by rw [← hTB, List.length_drop]; omega
  have hTBget : ∀ i, TB[i]? = T[pre.length + i]? := by intro i; rw [← hTB, List.getElem?_drop]
  have hth : ∀ (i : Nat) row tr, rows[i]? = some row → TB[i]? = some tr → HeadRow row → containsTh tr = true := by
    intro i row tr hr hi hg
    rw [hTBget] at hi
    obtain ⟨ns, h1, h2⟩ := hrow _ row tr ((get_body i).trans hr) hi
    obtain ⟨c, hc, ho, hg⟩ := hg
    obtain ⟨nd, hnd, tag, fill, h, elems, hf, ht, -, -, he⟩ := forall2_left h1 (List.mem_filter.2 ⟨hc, by simp [ho]⟩)
    have htag := (tag_grey hf ht).1 hg
    unfold containsTh
    have : nd ∈ (tr.childs tTh).map Node.clean := by
      rw [h2]; exact List.mem_filter.2 ⟨hnd, by rw [he, htag]; rfl⟩
    obtain ⟨y, hy, -⟩ := List.mem_map.1 this
    cases hch : tr.childs tTh with
    | nil => rw [hch] at hy; cases hy
    | cons a b => rfl
  -- the cells of a data row
  have hBrow : ∀ (i : Nat) row tr, rows[i]? = some row → TB[i]? = some tr → ¬ HeadRow row →
      containsTh tr = false ∧ List.Forall₂ (fun c td => ShowsCell doc cls (pre ++ rows) (pre.length + i) c td.clean)
        (row.filter (fun c => !c.cont)) (tr.childs tTd) := by
    intro i row tr hr ht hd
    rw [hTBget] at ht
    obtain ⟨ns, h1, h2⟩ := hrow _ row tr ((get_body i).trans hr) ht
    have htd : ∀ nd ∈ ns, ∃ as ks, nd = .elem tTd as ks := by
      intro nd hnd
      obtain ⟨c, hc, tag, fill, h, elems, hf, ht, -, -, he⟩ := forall2_right h1 hnd
      obtain ⟨hc1, hc2⟩ := List.mem_filter.1 hc
      rw [(tag_grey hf ht).2 (fun hg => hd ⟨c, hc1, by simpa using hc2, hg⟩)] at he
      exact ⟨_, _, he⟩
    constructor
    · have h3 : ns.filter (Node.hasTag tTh) = [] := by
        rw [List.filter_eq_nil_iff]
        intro nd hnd
        obtain ⟨as, ks, rfl⟩ := htd nd hnd
        show ¬ (tTd == tTh) = true
        decide
      have := h2 tTh
      rw [h3, List.map_eq_nil_iff] at this
      unfold containsTh; rw [this]; rfl
    · have h3 : ns.filter (Node.hasTag tTd) = ns := by
        rw [List.filter_eq_self]
        intro nd hnd
        obtain ⟨as, ks, rfl⟩ := htd nd hnd
        rfl
      have := h2 tTd
      rw [h3] at this
      rw [← this, List.forall₂_map_right_iff] at h1
      exact h1
  have hflag : rows.map dataRow = TB.map (fun tr => !containsTh tr) := by
    apply List.ext_getElem?
    intro i
    rw [List.getElem?_map, List.getElem?_map]
    by_cases hi : i < rows.length
    · have h1 := List.getElem?_eq_getElem hi
      have h2 := List.getElem?_eq_getElem (l := TB) (i := i) (by omega)
      rw [h1, h2, Option.map_some, Option.map_some]
      congr 1
      cases hd : dataRow rows[i] with
      | true => rw [(hBrow i _ _ h1 h2 (dataRow_iff.1 hd)).1]; rfl
      | false => rw [hth i _ _ h1 h2 (dataRow_false.1 hd)]; rfl
    · rw [List.getElem?_eq_none (by omega), List.getElem?_eq_none (by omega)]; rfl
  have hrank := rank_congr hflag
  have hDlen := filter_length_congr hflag
  -- the grid
  obtain ⟨G, hGlen, hG⟩ := list_choice (P := fun j gs => ∀ i row tr, rows[i]? = some row → TB[i]? = some tr → dataRow row = true →
      rank dataRow rows i = j →
      gs.map GridCell.node = tr.childs tTd ∧ List.Forall₂ (fun c g => PlaceOf (rows.filter dataRow) j c g ∧
        ShowsCell doc cls (pre ++ rows) (pre.length + i) c g.node.clean ∧ g.node.hasTag tTd = true ∧
        colspan g.node = .ok (g.width : Int) ∧ rowspan g.node = .ok (g.height : Int)) (row.filter (fun c => !c.cont)) gs)
    (rows.filter dataRow).length (by
      intro j hj
      obtain ⟨i, hr, hd, hj'⟩ := rank_inv (List.getElem?_eq_getElem hj)
      generalize (rows.filter dataRow)[j] = row at hr hd
      have hi := (List.getElem?_eq_some_iff.1 hr).1
      obtain ⟨tr, ht⟩ : ∃ tr, TB[i]? = some tr := ⟨_, List.getElem?_eq_getElem (by omega)⟩
      have hr0 : (rows.filter dataRow)[j]? = some row := by rw [← hj']; exact rank_get hr hd
      obtain ⟨-, h1⟩ := hBrow i row tr hr ht (dataRow_iff.1 hd)
      obtain ⟨gs, hgs⟩ := forall2_lift (f := GridCell.node) (Q := fun c g => PlaceOf (rows.filter dataRow) j c g ∧
        ShowsCell doc cls (pre ++ rows) (pre.length + i) c g.node.clean ∧ g.node.hasTag tTd = true ∧
        colspan g.node = .ok (g.width : Int) ∧ rowspan g.node = .ok (g.height : Int))
        (List.Forall₂.imp (R := fun c td => (c ∈ row ∧ td ∈ tr.childs tTd) ∧
            ShowsCell doc cls (pre ++ rows) (pre.length + i) c td.clean) (by
          rintro c td ⟨⟨hcm, htd⟩, hsc⟩
          obtain ⟨tag, fill, h, elems, hf, ht, he, hp, hn⟩ := id hsc
          have hr' := List.mem_of_getElem? hr0
          have he' : Extends (rows.filter dataRow) j c h := by rw [← hj']; exact hM.extends hr hd (extends_body he)
          have h1 := hP.pos row hr' c hcm
          have h2 := hP.inside hr' hcm
          have h3 := extends_le hr0 he'
          have h4 : c.span < intLimit := by
            have := hM.small.1
            have := hM.width row (List.mem_filter.1 hr').1 (dataRow_iff.1 (List.mem_filter.1 hr').2)
            omega
          have h5 : h < intLimit := by
            have := hM.small.2
            have := List.length_filter_le dataRow rows
            omega
          refine ⟨⟨j, c.col, h, c.span, td⟩, rfl, ⟨rfl, rfl, rfl, he'⟩, hsc, ?_, ?_⟩
          · exact (List.mem_filter.1 htd).2
          · exact spanAttr_cell hn h1 he'.pos h4 h5) (by
          rw [List.forall₂_iff_get] at h1 ⊢
          refine ⟨h1.1, fun j hj1 hj2 => ⟨⟨?_, List.get_mem _ _⟩, h1.2 j hj1 hj2⟩⟩
          exact (List.mem_filter.1 (List.get_mem _ _)).1))
      refine ⟨gs, fun i' row' tr' hr' ht' hd' hj'' => ?_⟩
      have := rank_inj hr' hd' hr hd (by omega)
      subst this
      rw [hr] at hr'; rw [ht] at ht'
      cases hr'; cases ht'
      exact hgs)
  -- a data row and what there is of it
  have hat : ∀ {j : Nat} {row : List WCell} {gs : List GridCell}, (rows.filter dataRow)[j]? = some row → G[j]? = some gs → ∃ i tr,
      rows[i]? = some row ∧ TB[i]? = some tr ∧ dataRow row = true ∧ rank dataRow rows i = j ∧
      gs.map GridCell.node = tr.childs tTd ∧ List.Forall₂ (fun c g => PlaceOf (rows.filter dataRow) j c g ∧
        ShowsCell doc cls (pre ++ rows) (pre.length + i) c g.node.clean ∧ g.node.hasTag tTd = true ∧
        colspan g.node = .ok (g.width : Int) ∧ rowspan g.node = .ok (g.height : Int)) (row.filter (fun c => !c.cont)) gs := by
    intro j row gs hr hg
    obtain ⟨i, h1, h2, h3⟩ := rank_inv hr
    have hi := (List.getElem?_eq_some_iff.1 h1).1
    obtain ⟨tr, ht⟩ : ∃ tr, TB[i]? = some tr := ⟨_, List.getElem?_eq_getElem (by omega)⟩
    exact ⟨i, tr, h1, ht, h2, h3, hG j gs hg i row tr h1 ht h2 h3⟩
  have hPl : Places (rows.filter dataRow) G := by
    refine ⟨hGlen, fun j row gs hr hg => ?_⟩
    obtain ⟨i, tr, -, -, -, -, -, h⟩ := hat hr hg
    exact h.imp (fun _ _ h => h.1)
  have hcell : ∀ g ∈ G.flatten, g.node.hasTag tTd = true ∧ colspan g.node = .ok (g.width : Int) ∧ rowspan g.node = .ok (g.height : Int) := by
    intro g hg
    obtain ⟨k, row, gs, c, a1, a2, a3, a4, a5, a6⟩ := hPl.mem hg
    obtain ⟨i, tr, -, -, -, -, -, h⟩ := hat a1 a2
    obtain ⟨c', -, h⟩ := forall2_right h a3
    exact h.2.2
  have hR := hPl.rectangular hP (fun row hr => hM.own row (List.mem_filter.1 hr).1 (dataRow_iff.1 (List.mem_filter.1 hr).2)) hcell
  -- the row iterator
  have hsrc : ((m.childs tTr).filter (fun tr => !containsTh tr)).map (·.childs tTd) = G.map (·.map (·.node)) := by
    rw [hm]
    apply List.ext_getElem?
    intro j
    rw [List.getElem?_map, List.getElem?_map]
    by_cases hj : j < (rows.filter dataRow).length
    · obtain ⟨gs, hg⟩ : ∃ gs, G[j]? = some gs := ⟨_, List.getElem?_eq_getElem (by omega)⟩
      obtain ⟨i, tr, h1, h2, h3, h4, h5, -⟩ := hat (List.getElem?_eq_getElem hj) hg
      have h6 : (TB.filter (fun tr => !containsTh tr))[j]? = some tr := by
        rw [← h4, hrank i]
        exact rank_get h2 (by rw [(hBrow i _ tr h1 h2 (dataRow_iff.1 h3)).1]; rfl)
      rw [h6, hg, Option.map_some, Option.map_some, h5]
    · rw [List.getElem?_eq_none (by omega), List.getElem?_eq_none (by omega)]; rfl
  obtain ⟨Ls, hLlen, hV, hnone, hLs⟩ := C11_visual_rows m _ G hR hsrc
  refine ⟨hnone, ?_⟩
  obtain ⟨done, todo, hd1, hd2, hd3⟩ := C10_rows_preserved m
  rw [hd3.1 hnone, List.append_nil, filter_hasCell, hm] at hd1
  have hall : TB.filter HasCell = TB := by
    rw [List.filter_eq_self]
    intro tr htr
    have htag : tr.hasTag tTr = true := by
      have : tr ∈ T := List.mem_of_mem_drop (hTB ▸ htr)
      rw [← hT] at this
      exact (List.mem_filter.1 this).2
    unfold HasCell
    rw [htag, Bool.true_and]
    obtain ⟨i, hi⟩ := List.getElem?_of_mem htr
    have hlt := (List.getElem?_eq_some_iff.1 hi).1
    have hri := List.getElem?_eq_getElem (l := rows) (i := i) (by omega)
    by_cases hh : HeadRow rows[i]
    · have := hth i _ tr hri hi hh
      unfold containsTh at this
      rw [this, Bool.or_true]
    · obtain ⟨-, h1⟩ := hBrow i _ tr hri hi hh
      obtain ⟨c, hc, ho⟩ := hM.own _ (List.mem_of_getElem? hri) hh
      obtain ⟨td, htd, -⟩ := forall2_left h1 (List.mem_filter.2 ⟨hc, by simp [ho]⟩)
      cases hch : tr.childs tTd with
      | nil => rw [hch] at htd; cases htd
      | cons a b => rfl
  rw [hall] at hd1
  subst hd1
  have hols := hd2.length_eq
  generalize (rowIter m).1.map (·.node) = out at hd2 hLs hols
  -- header rows stay as they are, and no data row becomes a header
  have hhead : ∀ (i : Nat) tr r, TB[i]? = some tr → out[i]? = some r → containsTh tr = true → r = tr := by
    intro i tr r h1 h2 h3
    obtain ⟨tr', h4, h5⟩ := forall2_get hd2 h2
    rw [h1] at h4
    cases h4
    exact h5.2.2.2 h3
  have hof : out.map (fun r => !containsTh r) = TB.map (fun r => !containsTh r) := by
    have hcnt := congrArg List.length hLs
    simp only [List.length_map, List.length_mapIdx] at hcnt
    refine flags_eq ?_ (by omega)
    rw [List.forall₂_iff_get]
    refine ⟨hols.symm, fun i h1 h2 h3 => ?_⟩
    cases hc : containsTh (TB.get ⟨i, h2⟩) with
    | false => rfl
    | true =>
      have := hhead i _ _ (List.getElem?_eq_getElem h2) (List.getElem?_eq_getElem h1) hc
      rw [List.get_eq_getElem] at h3 hc
      rw [this, hc] at h3
      cases h3
  have hrank' := rank_congr hof
  refine ⟨by omega, fun i row r hi hr => ?_⟩
  have hlt := (List.getElem?_eq_some_iff.1 hi).1
  obtain ⟨tr, ht⟩ : ∃ tr, TB[i]? = some tr := ⟨_, List.getElem?_eq_getElem (by omega)⟩
  have hflags := congrArg (·[i]?) hof
  simp only [List.getElem?_map, hr, ht, Option.map_some, Option.some.injEq] at hflags
  refine ⟨fun hh => ?_, fun hh => ?_⟩
  · have h1 := hth i row tr hi ht hh
    rw [hhead i tr r ht hr h1, hT, ← hTBget]
    exact ⟨ht, h1⟩
  have hdr := dataRow_iff.2 hh
  obtain ⟨hnth, -⟩ := hBrow i row tr hi ht hh
  rw [hnth] at hflags
  refine ⟨by unfold containsTh at hflags; simpa using hflags, ?_⟩
  have hDi := rank_get hi hdr
  have hjlt := (List.getElem?_eq_some_iff.1 hDi).1
  have hor : (out.filter (fun r => !containsTh r))[rank dataRow rows i]? = some r := by
    rw [hrank, ← hrank']
    exact rank_get hr hflags
  obtain ⟨L, hL⟩ : ∃ L, Ls[rank dataRow rows i]? = some L := ⟨_, List.getElem?_eq_getElem (by omega)⟩
  have hri := congrArg (·[rank dataRow rows i]?) hLs
  simp only [List.getElem?_map, List.getElem?_mapIdx, hor, hL, Option.map_some, Option.some.injEq] at hri
  rw [hri, List.forall₂_map_right_iff]
  refine (hPl.visual hP hDi (hV _ L hL)).imp ?_
  rintro x g ⟨k, c, gs, ho, hg1, hg2, hpl⟩
  obtain ⟨j, row', a1, a2, a3, a4, a5⟩ := hM.origin hi hdr ho
  have hDk : (rows.filter dataRow)[k]? = some row' := by rw [← a4]; exact rank_get a1 a2
  obtain ⟨j', tr', b1, b2, b3, b4, b5, b6⟩ := hat hDk hg1
  have hjj : j' = j := rank_inj b1 b3 a1 a2 (by omega)
  subst hjj
  obtain ⟨c', hc', hp', hs', -⟩ := forall2_right b6 hg2
  have hcc : c' = c := hP.same (List.mem_of_getElem? hDk) (List.mem_filter.1 hc').1 a3 (by rw [← hp'.left, ← hpl.left])
  subst hcc
  refine ⟨pre.length + j', c', tr', g.node, origin_body a5, ?_, ?_, hs', ?_⟩
  · rw [hT, ← hTBget]; exact b2
  · rw [← b5]; exact List.mem_map_of_mem hg2
  · unfold GridCell.shownAt
    rw [hpl.top]
    by_cases hki : k = rank dataRow rows i
    · rw [if_pos hki, if_pos (by rw [rank_inj a1 a2 hi hdr (by omega)])]
    · rw [if_neg hki, if_neg (fun h => hki (by rw [← a4, show j' = i by omega]))]

theorem DataTable.mixed {hdr : List (List WCell)} {W : Nat} (hD : DataTable hdr body W) :
    MixedTable (hdr ++ body) W := by
  have hb : ∀ row ∈ hdr ++ body, ¬ HeadRow row → row ∈ body := by
    intro row h1 h2
    rcases List.mem_append.1 h1 with h | h
    · exact absurd (hD.header row h) h2
    · exact h
  have hn : ∀ row ∈ body, ¬ HeadRow row := fun row h ⟨c, h1, h2, h3⟩ => hD.data row h c h1 h2 h3
  refine ⟨fun row h1 h2 => hD.width row (hb row h1 h2), fun row h1 h2 => hD.own row (hb row h1 h2), fun row h1 h2 => ?_, fun i a b h1 h2 h3 => ?_,
    hD.small.1, by rw [List.length_append]; exact hD.small.2⟩
  · cases hdr with
    | nil => exact hD.first row h1
    | cons r hdr => cases h1; exact absurd (hD.header _ List.mem_cons_self) h2
  · by_cases hi : i + 1 < hdr.length
    · rw [List.getElem?_append_left (by omega)] at h1
      rw [List.getElem?_append_left (by omega)] at h2
      have e1 := hD.header a (List.mem_of_getElem? h1)
      exact absurd (hD.header b (List.mem_of_getElem? h2)) (h3.1 e1)
    · rw [List.getElem?_append_right (by omega)] at h2
      by_cases hi' : i + 1 = hdr.length
      · rw [hi', Nat.sub_self] at h2
        exact hD.first b h2
      · rw [List.getElem?_append_right (by omega)] at h1
        exact absurd (h3.2 (hn b (List.mem_of_getElem? h2))) (hn a (List.mem_of_getElem? h1))

theorem two_stages {doc : WordDoc} {cls : Classes} {hdr : List (List WCell)} {tbl : LNode} {n m : Node} {W : Nat}
    (hW : WordTable tbl (pre ++ hdr ++ body)) (hD : DataTable hdr body W) (hs : ShowsTable doc cls (pre ++ hdr ++ body) n.clean)
    (hm : m.childs tTr = (n.childs tTr).drop pre.length) :
    (rowIter m).2 = none ∧ RowsOf doc cls (pre ++ hdr ++ body) n pre.length hdr body ((rowIter m).1.map (·.node)) := by
  have hlen := (shown_rows hs).1
  rw [List.length_append, List.length_append] at hlen
  rw [List.append_assoc] at hW hs ⊢
  obtain ⟨h1, h2, h3⟩ := mixed_stages hW hD.mixed hs hm
  refine ⟨h1, _, _, (List.take_append_drop hdr.length _).symm, ?_, ?_, fun r hr => ?_, fun i row r hi hr => ?_⟩
  · apply List.ext_getElem?
    intro i
    by_cases hi : i < hdr.length
    · rw [List.getElem?_take_of_lt hi, List.getElem?_take_of_lt hi, List.getElem?_drop]
      have e1 : (hdr ++ body)[i]? = some hdr[i] := by rw [List.getElem?_append_left hi, List.getElem?_eq_getElem hi]
      rw [List.length_append] at h2
      obtain ⟨r, hr⟩ : ∃ r, ((rowIter m).1.map (·.node))[i]? = some r := ⟨_, List.getElem?_eq_getElem (by omega)⟩
      rw [hr, ((h3 i _ r e1 hr).1 (hD.header _ (List.getElem_mem hi))).1]
    · rw [List.getElem?_eq_none (by rw [List.length_take]; omega), List.getElem?_eq_none (by rw [List.length_take]; omega)]
  · rw [List.length_drop, h2, List.length_append]; omega
  · obtain ⟨i, hi⟩ := List.getElem?_of_mem hr
    rw [List.getElem?_drop] at hi
    have hlt := (List.getElem?_eq_some_iff.1 hi).1
    rw [h2, List.length_append] at hlt
    have e1 : (hdr ++ body)[hdr.length + i]? = some body[i] := by rw [get_body]; exact List.getElem?_eq_getElem (by omega)
    exact ((h3 _ _ r e1 hi).2 (fun ⟨c, a1, a2, a3⟩ => hD.data _ (List.getElem_mem _) c a1 a2 a3)).1
  · rw [List.getElem?_drop] at hr
    have := ((h3 _ row r ((get_body i).trans hi) hr).2 (fun ⟨c, a1, a2, a3⟩ => hD.data _ (List.mem_of_getElem? hi) c a1 a2 a3)).2
    rw [Nat.add_assoc]
    exact this

omit [Uni] in
theorem mem_unitNodes {cls : Classes} {us : List HUnit} {n : Node} (h : n ∈ unitNodes cls us) : ∃ v ∈ us, n = unitNode cls v := by
  induction us with
  | nil => rw [unitNodes] at h; cases h
  | cons u us ih =>
    rw [unitNodes] at h
    rcases List.mem_cons.1 h with h | h
    · exact ⟨u, List.mem_cons_self, h⟩
    · obtain ⟨v, h1, h2⟩ := ih h; exact ⟨v, List.mem_cons_of_mem _ h1, h2⟩

omit [Uni] in
theorem mem_shownUnits {us : List HUnit} {v : HUnit} (h : v ∈ us) (ht : v ∈ v.shown) : v ∈ shownUnits us := by
  induction us with
  | nil => cases h
  | cons u us ih =>
    rw [shownUnits]
    rcases List.mem_cons.1 h with rfl | h
    · exact List.mem_append.2 (.inl ht)
    · exact List.mem_append.2 (.inr (ih h))

omit [Uni] in
theorem shown_of_table {cls : Classes} {v : HUnit} (h : (unitNode cls v).hasTag tTable = true) : v ∈ v.shown := by
  cases v with
  | para spans => rw [unitNode] at h; exact absurd h (by simp [Node.hasTag])
  | list props elems =>
    rw [unitNode] at h
    have : props.tag = c!"table" := by simpa [Node.hasTag] using h
    exact absurd this (tag_not_table props)
  | table src id rows => rw [HUnit.shown]; exact List.mem_cons_self

omit [Uni] in
theorem figures_shown {version title fname : Str} {revision : Option Str} {cls : Classes} {us : List HUnit} {p : Node}
    (hp : p.clean = pageNode version title revision fname (unitNodes cls us)) {n : Node} (hn : n ∈ figures p) :
    ∃ v ∈ us, v ∈ shownUnits us ∧ n.clean = unitNode cls v := by
  unfold figures at hn
  obtain ⟨b, hb, hnb⟩ := List.mem_flatMap.1 hn
  have h1 := childs_clean hp (by decide) c!"body"
  have hb' := List.mem_map_of_mem (f := Node.clean) hb
  rw [h1] at hb'
  obtain ⟨hb1, hb2⟩ := List.mem_filter.1 hb'
  have hbc : b.clean = .elem c!"body" [] (unitNodes cls us) := by
    simp only [List.mem_cons, List.not_mem_nil, or_false] at hb1
    rcases hb1 with h | h
    · rw [h] at hb2; exact absurd hb2 (by simp [Node.hasTag])
    · exact h
  have h2 := childs_clean hbc (by decide) tTable
  have hn' := List.mem_map_of_mem (f := Node.clean) hnb
  rw [h2] at hn'
  obtain ⟨hn1, hn2⟩ := List.mem_filter.1 hn'
  obtain ⟨v, hv, he⟩ := mem_unitNodes hn1
  rw [he] at hn2
  exact ⟨v, hv, mem_shownUnits hv (shown_of_table hn2), he⟩

omit [Uni] in
theorem filter_eraseP {α : Type} (p : α → Bool) (l : List α) : (l.eraseP p).filter p = (l.filter p).drop 1 := by
  induction l with
  | nil => rfl
  | cons a l ih =>
    by_cases h : p a = true
    · rw [List.eraseP_cons_of_pos h, List.filter_cons_of_pos h]; rfl
    · rw [List.eraseP_cons_of_neg h, List.filter_cons_of_neg h, List.filter_cons_of_neg h, ih]

omit [Uni] in
theorem childs_removeFirstTr (n : Node) : (removeFirstTr n).childs tTr = (n.childs tTr).drop 1 := by
  cases n with
  | text s => rfl
  | elem t as ks => exact filter_eraseP _ ks

/-! ### C41 -/

/-- C41: The page of a Word document is read, and the rows of a figure are expanded. Every figure belongs to a table of the Word
document. If the merges of that table are rectangular, and no merge joins header and data rows, then the
expansion does not fail, and the rows are those of the Word table: header rows as they are, wherever they stand, and for each data row, and for each
cell of it from left to right, the cell it belongs to. The same holds if the first row, with the title of the figure, is taken out first. It is
`partial` because of the assumptions: see `C39_misaligned_false`, and `C11_row_without_own_cell_false` for rows without a cell of their own. -/
theorem C41_two_stages_partial (doc : WordDoc) (hx : XmlText doc.root.flat) (us : List HUnit) (h : parseWord doc = .ok us)
    (version title fname : Str) (revision : Option Str) (h1 : HeadText version) (h2 : HeadText title)
    (h3 : ∀ r, revision = some r → HeadText r) (h4 : HeadText fname) (t : Str)
    (ht : Laid (renderPage version title revision fname us).1 t) :
    ∃ p, readXml t = some p ∧ ∀ cls, cls = classesOf (renderPage version title revision fname us).2 → ∀ n ∈ figures p, ∃ v ∈ us, n.clean = unitNode cls v ∧ ∃ tbl ∈ docTables doc.root, v.src = tbl.path ∧
      ∀ rows W, MixedTable rows W →
        (WordTable tbl rows → (rowIter n).2 = none ∧ MixedRows doc cls rows n 0 rows ((rowIter n).1.map (·.node))) ∧
        (∀ first, WordTable tbl (first :: rows) →
          (rowIter (removeFirstTr n)).2 = none ∧
            MixedRows doc cls (first :: rows) n 1 rows ((rowIter (removeFirstTr n)).1.map (·.node))) := by
  obtain ⟨p, hr, hp⟩ := page_read h1 h2 h3 h4 (parseWord_ok hx h) ht
  refine ⟨p, hr, fun cls hc n hn => ?_⟩
  subst hc
  obtain ⟨v, hv, hvs, hnv⟩ := figures_shown hp hn
  obtain ⟨tbl, fuel, seen, seen', hd, hsrc, hpt, hfr⟩ := parseWord_from h v hvs
  refine ⟨v, hv, hnv, tbl, hd, hsrc, fun rows W hM => ⟨fun hW => ?_, fun first hW => ?_⟩⟩
  · exact mixed_stages (pre := []) hW hM (by rw [hnv]; exact table_shown _ hW hpt hfr) rfl
  · exact mixed_stages (pre := [first]) hW hM (by rw [hnv]; exact table_shown _ hW hpt hfr) (childs_removeFirstTr n)

/-! ### Examples -/

end

/-- the rows of the example of C40 -/
theorem exStages : letI := Uni.ascii
    DataTable [(exWordRows [0, 0]).head!] (exWordRows [0, 0]).tail 3 := by
  let _ := Uni.ascii
  have hl : 4 < intLimit := by
    unfold intLimit
    calc 4 < 10 ^ 1 := by decide
      _ ≤ 10 ^ 4300 := Nat.pow_le_pow_right (by decide) (by decide)
  constructor
  · intro row hr
    cases List.mem_singleton.1 hr
    exact ⟨_, List.mem_cons_self, rfl, 'D', '9', rfl, by decide⟩
  · intro row hr c hc ho
    simp only [exWordRows, List.tail_cons, List.mem_cons, List.not_mem_nil, or_false] at hr
    rintro ⟨a, b, h, -⟩
    rcases hr with rfl | rfl | rfl <;> simp only [List.mem_cons, List.not_mem_nil, or_false] at hc <;>
      rcases hc with rfl | rfl <;> cases h
  · decide +kernel
  · decide +kernel
  · decide +kernel
  · exact ⟨Nat.lt_of_succ_lt hl, hl⟩

example : letI := Uni.ascii; MixedTable (exWordRows [0, 0]) 3 := @DataTable.mixed Uni.ascii _ _ _ exStages

/-- the rows of the example, expanded: the cell A is in two rows -/
example : letI := Uni.ascii
    ((parseWord exGridDoc).toOption.bind fun us =>
      (readXml (plainText (renderPage c!"1.0" c!"NVMe" (some c!"2.0") c!"spec" us).1)).map fun p =>
        (figures p).map (fun n => (rowIter n).1.map (fun r => (r.node.elems).map (fun td => (td.attr? c!"rowspan").getD [] ++ td.toText)))) =
    some [[[c!"G", c!"H"], [c!"2A", c!"B"], [c!"A", c!"C"], [c!"D", c!"E"]]] := by decide +kernel

end Spex
