import Verif.Props.Page
import Verif.Props.Grid
import Verif.Lemmas.NodeEq
import Verif.Lemmas.Fresh
/-
C40: the rows and cells of a Word table on the page.
-/
set_option autoImplicit false
namespace Spex

/-! ### Specification -/

/-- A cell of row `i` extends over `h` rows: it is continued by the cells of the same column in the rows below, and not any
further. -/
structure Extends (rows : List (List WCell)) (i : Nat) (c : WCell) (h : Nat) : Prop where
  pos : 1 ≤ h
  below : ∀ d, 0 < d → d < h → ∃ row, rows[i + d]? = some row ∧ ∃ x ∈ row, x.col = c.col ∧ x.cont = true
  last : ∀ row, rows[i + h]? = some row → ∀ x ∈ row, x.col = c.col → x.cont = false

/-- the colour of a cell: the one of its shading, if it is a colour (and not `auto`) other than white -/
def FillOf [Uni] (tc : Node) (fill : Option Str) : Prop :=
  ∀ f, fill = some f ↔ tc.attrFirst [wTcPr, c!"w:shd"] c!"w:fill" = some f ∧ f.length = 6 ∧ lower f ≠ c!"ffffff"

/-- cells with a shade of grey are header cells -/
def TagOf (fill : Option Str) (tag : Str) : Prop :=
  (tag = c!"th" ∧ ∃ a b, fill = some [a, b, a, b, a, b]) ∨ (tag = c!"td" ∧ ∀ a b, fill ≠ some [a, b, a, b, a, b])

/-- `n` shows the cell `c` of row `i`: a `td` or `th` element with the number of its columns and rows and the class of its
colour, and with the content of the Word cell, including its tables (none of them has been met before) -/
def ShowsCell [Uni] (doc : WordDoc) (cls : Classes) (rows : List (List WCell)) (i : Nat) (c : WCell) (n : Node) : Prop :=
  ∃ tag fill h elems, FillOf c.tc.node fill ∧ TagOf fill tag ∧ Extends rows i c h ∧
    (∃ fuel seen seen', parseAny doc fuel c.tc.children seen = .ok (elems, seen') ∧ ∀ p ∈ seen, ¬ c.tc.path <+: p) ∧
    n = .elem tag (cellAttrs c.span h (fill.bind cls.cell)) (unitNodes cls elems)

/-- `n` shows the Word table with the given rows: a `tr` for each row, with the cells which do not continue others, in order -/
def ShowsTable [Uni] (doc : WordDoc) (cls : Classes) (rows : List (List WCell)) (n : Node) : Prop :=
  ∃ (id : Option Str) (trs : List (List Node)), n = .elem c!"table" (idAttr id) (trs.map (.elem c!"tr" [])) ∧ trs.length = rows.length ∧
    ∀ (i : Nat) row ns, rows[i]? = some row → trs[i]? = some ns →
      List.Forall₂ (ShowsCell doc cls rows i) (row.filter (fun c => !c.cont)) ns

/-! ### Proof -/

theorem widthOf_append (a b : List WCell) : widthOf (a ++ b) = widthOf a + widthOf b := by simp [widthOf]

theorem widthOf_cons (c : WCell) (b : List WCell) : widthOf (c :: b) = c.span + widthOf b := by simp [widthOf]

theorem slot_row {M : List (List Nat)} {r : Nat} {m : List Nat} (h : M[r]? = some m) (c : Nat) : slot M r c = m[c]? := by
  unfold slot; rw [h]; rfl

/-- two cells of a row which have a column in common are in the same place -/
theorem cols_disjoint {row : List WCell} (hc : ∀ before c after, row = before ++ c :: after → c.col = widthOf before)
    {x y : WCell} (hx : x ∈ row) (hy : y ∈ row) {k : Nat} (hx1 : x.col ≤ k) (hx2 : k < x.col + x.span)
    (hy1 : y.col ≤ k) (hy2 : k < y.col + y.span) : x = y := by
  obtain ⟨b1, a1, e1⟩ := List.append_of_mem hx
  obtain ⟨b2, a2, e2⟩ := List.append_of_mem hy
  have c1 := hc _ _ _ e1
  have c2 := hc _ _ _ e2
  rw [e1] at e2
  rcases List.append_eq_append_iff.1 e2 with ⟨l, h1, h2⟩ | ⟨l, h1, h2⟩
  · cases l with
    | nil => simp at h2; exact h2.1
    | cons z l =>
      rw [List.cons_append, List.cons.injEq] at h2
      obtain ⟨rfl, -⟩ := h2
      rw [h1, widthOf_append, widthOf_cons] at c2
      omega
  · cases l with
    | nil => simp at h2; exact h2.1.symm
    | cons z l =>
      rw [List.cons_append, List.cons.injEq] at h2
      obtain ⟨rfl, -⟩ := h2
      rw [h1, widthOf_append, widthOf_cons] at c1
      omega

/-- every column of a row belongs to a cell -/
theorem cols_cover {row : List WCell} (hc : ∀ before c after, row = before ++ c :: after → c.col = widthOf before) {k : Nat}
    (hk : k < widthOf row) : ∃ x ∈ row, x.col ≤ k ∧ k < x.col + x.span := by
  have : ∀ rest before, row = before ++ rest → widthOf before ≤ k → ∃ x ∈ row, x.col ≤ k ∧ k < x.col + x.span := by
    intro rest
    induction rest with
    | nil =>
      intro before hr hb
      rw [hr, List.append_nil] at hk
      omega
    | cons c rest ih =>
      intro before hr hb
      have := hc _ _ _ hr
      by_cases h : k < c.col + c.span
      · exact ⟨c, by rw [hr]; simp, by omega, h⟩
      · refine ih (before ++ [c]) (by simp [hr]) ?_
        rw [widthOf_snoc]; omega
  exact this row [] rfl (Nat.zero_le _)

theorem fillOf_cellFill [Uni] (tc : Node) : FillOf tc (cellFill tc) := by
  intro f
  unfold cellFill
  cases tc.attrFirst [wTcPr, c!"w:shd"] c!"w:fill" with
  | none => simp
  | some f' =>
    simp only
    split
    · rename_i h
      constructor
      · intro he; cases he; exact ⟨rfl, h⟩
      · rintro ⟨he, -⟩; cases he; rfl
    · rename_i h
      constructor
      · intro he; cases he
      · rintro ⟨he, h'⟩; cases he; exact absurd h' h

theorem tagOf_cellTag (fill : Option Str) (h : ∀ f, fill = some f → f.length = 6) : TagOf fill (cellTag fill) := by
  unfold cellTag
  cases fill with
  | none => exact .inr ⟨rfl, fun a b h => by cases h⟩
  | some f =>
    have := h f rfl
    match f, this with
    | [a, b, c, d, e, g], _ =>
      simp only [List.take_succ_cons, List.take_zero, List.drop_succ_cons, List.drop_zero, List.cons.injEq, and_true]
      by_cases hc : (a = c ∧ b = d) ∧ c = e ∧ d = g
      · rw [if_pos hc]
        obtain ⟨⟨rfl, rfl⟩, rfl, rfl⟩ := hc
        exact .inl ⟨rfl, a, b, rfl⟩
      · rw [if_neg hc]
        refine .inr ⟨rfl, fun x y hxy => hc ?_⟩
        cases hxy
        exact ⟨⟨rfl, rfl⟩, rfl, rfl⟩

section
variable [Uni] {tbl : LNode} {rows : List (List WCell)} {g : Grid}

/-- the element of a cell which does not continue another one -/
theorem own_element (hW : WordTable tbl rows) (hL : LaidOut rows g) {i : Nat} {row : List WCell} (hi : rows[i]? = some row)
    {c : WCell} (hc : c ∈ row) (ho : c.cont = false) :
    ∃ (k : Nat) (e : GridEl), g.els[k]? = some e ∧ e.cell = c.tc ∧ e.top = i ∧ e.left = c.col ∧ e.colspan = c.span ∧
      ∀ j, j < c.span → slot g.matrix i (c.col + j) = some k := by
  have hm : (c.tc, (i : Int), (c.col : Int), (c.span : Int)) ∈ g.els.map (fun e => (e.cell, e.top, e.left, e.colspan)) := by
    rw [hL.own, List.mem_flatten]
    refine ⟨(row.filter (fun c => !c.cont)).map (fun c => (c.tc, (i : Int), (c.col : Int), (c.span : Int))), ?_, ?_⟩
    · rw [List.mem_iff_getElem?]
      exact ⟨i, by rw [List.getElem?_mapIdx, hi]; rfl⟩
    · exact List.mem_map.2 ⟨c, List.mem_filter.2 ⟨hc, by simp [ho]⟩, rfl⟩
  obtain ⟨e, he, hk⟩ := List.mem_map.1 hm
  obtain ⟨k, hk'⟩ := List.getElem?_of_mem he
  simp only [Prod.mk.injEq] at hk
  obtain ⟨h1, h2, h3, h4⟩ := hk
  refine ⟨k, e, hk', h1, h2, h3, h4, fun j hj => hL.complete k e hk' _ _ ?_⟩
  have := hL.proper k e hk'
  unfold GridEl.colspan at h4
  exact ⟨by omega, by omega, by omega, by omega⟩

/-- the element of a cell which continues another one begins above -/
theorem cont_element (hW : WordTable tbl rows) (hL : LaidOut rows g) {i : Nat} {row : List WCell} (hi : rows[i]? = some row)
    {c : WCell} (hc : c ∈ row) (ho : c.cont = true) {j : Nat} (hj : j < c.span) :
    ∃ (k : Nat) (e : GridEl), slot g.matrix i (c.col + j) = some k ∧ g.els[k]? = some e ∧ e.top < i := by
  cases i with
  | zero => have := hW.first row hi c hc; rw [ho] at this; cases this
  | succ i =>
    obtain ⟨k, h1, h2⟩ := hL.cont i row hi c hc ho j hj
    obtain ⟨e, h3, h4⟩ := hL.sound _ _ _ h2
    refine ⟨k, e, h1, h3, ?_⟩
    have := h4.1
    omega

theorem extends_of (hW : WordTable tbl rows) (hL : LaidOut rows g) {i : Nat} {row : List WCell} (hi : rows[i]? = some row)
    {c : WCell} (hc : c ∈ row) {k : Nat} {e : GridEl} (hk : g.els[k]? = some e) (ht : e.top = i)
    (hl : e.left = c.col) (hs : e.colspan = c.span) : ∃ h : Nat, e.rowspan = h ∧ Extends rows i c h := by
  have hp := hL.proper k e hk
  have hpos := (hW.markup row (List.mem_of_getElem? hi) c hc).span_pos
  refine ⟨e.rowspan.toNat, ?_, ?_⟩
  · unfold GridEl.rowspan; omega
  have hh : ((e.rowspan.toNat : Nat) : Int) = e.bottom - i + 1 := by unfold GridEl.rowspan; omega
  generalize e.rowspan.toNat = h at hh
  have hright : e.right = c.col + c.span - 1 := by unfold GridEl.colspan at hs; omega
  -- the rows below
  have hrow : ∀ d, d < h → ∃ row', rows[i + d]? = some row' ∧ ∃ x ∈ row', x.col = c.col ∧ x.span = c.span ∧ (0 < d → x.cont = true) := by
    intro d
    induction d with
    | zero => intro _; exact ⟨row, hi, c, hc, rfl, rfl, fun h => absurd h (by omega)⟩
    | succ d ih =>
      intro hd
      obtain ⟨row1, hr1, x, hx, x1, x2, -⟩ := ih (by omega)
      have hsl := hL.complete k e hk (i + (d + 1)) c.col ⟨by omega, by omega, by omega, by omega⟩
      have hlt := slot_lt hsl
      rw [hL.height] at hlt
      have hr2 : rows[i + (d + 1)]? = some (rows[i + (d + 1)]'hlt) := List.getElem?_eq_getElem hlt
      generalize rows[i + (d + 1)]'hlt = row2 at hr2
      have hm2 : ∃ m, g.matrix[i + (d + 1)]? = some m :=
        ⟨_, List.getElem?_eq_getElem (by rw [hL.height]; exact hlt)⟩
      obtain ⟨m, hm⟩ := hm2
      rw [slot_row hm] at hsl
      have hw := hL.width _ _ _ hr2 hm
      have hlt2 := (List.getElem?_eq_some_iff.1 hsl).1
      obtain ⟨y, hy, y1, y2⟩ := cols_cover (hW.cols row2 (List.mem_of_getElem? hr2)) (k := c.col) (by omega)
      have hyc : y.cont = true := by
        by_contra hyn
        have hyn : y.cont = false := by simpa using hyn
        obtain ⟨k', e', q1, q2, q3, q4, q5, q6⟩ := own_element hW hL hr2 hy hyn
        have := q6 (c.col - y.col) (by omega)
        rw [show y.col + (c.col - y.col) = c.col by omega, slot_row hm, hsl] at this
        cases this
        rw [hk] at q1
        cases q1
        omega
      obtain ⟨a, ha, a1, a2⟩ := hW.aligned (i + d) row1 row2 hr1 hr2 y hy hyc
      have hax : a = x := cols_disjoint (hW.cols row1 (List.mem_of_getElem? hr1)) ha hx (k := c.col) (by omega) (by omega) (by omega) (by omega)
      subst hax
      exact ⟨row2, hr2, y, hy, by omega, by omega, fun _ => hyc⟩
  refine ⟨by omega, ?_, ?_⟩
  · intro d h0 hd
    obtain ⟨row', h1, x, h2, h3, -, h5⟩ := hrow d hd
    exact ⟨row', h1, x, h2, h3, h5 h0⟩
  · intro row' hr x hx hxc
    by_contra hn
    have hn : x.cont = true := by simpa using hn
    have hxp := (hW.markup row' (List.mem_of_getElem? hr) x hx).span_pos
    have hrr : rows[(i + h - 1) + 1]? = some row' := by rw [show i + h - 1 + 1 = i + h by omega]; exact hr
    obtain ⟨k', h1, h2⟩ := hL.cont _ _ hrr x hx hn 0 hxp
    have h3 := hL.complete k e hk (i + h - 1) c.col ⟨by omega, by omega, by omega, by omega⟩
    rw [Nat.add_zero, hxc, h3] at h2
    cases h2
    obtain ⟨e', h4, h5⟩ := hL.sound _ _ _ h1
    rw [hk] at h4
    cases h4
    have := h5.2.1
    omega

omit [Uni] in
theorem cellNodes_skip (cls : Classes) (r c n : Nat) (cells : List HCell) (hn : n ≤ cells.length)
    (h : ∀ j, j < n → ∀ x, cells[j]? = some x → ¬ (x.left = ((c + j : Nat) : Int) ∧ x.top = (r : Int))) :
    cellNodes cls r c cells = cellNodes cls r (c + n) (cells.drop n) := by
  induction n generalizing c cells with
  | zero => rfl
  | succ n ih =>
    cases cells with
    | nil => simp at hn
    | cons x cells =>
      have h0 := h 0 (by omega) x rfl
      rcases x with ⟨tag, elems, cs, rs, left, top, fill⟩
      rw [cellNodes, if_neg (by simpa [HCell.left, HCell.top] using h0), List.drop_succ_cons,
        ih (c + 1) cells (by simpa using hn)]
      · rw [show c + 1 + n = c + (n + 1) by omega]
      · intro j hj x hx
        have := h (j + 1) (by omega) x (by simpa using hx)
        rwa [show c + 1 + j = c + (j + 1) by omega]

omit [Uni] in
theorem rowNodes_eq (cls : Classes) (r : Nat) (hrows : List (List HCell)) :
    rowNodes cls r hrows = (hrows.mapIdx (fun i row => cellNodes cls (r + i) 0 row)).map (.elem c!"tr" []) := by
  induction hrows generalizing r with
  | nil => rw [rowNodes]; rfl
  | cons row hrows ih =>
    rw [rowNodes, ih, List.mapIdx_cons, List.map_cons]
    congr 2
    congr 1
    funext i row
    rw [show r + 1 + i = r + (i + 1) by omega]

/-- a cell of the parsed table at row `i` and column `j`, and the element of the grid it comes from -/
def FromEl (any : List LNode → Seen → Except Exn (List HUnit × Seen)) (els : List GridEl) (i j k : Nat) (x : HCell) : Prop :=
  ∃ e elems s s', els[k]? = some e ∧ any e.cell.children s = .ok (elems, s') ∧
    (e.top = (i : Int) → e.left = (j : Int) → ∀ p ∈ s, ¬ e.cell.path <+: p) ∧
    x = .mk (cellTag (cellFill e.cell.node)) elems e.colspan e.rowspan e.left e.top (cellFill e.cell.node)

omit [Uni] in
theorem mapSt_forall {α β σ : Type} {f : α → σ → Except Exn (β × σ)} {P : α → β → Prop}
    (hf : ∀ a s b s', f a s = .ok (b, s') → P a b) : ∀ {as : List α} {s : σ} {bs : List β} {s' : σ},
    mapSt f as s = .ok (bs, s') → List.Forall₂ P as bs := by
  intro as
  induction as with
  | nil => intro s bs s' h; rw [mapSt] at h; cases h; exact .nil
  | cons a as ih =>
    intro s bs s' h
    obtain ⟨b, s1, bs', s2, h1, h2, h3⟩ := mapSt_cons h
    cases h3
    exact .cons (hf _ _ _ _ h1) (ih h2)

theorem parseSlot_from {any : List LNode → Seen → Except Exn (List HUnit × Seen)} {els : List GridEl} {k : Nat} {s s' : Seen}
    {x : HCell} (h : parseSlot any els k s = .ok (x, s')) : ∃ e elems, els[k]? = some e ∧ any e.cell.children s = .ok (elems, s') ∧
      x = .mk (cellTag (cellFill e.cell.node)) elems e.colspan e.rowspan e.left e.top (cellFill e.cell.node) := by
  unfold parseSlot at h
  cases he : els[k]? with
  | none => rw [he] at h; cases h
  | some e =>
    rw [he] at h
    obtain ⟨⟨us, s1⟩, h3, h⟩ := except_bind_ok h
    cases h
    exact ⟨e, us, rfl, h3, rfl⟩

omit [Uni] in
/-- a loop, with the positions of its elements -/
theorem mapSt_pos {α β σ : Type} {f : α → σ → Except Exn (β × σ)} {I : Nat → σ → Prop} {P : Nat → α → β → Prop} {as : List α} (n : Nat)
    (hf : ∀ j a s b s', as[j]? = some a → I (n + j) s → f a s = .ok (b, s') → I (n + j + 1) s' ∧ P (n + j) a b) :
    ∀ {s : σ} {bs : List β} {s' : σ}, I n s → mapSt f as s = .ok (bs, s') →
      I (n + as.length) s' ∧ bs.length = as.length ∧ ∀ j b, bs[j]? = some b → ∃ a, as[j]? = some a ∧ P (n + j) a b := by
  induction as generalizing n with
  | nil => intro s bs s' hi h; rw [mapSt] at h; cases h; exact ⟨hi, rfl, fun j b hb => by simp at hb⟩
  | cons a as ih =>
    intro s bs s' hi h
    obtain ⟨b, s1, bs', s2, h1, h2, h3⟩ := mapSt_cons h
    cases h3
    obtain ⟨i1, p1⟩ := hf 0 a _ _ _ rfl hi h1
    obtain ⟨i2, l2, p2⟩ := ih (n + 1) (fun j a s b s' ha hi hb => by
      have := hf (j + 1) a s b s' (by simpa using ha)
      rw [show n + 1 + j = n + (j + 1) by omega] at hi ⊢
      exact this hi hb) i1 h2
    refine ⟨by rw [List.length_cons, show n + (as.length + 1) = n + 1 + as.length by omega]; exact i2, by simp [l2], fun j c hc => ?_⟩
    cases j with
    | zero => cases hc; exact ⟨a, rfl, p1⟩
    | succ j =>
      obtain ⟨a', h1, h2⟩ := p2 j c (by simpa using hc)
      exact ⟨a', by simpa using h1, by rw [show n + (j + 1) = n + 1 + j by omega]; exact h2⟩

omit [Uni] in
theorem forall2_get {α β : Type} {P : α → β → Prop} {as : List α} {bs : List β} (h : List.Forall₂ P as bs) {i : Nat} {b : β}
    (hb : bs[i]? = some b) : ∃ a, as[i]? = some a ∧ P a b := by
  induction h generalizing i with
  | nil => cases hb
  | @cons a b' as bs hab _ ih =>
    cases i with
    | zero => cases hb; exact ⟨a, rfl, hab⟩
    | succ i => exact ih (by simpa using hb)

/-- the cells of one row -/
theorem row_shown {doc : WordDoc} {fuel : Nat} (cls : Classes) (hW : WordTable tbl rows) (hL : LaidOut rows g) {i : Nat}
    {row : List WCell} (hi : rows[i]? = some row) {m : List Nat} (hm : g.matrix[i]? = some m) {cells : List HCell} (hcl : cells.length = m.length)
    (hf : ∀ j x, cells[j]? = some x → ∃ k, m[j]? = some k ∧ FromEl (parseAny doc fuel) g.els i j k x) :
    List.Forall₂ (ShowsCell doc cls rows i) (row.filter (fun c => !c.cont)) (cellNodes cls i 0 cells) := by
  have hlen : cells.length = widthOf row := by rw [hcl]; exact hL.width _ _ _ hi hm
  have hcols := hW.cols row (List.mem_of_getElem? hi)
  have hmk := hW.markup row (List.mem_of_getElem? hi)
  have key : ∀ rest before, row = before ++ rest →
      List.Forall₂ (ShowsCell doc cls rows i) (rest.filter (fun c => !c.cont))
        (cellNodes cls i (widthOf before) (cells.drop (widthOf before))) := by
    intro rest
    induction rest with
    | nil =>
      intro before hr
      rw [List.append_nil] at hr
      rw [← hr, ← hlen, List.drop_length, cellNodes]
      exact .nil
    | cons c rest ih =>
      intro before hr
      have hcm : c ∈ row := by rw [hr]; simp
      have hcol := hcols _ _ _ hr
      have hpos := (hmk c hcm).span_pos
      have hwid : widthOf row = widthOf before + (c.span + widthOf rest) := by rw [hr, widthOf_append, widthOf_cons]
      have ih' := ih (before ++ [c]) (by simp [hr])
      rw [widthOf_snoc] at ih'
      cases hcc : c.cont with
      | true =>
        rw [List.filter_cons_of_neg (by simp [hcc]), cellNodes_skip cls i _ c.span _ (by rw [List.length_drop]; omega),
          List.drop_drop]
        · exact ih'
        · rintro j hj x hx ⟨-, hx2⟩
          rw [List.getElem?_drop] at hx
          obtain ⟨k, hk, e, elems, s, s', he, -, -, rfl⟩ := hf _ _ hx
          obtain ⟨k', e', h1, h2, h3⟩ := cont_element hW hL hi hcm hcc hj
          rw [slot_row hm, hcol, hk] at h1
          cases h1
          rw [he] at h2
          cases h2
          simp only [HCell.top] at hx2
          omega
      | false =>
        obtain ⟨k, e, h1, h2, h3, h4, h5, h6⟩ := own_element hW hL hi hcm hcc
        rw [List.filter_cons_of_pos (by simp [hcc])]
        have hlt : widthOf before < cells.length := by omega
        rw [List.drop_eq_getElem_cons hlt]
        have hx : cells[widthOf before]? = some (cells[widthOf before]'hlt) := List.getElem?_eq_getElem hlt
        generalize cells[widthOf before]'hlt = x at hx
        obtain ⟨k', hk', e', elems, s, s', he, hany, hfr, rfl⟩ := hf _ _ hx
        have hs := h6 0 hpos
        rw [slot_row hm, Nat.add_zero, hcol, hk'] at hs
        cases hs
        rw [h1] at he
        cases he
        rw [cellNodes, if_pos ⟨by omega, by omega⟩]
        obtain ⟨h, g1, g2⟩ := extends_of hW hL hi hcm h1 h3 h4 h5
        refine .cons ?_ ?_
        · refine ⟨cellTag (cellFill e.cell.node), cellFill e.cell.node, h, elems, ?_, tagOf_cellTag _ ?_, g2,
            ⟨fuel, s, s', by rw [← h2]; exact hany, by rw [← h2]; exact hfr h3 (by omega)⟩, ?_⟩
          · rw [h2]; exact fillOf_cellFill _
          · intro f hf
            exact ((fillOf_cellFill _ f).1 hf).2.1
          · rw [g1, h5]
        · have hsk := cellNodes_skip cls i (widthOf before + 1) (c.span - 1) (cells.drop (widthOf before + 1))
            (by rw [List.length_drop]; omega) ?_
          · rw [hsk, List.drop_drop, show widthOf before + 1 + (c.span - 1) = widthOf before + c.span by omega]
            exact ih'
          · rintro j hj y hy ⟨hy1, -⟩
            rw [List.getElem?_drop] at hy
            obtain ⟨k2, hk2, e2, elems2, s2, s2', he2, -, -, rfl⟩ := hf _ _ hy
            have := h6 (j + 1) (by omega)
            rw [slot_row hm, hcol, show widthOf before + (j + 1) = widthOf before + 1 + j by omega, hk2] at this
            cases this
            rw [h1] at he2
            cases he2
            simp only [HCell.left] at hy1
            omega
  have := key row [] rfl
  simpa [widthOf] using this

omit [Uni] in
theorem kidsFrom_order (path : List Nat) (i : Nat) (ks : List Node) : (kidsFrom path i ks).Pairwise (fun a b => a.path ≠ b.path) := by
  induction ks generalizing i with
  | nil => rw [kidsFrom]; exact .nil
  | cons k ks ih =>
    rw [kidsFrom]
    split
    · refine .cons (fun b hb he => ?_) (ih _)
      obtain ⟨j, h1, -⟩ := mem_kidsFrom.1 hb
      rw [h1] at he
      simp at he
      omega
    · exact ih _

omit [Uni] in
theorem childs_order (l : LNode) (t : Str) : (l.childs t).Pairwise (fun a b => a.path ≠ b.path) := (kidsFrom_order _ _ _).filter _

omit [Uni] in
theorem pairwise_index {l : List LNode} (h : l.Pairwise (fun a b => a.path ≠ b.path)) {i j : Nat} {a b : LNode} (hi : l[i]? = some a)
    (hj : l[j]? = some b) (he : a.path = b.path) : i = j := by
  obtain ⟨hi', rfl⟩ := List.getElem?_eq_some_iff.1 hi
  obtain ⟨hj', rfl⟩ := List.getElem?_eq_some_iff.1 hj
  rcases Nat.lt_trichotomy i j with hlt | rfl | hlt
  · exact absurd he (List.pairwise_iff_getElem.1 h i j hi' hj' hlt)
  · rfl
  · exact absurd he.symm (List.pairwise_iff_getElem.1 h j i hj' hi' hlt)

/-- the place of an element of the grid in the table -/
theorem element_place (hW : WordTable tbl rows) (hL : LaidOut rows g) {k : Nat} {e : GridEl} (hk : g.els[k]? = some e) :
    ∃ (i j : Nat) (tr : LNode) (row : List WCell) (c : WCell), (tbl.childs wTr)[i]? = some tr ∧ rows[i]? = some row ∧
      (tr.childs wTc)[j]? = some e.cell ∧ row[j]? = some c ∧ e.top = i ∧ e.left = c.col := by
  have hm : (e.cell, e.top, e.left, e.colspan) ∈ g.els.map (fun e => (e.cell, e.top, e.left, e.colspan)) :=
    List.mem_map_of_mem (f := fun e : GridEl => (e.cell, e.top, e.left, e.colspan)) (List.mem_of_getElem? hk)
  rw [hL.own, List.mem_flatten] at hm
  obtain ⟨l, hl, hm⟩ := hm
  obtain ⟨i, hi⟩ := List.getElem?_of_mem hl
  rw [List.getElem?_mapIdx] at hi
  cases hr : rows[i]? with
  | none => rw [hr] at hi; cases hi
  | some row =>
    rw [hr] at hi
    simp only [Option.map_some, Option.some.injEq] at hi
    subst hi
    obtain ⟨c, hc, he⟩ := List.mem_map.1 hm
    simp only [Prod.mk.injEq] at he
    obtain ⟨h1, h2, h3, -⟩ := he
    obtain ⟨j, hj⟩ := List.getElem?_of_mem (List.mem_filter.1 hc).1
    have hs := congrArg (·[i]?) hW.source
    simp only [List.getElem?_map, hr, Option.map_some] at hs
    cases ht : (tbl.childs wTr)[i]? with
    | none => rw [ht] at hs; cases hs
    | some tr =>
      rw [ht] at hs
      simp only [Option.map_some, Option.some.injEq] at hs
      exact ⟨i, j, tr, row, c, ht, hr, by rw [hs, List.getElem?_map, hj, ← h1]; rfl, hj, h2.symm, h3.symm⟩

/-- each element of the grid has a Word cell of its own -/
theorem element_unique (hW : WordTable tbl rows) (hL : LaidOut rows g) {k k' : Nat} {e e' : GridEl} (hk : g.els[k]? = some e)
    (hk' : g.els[k']? = some e') (hp : e.cell.path = e'.cell.path) : e.top = e'.top ∧ e.left = e'.left := by
  obtain ⟨i, j, tr, row, c, h1, h2, h3, h4, h5, h6⟩ := element_place hW hL hk
  obtain ⟨i', j', tr', row', c', g1, g2, g3, g4, g5, g6⟩ := element_place hW hL hk'
  obtain ⟨a, ha, -⟩ := children_path (mem_childs (List.mem_of_getElem? h3)).1
  obtain ⟨b, hb, -⟩ := children_path (mem_childs (List.mem_of_getElem? g3)).1
  have ht : tr.path = tr'.path := by
    rw [ha, hb] at hp
    exact (List.append_inj' hp rfl).1
  have hi := pairwise_index (childs_order tbl wTr) h1 g1 ht
  subst hi
  rw [h1] at g1; cases g1
  rw [h2] at g2; cases g2
  have hj := pairwise_index (childs_order tr wTc) h3 g3 hp
  subst hj
  rw [h4] at g4; cases g4
  exact ⟨h5.trans g5.symm, h6.trans g6.symm⟩

/-- what the parser has met before the slot at row `i` and column `j`: what it had met before, and the content of the slots before -/
def Met (g : Grid) (s0 : Seen) (i j : Nat) (s : Seen) : Prop :=
  ∀ p ∈ s, p ∈ s0 ∨ ∃ i' j' k' e', slot g.matrix i' j' = some k' ∧ g.els[k']? = some e' ∧ (i' < i ∨ i' = i ∧ j' < j) ∧ e'.cell.path <+: p

/-- a table which has been parsed -/
theorem table_shown {doc : WordDoc} {fuel : Nat} (cls : Classes) (hW : WordTable tbl rows) {seen seen' : Seen} {u : HUnit}
    (h : parseTable doc fuel tbl seen = .ok ([u], seen')) (hfr : ∀ p ∈ seen, ¬ tbl.path <+: p) : ShowsTable doc cls rows (unitNode cls u) := by
  cases fuel with
  | zero => rw [parseTable] at h; cases h
  | succ fuel =>
    rw [parseTable] at h
    by_cases ht : tbl.node.hasTag wTbl = true
    · rw [if_pos ht] at h
      by_cases hs : tbl.path ∈ seen
      · rw [if_pos hs] at h; cases h
      · rw [if_neg hs] at h
        obtain ⟨g, h1, h⟩ := except_bind_ok h
        obtain ⟨⟨hrows, s2⟩, h2, h⟩ := except_bind_ok h
        cases h
        obtain ⟨g', hg', hL⟩ := C39_tiling_partial tbl rows hW
        rw [h1] at hg'
        cases hg'
        have hcell : ∀ {k : Nat} {e : GridEl}, g.els[k]? = some e → ∃ a b, e.cell.path = tbl.path ++ [a, b] := by
          intro k e he
          obtain ⟨tr, htr, htc⟩ := (grid_cells_origin h1).1 e (List.mem_of_getElem? he)
          obtain ⟨j1, hj1, -⟩ := children_path (mem_childs htr).1
          obtain ⟨j2, hj2, -⟩ := children_path (mem_childs htc).1
          exact ⟨j1, j2, by rw [hj2, hj1]; simp⟩
        have hrow : ∀ (i : Nat) (m : List Nat) (s : Seen) (cells : List HCell) (s' : Seen), g.matrix[i]? = some m →
            Met g (tbl.path :: seen) i 0 s → mapSt (parseSlot (parseAny doc fuel) g.els) m s = .ok (cells, s') →
            Met g (tbl.path :: seen) (i + 1) 0 s' ∧ cells.length = m.length ∧
              ∀ j x, cells[j]? = some x → ∃ k, m[j]? = some k ∧ FromEl (parseAny doc fuel) g.els i j k x := by
          intro i m s cells s' hm hmet hmap
          obtain ⟨q1, q2, q3⟩ := mapSt_pos (I := Met g (tbl.path :: seen) i) (P := fun j k x => FromEl (parseAny doc fuel) g.els i j k x) 0 (by
            intro j k s b s' hj hI hk
            rw [Nat.zero_add] at hI ⊢
            obtain ⟨e, elems, he, hany, rfl⟩ := parseSlot_from hk
            have hsl : slot g.matrix i j = some k := by rw [slot_row hm]; exact hj
            refine ⟨fun p hp => ?_, e, elems, s, s', he, hany, fun htop hleft p hp hpre => ?_, rfl⟩
            · rcases (parse_seen fuel).2 _ _ _ _ hany p hp with hp | ⟨c, hc, hp⟩
              · rcases hI p hp with hp | ⟨i', j', k', e', u1, u2, u3, u4⟩
                · exact .inl hp
                · exact .inr ⟨i', j', k', e', u1, u2, by omega, u4⟩
              · obtain ⟨j3, hj3, -⟩ := children_path hc
                exact .inr ⟨i, j, k, e, hsl, he, by omega, List.IsPrefix.trans ⟨[j3], hj3.symm⟩ hp⟩
            · obtain ⟨a, b, hab⟩ := hcell he
              rcases hI p hp with hp | ⟨i', j', k', e', u1, u2, u3, u4⟩
              · rcases List.mem_cons.1 hp with rfl | hp
                · have := hpre.length_le
                  rw [hab] at this
                  simp only [List.length_append, List.length_cons, List.length_nil] at this
                  omega
                · exact hfr p hp (List.IsPrefix.trans ⟨[a, b], hab.symm⟩ hpre)
              · obtain ⟨a', b', hab'⟩ := hcell u2
                have hpp : e.cell.path = e'.cell.path := by
                  rcases List.prefix_or_prefix_of_prefix hpre u4 with h | h
                  · exact h.eq_of_length (by rw [hab, hab']; simp)
                  · exact (h.eq_of_length (by rw [hab, hab']; simp)).symm
                obtain ⟨t1, t2⟩ := element_unique hW hL he u2 hpp
                obtain ⟨e'', v1, v2⟩ := hL.sound _ _ _ u1
                rw [u2] at v1
                cases v1
                obtain ⟨w1, -, w2, -⟩ := v2
                omega) hmet hmap
          refine ⟨fun p hp => ?_, q2, fun j x hx => ?_⟩
          · rcases q1 p hp with hp | ⟨i', j', k', e', u1, u2, u3, u4⟩
            · exact .inl hp
            · exact .inr ⟨i', j', k', e', u1, u2, by omega, u4⟩
          · obtain ⟨k, hk, hF⟩ := q3 j x hx
            rw [Nat.zero_add] at hF
            exact ⟨k, hk, hF⟩
        obtain ⟨-, hlen, hf⟩ := mapSt_pos (I := fun i s => Met g (tbl.path :: seen) i 0 s) (P := fun i (m : List Nat) (cells : List HCell) =>
            cells.length = m.length ∧ ∀ j x, cells[j]? = some x → ∃ k, m[j]? = some k ∧ FromEl (parseAny doc fuel) g.els i j k x) 0 (by
          intro i m s cells s' hm hI hmap
          rw [Nat.zero_add] at hI ⊢
          exact hrow i m s cells s' hm hI hmap) (fun p hp => .inl hp) h2
        refine ⟨findId hrows, hrows.mapIdx (fun i row => cellNodes cls i 0 row), ?_, ?_, ?_⟩
        · show unitNode cls (.table tbl.path (findId hrows) hrows) = _
          rw [unitNode, rowNodes_eq]
          simp only [Nat.zero_add]
        · rw [List.length_mapIdx, hlen, hL.height]
        · intro i row ns hi hns
          rw [List.getElem?_mapIdx] at hns
          cases hr : hrows[i]? with
          | none => rw [hr] at hns; cases hns
          | some cells =>
            rw [hr] at hns
            cases hns
            obtain ⟨m, hm, hmf⟩ := hf i _ hr
            rw [Nat.zero_add] at hmf
            exact row_shown cls hW hL hi hm hmf.1 hmf.2
    · rw [if_neg ht] at h; cases h

omit [Uni] in
theorem mem_shownRow {r c : Nat} {cells : List HCell} {v : HUnit} (h : v ∈ shownRow r c cells) : ∃ x ∈ cells, v ∈ shownUnits x.elems := by
  induction cells generalizing c with
  | nil => rw [shownRow] at h; cases h
  | cons x cells ih =>
    rcases x with ⟨tag, elems, cs, rs, left, top, fill⟩
    rw [shownRow] at h
    rcases List.mem_append.1 h with h | h
    · split at h
      · exact ⟨.mk tag elems cs rs left top fill, by simp, h⟩
      · cases h
    · obtain ⟨y, h1, h2⟩ := ih h
      exact ⟨y, List.mem_cons_of_mem _ h1, h2⟩

omit [Uni] in
theorem mem_shownRows {r : Nat} {rows : List (List HCell)} {v : HUnit} (h : v ∈ shownRows r rows) :
    ∃ row ∈ rows, ∃ x ∈ row, v ∈ shownUnits x.elems := by
  induction rows generalizing r with
  | nil => rw [shownRows] at h; cases h
  | cons row rows ih =>
    rw [shownRows] at h
    rcases List.mem_append.1 h with h | h
    · exact ⟨row, by simp, mem_shownRow h⟩
    · obtain ⟨y, h1, h2⟩ := ih h
      exact ⟨y, List.mem_cons_of_mem _ h1, h2⟩

/-- the unit is what the parser made of a table of the document, when it met the table -/
def FromTable (doc : WordDoc) (v : HUnit) : Prop :=
  ∃ tbl fuel seen seen', tbl ∈ docTables doc.root ∧ v.src = tbl.path ∧ parseTable doc fuel tbl seen = .ok ([v], seen') ∧
    ∀ p ∈ seen, ¬ tbl.path <+: p

theorem parse_from {doc : WordDoc} (n : Nat) :
    (∀ tbl seen us seen', InDoc doc.root tbl ∧ tbl.path ≠ [] → Above doc seen tbl.path → Closed doc seen →
      parseTable doc n tbl seen = .ok (us, seen') →
      (∀ v ∈ shownUnits us, FromTable doc v) ∧ Closed doc seen' ∧ (∀ p ∈ seen, p ∈ seen') ∧ tbl.path ∈ seen') ∧
    (∀ stream seen us seen', (∀ c ∈ stream, (InDoc doc.root c ∧ c.path ≠ []) ∧ Above doc seen c.path) → Closed doc seen →
      parseAny doc n stream seen = .ok (us, seen') → (∀ v ∈ shownUnits us, FromTable doc v) ∧ Closed doc seen' ∧ ∀ p ∈ seen, p ∈ seen') := by
  induction n with
  | zero =>
    refine ⟨fun tbl seen us seen' _ _ _ h => ?_, fun s seen us seen' _ _ h => ?_⟩
    · rw [parseTable] at h; cases h
    · rw [parseAny] at h; cases h
  | succ n ih =>
    refine ⟨?_, ?_⟩
    · intro tbl seen us seen' hd hab hcl h
      have h0 := h
      rw [parseTable] at h
      by_cases ht : tbl.node.hasTag wTbl = true
      · rw [if_pos ht] at h
        by_cases hs : tbl.path ∈ seen
        · rw [if_pos hs] at h; cases h
          exact ⟨fun v hv => (by rw [shownUnits] at hv; cases hv), hcl, fun p hp => hp, hs⟩
        · rw [if_neg hs] at h
          obtain ⟨g, h1, h⟩ := except_bind_ok h
          obtain ⟨⟨rows, s2⟩, h2, h⟩ := except_bind_ok h
          cases h
          have hmem := mem_docTables.2 ⟨hd.1, hd.2, ht⟩
          obtain ⟨hcells, -⟩ := grid_cells_origin h1
          have hI : ∀ s', (Closed doc s' ∧ (∀ p ∈ tbl.path :: seen, p ∈ s')) → Above doc s' tbl.path ∧ tbl.path ∈ s' := fun s' h =>
            ⟨hab.mono (fun p hp => h.2 p (List.mem_cons_of_mem _ hp)), h.2 _ List.mem_cons_self⟩
          obtain ⟨⟨k1, k2⟩, k3⟩ := mapSt_inv (I := fun s' : Seen => Closed doc s' ∧ (∀ p ∈ tbl.path :: seen, p ∈ s'))
            (P := fun row : List HCell => ∀ x ∈ row, ∀ v ∈ shownUnits x.elems, FromTable doc v) (as := g.matrix) (by
              intro row _ s cells s' hi hrow
              refine mapSt_inv (I := fun s' : Seen => Closed doc s' ∧ (∀ p ∈ tbl.path :: seen, p ∈ s'))
                (P := fun x : HCell => ∀ v ∈ shownUnits x.elems, FromTable doc v) (as := row) ?_ hi hrow
              intro k _ s b s' hi hk
              obtain ⟨e, elems, he, hany, rfl⟩ := parseSlot_from hk
              obtain ⟨tr, htr, htc⟩ := hcells e (List.mem_of_getElem? he)
              obtain ⟨i1, i2⟩ := hI s hi
              obtain ⟨j1, j2, j3⟩ := ih.2 _ _ _ _ (fun c hc => ⟨⟨((hd.1.child (mem_childs htr).1).child (mem_childs htc).1).child hc, by
                obtain ⟨j, hj, -⟩ := children_path hc
                rw [hj]; simp⟩, i1.cell i2 hd.1 htr htc hc⟩) hi.1 hany
              exact ⟨⟨j2, fun p hp => j3 p (hi.2 p hp)⟩, j1⟩) ⟨hcl.cons hab, fun p hp => hp⟩ h2
          refine ⟨fun v hv => ?_, k1, fun p hp => k2 p (List.mem_cons_of_mem _ hp), k2 _ List.mem_cons_self⟩
          rw [shownUnits_table] at hv
          rcases List.mem_cons.1 hv with rfl | hv
          · exact ⟨tbl, n + 1, seen, _, hmem, rfl, h0, hcl.fresh hmem hs⟩
          · obtain ⟨row, hr, x, hx, hv⟩ := mem_shownRows hv
            exact k3 row hr x hx v hv
      · rw [if_neg ht] at h; cases h
    · intro stream seen us seen' hd hcl h
      cases stream with
      | nil => rw [parseAny] at h; cases h; exact ⟨fun v hv => (by rw [shownUnits] at hv; cases hv), hcl, fun p hp => hp⟩
      | cons c rest =>
        have hrest : ∀ {s : Seen}, (∀ p ∈ seen, p ∈ s) → ∀ d ∈ rest, (InDoc doc.root d ∧ d.path ≠ []) ∧ Above doc s d.path :=
          fun hs d hd' => ⟨(hd d (List.mem_cons_of_mem _ hd')).1, (hd d (List.mem_cons_of_mem _ hd')).2.mono hs⟩
        rw [parseAny] at h
        by_cases ht : c.node.hasTag wTbl = true
        · rw [if_pos ht] at h
          obtain ⟨⟨t, s1⟩, h1, h⟩ := except_bind_ok h
          obtain ⟨⟨us', s2⟩, h2, h⟩ := except_bind_ok h
          cases h
          obtain ⟨a1, a2, a3, -⟩ := ih.1 _ _ _ _ (hd c (by simp)).1 (hd c (by simp)).2 hcl h1
          obtain ⟨b1, b2, b3⟩ := ih.2 _ _ _ _ (hrest a3) a2 h2
          refine ⟨fun v hv => ?_, b2, fun p hp => b3 p (a3 p hp)⟩
          rw [shownUnits_append] at hv
          rcases List.mem_append.1 hv with hv | hv
          · exact a1 v hv
          · exact b1 v hv
        · rw [if_neg ht] at h
          by_cases hp : c.node.hasTag wP = true
          · rw [if_pos hp] at h
            obtain ⟨isList, h1, h⟩ := except_bind_ok h
            cases isList with
            | true =>
              simp only [if_true] at h
              obtain ⟨⟨it, rest'⟩, h2, h⟩ := except_bind_ok h
              obtain ⟨⟨us', s2⟩, h3, h⟩ := except_bind_ok h
              obtain ⟨a, l, props, items, ps, g1, g2, -, -, g5, -⟩ := (parseList_spec doc _).1 _ _ _ _ h2 h1
              simp only [g1] at h
              cases h
              obtain ⟨b1, b2⟩ := ih.2 _ _ _ _ (fun d hd => hrest (fun p hp => hp) d (by rw [g2]; exact List.mem_append_right _ hd)) hcl h3
              refine ⟨fun v hv => ?_, b2⟩
              rw [shownUnits, HUnit.shown, List.nil_append] at hv
              exact b1 v hv
            | false =>
              simp only [Bool.false_eq_true, if_false] at h
              obtain ⟨ps, h2, h⟩ := except_bind_ok h
              obtain ⟨⟨us', s2⟩, h3, h⟩ := except_bind_ok h
              cases h
              obtain ⟨b1, b2⟩ := ih.2 _ _ _ _ (hrest fun p hp => hp) hcl h3
              refine ⟨fun v hv => ?_, b2⟩
              rw [shownUnits_append] at hv
              rcases List.mem_append.1 hv with hv | hv
              · unfold parseParagraph at h2
                obtain ⟨spans, hsp, h2⟩ := except_bind_ok h2
                split at h2 <;> cases h2 <;> simp [shownUnits, HUnit.shown] at hv
              · exact b1 v hv
          · rw [if_neg hp] at h
            exact ih.2 _ _ _ _ (hrest fun p hp => hp) hcl h

theorem parseWord_from {doc : WordDoc} {us : List HUnit} (h : parseWord doc = .ok us) : ∀ v ∈ shownUnits us, FromTable doc v := by
  unfold parseWord at h
  obtain ⟨⟨uss, s⟩, h1, h'⟩ := except_bind_ok h
  cases h'
  obtain ⟨-, -, this⟩ := mapSt_pos (I := fun j s => Closed doc s ∧ ∀ t ∈ (docTables doc.root).take j, t.path ∈ s)
    (P := fun _ (_ : LNode) us => ∀ v ∈ shownUnits us, FromTable doc v) 0 (by
      intro j t s b s' hj hI hb
      rw [Nat.zero_add] at hI ⊢
      have hmem := List.mem_of_getElem? hj
      have hsplit : docTables doc.root = (docTables doc.root).take j ++ t :: (docTables doc.root).drop (j + 1) := by
        obtain ⟨hlt, rfl⟩ := List.getElem?_eq_some_iff.1 hj
        rw [← List.drop_eq_getElem_cons hlt, List.take_append_drop]
      have hab : Above doc s t.path := fun t' ht' hp hne => hI.2 t' (docTables_order hsplit ht' hp hne)
      obtain ⟨a1, a2, a3, a4⟩ := (parse_from _).1 _ _ _ _ ⟨(mem_docTables.1 hmem).1, (mem_docTables.1 hmem).2.1⟩ hab hI.1 hb
      refine ⟨⟨a2, fun t' ht' => ?_⟩, a1⟩
      rw [List.take_add_one, hj] at ht'
      rcases List.mem_append.1 ht' with ht' | ht'
      · exact a3 _ (hI.2 t' ht')
      · have : t' = t := by simpa using ht'
        rw [this]; exact a4) ⟨fun t _ p hp => (by cases hp), fun t ht => by simp at ht⟩ h1
  have hall : ∀ us ∈ uss, ∀ v ∈ shownUnits us, FromTable doc v := by
    intro us hu
    obtain ⟨j, hj⟩ := List.getElem?_of_mem hu
    obtain ⟨_, -, h⟩ := this j us hj
    exact h
  clear h1 h this
  simp only
  induction uss with
  | nil => intro v hv; rw [List.flatten_nil, shownUnits] at hv; cases hv
  | cons us uss ih =>
    intro v hv
    rw [List.flatten_cons, shownUnits_append] at hv
    rcases List.mem_append.1 hv with hv | hv
    · exact hall us (by simp) v hv
    · exact ih (fun us' hu => hall us' (List.mem_cons_of_mem _ hu)) v hv

end

/-! ### C40 -/

/-- C40: Every `table` element of the page shows one table of the Word document (which one is settled by C49: each exactly
once). If the merges of that table are rectangular (`WordTable`, as in C39), then the page has a row for each of its rows, and in
that row each cell which does not continue another one exactly once and in order, with the number of columns and rows it extends
over, and with its own content. For other tables the statement is false, as the grid is not a tiling (`C39_misaligned_false`). -/
theorem C40_cells_once_partial [Uni] (doc : WordDoc) (hx : XmlText doc.root.flat) (us : List HUnit) (h : parseWord doc = .ok us)
    (cls : Classes) (version title fname : Str) (revision : Option Str) :
    ∀ n ∈ tablesOf (pageNode version title revision fname (unitNodes cls us)),
      ∃ v ∈ shownUnits us, n = unitNode cls v ∧ ∃ tbl ∈ docTables doc.root, v.src = tbl.path ∧
        ∀ rows, WordTable tbl rows → ShowsTable doc cls rows n := by
  intro n hn
  rw [C49_tables_of_page doc hx us h] at hn
  obtain ⟨v, hv, rfl⟩ := List.mem_map.1 hn
  obtain ⟨tbl, fuel, seen, seen', h1, h3, h4, h5⟩ := parseWord_from h v hv
  exact ⟨v, hv, rfl, tbl, h1, h3, fun rows hW => table_shown cls hW h4 h5⟩

/-! ### Examples and counterexamples -/

/-- a document with the table of the example of C39 -/
def exGridDoc : WordDoc := exDocOf [(exWord []).node]

example : XmlText exGridDoc.root.flat ∧ (docTables exGridDoc.root).map (·.path) = [(exWord [0, 0]).path] ∧
    WordTable (exWord [0, 0]) (exWordRows [0, 0]) := ⟨by decide +kernel, by decide +kernel, exWord_table _⟩

/-- a text on the example page -/
def exP (s : Str) : List Node := [.elem c!"p" [] [.elem c!"span" [] [.text s]]]

/-- how the table is shown -/
example : letI := Uni.ascii
    (parseWord exGridDoc).toOption.map (fun us => tablesOfs (unitNodes ⟨fun _ => none, fun _ => some c!"grey"⟩ us)) =
      some [.elem c!"table" [] [
        .elem c!"tr" [] [.elem c!"th" [(c!"class", c!"grey")] (exP c!"G"),
          .elem c!"th" [(c!"colspan", c!"2"), (c!"class", c!"grey")] (exP c!"H")],
        .elem c!"tr" [] [.elem c!"td" [(c!"colspan", c!"2"), (c!"rowspan", c!"2")] (exP c!"A"), .elem c!"td" [] (exP c!"B")],
        .elem c!"tr" [] [.elem c!"td" [] (exP c!"C")],
        .elem c!"tr" [] [.elem c!"td" [] (exP c!"D"), .elem c!"td" [(c!"colspan", c!"2")] (exP c!"E")]]] := by decide +kernel

/-- C40 is false for cells with the column span 0: the Word document is accepted, and the text of the cell is not on the page. -/
theorem C40_zero_span_false : letI := Uni.ascii
    (parseWord (exDocOf [.elem wTbl [] [exTr [exCell [exGridSpan "0"] [exPara "lost"], exCell [] [exPara "kept"]]]])).toOption.map
      (fun us => tablesOfs (unitNodes ⟨fun _ => none, fun _ => none⟩ us)) =
    some [.elem c!"table" [] [.elem c!"tr" [] [.elem c!"td" [] (exP c!"kept")]]] := by decide +kernel

end Spex
