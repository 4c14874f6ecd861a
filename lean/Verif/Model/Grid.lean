import Verif.Model.Word
/-
Model of src/spex/htmlspec/docx/tablewrap.py.
-/
set_option autoImplicit false
namespace Spex
variable [Uni]

/-- VerticalMergeState (tablewrap.py:14-17) -/
inductive VMerge where
  | none | merged | restart
  deriving DecidableEq

/-- tc_grid_span (tablewrap.py:45-47) -/
def tcGridSpan (tc : Node) : Except Exn Int :=
  match tc.attrFirst [wTcPr, c!"w:gridSpan"] aVal with
  | some v => pyInt v
  | none => .ok 1

/-- cell_vertical_merge (tablewrap.py:49-59) -/
def cellVMerge (tc : Node) : Except Exn VMerge :=
  match tc.first [wTcPr, c!"w:vMerge"] with
  | none => .ok .none
  | some m => match m.attr? aVal with
    | none => .ok .merged
    | some [] => .ok .merged
    | some v => if v = c!"restart" then .ok .restart else .error .assertionError

/-- GridElement (tablewrap.py:20-34) -/
structure GridEl where
  cell : LNode
  top : Int
  bottom : Int
  left : Int
  right : Int

/-- GridElement.colspan (tablewrap.py:28-30) -/
def GridEl.colspan (g : GridEl) : Int := g.right - g.left + 1

/-- GridElement.rowspan (tablewrap.py:32-34) -/
def GridEl.rowspan (g : GridEl) : Int := g.bottom - g.top + 1

/-- `l[i]` for a python list: negative indices count from the end (used in tablewrap.py:69, numbering.py:97) -/
def pyIndex {α : Type} (l : List α) (i : Int) : Except Exn α :=
  match l[(if 0 ≤ i then i else i + l.length).toNat]? with
  | some a => if 0 ≤ (if 0 ≤ i then i else i + l.length) then .ok a else .error .indexError
  | none => .error .indexError

/-- The state of `grid`: the grid elements in the order of their creation, and the matrix. The python matrix holds
references to shared, mutable grid elements; here a slot holds the number of its element (tablewrap.py:61). -/
structure Grid where
  els : List GridEl
  matrix : List (List Nat)

/-- the state within a row: the grid elements, `merge_row` and `cell_index` (tablewrap.py:63-64) -/
structure GridRow where
  els : List GridEl
  row : List Nat
  cellIndex : Int

/-- `matrix[-1]` (tablewrap.py:69) -/
def lastRow (matrix : List (List Nat)) : Except Exn (List Nat) := pyIndex matrix (-1)

/-- `left_cell.bottom = row_index` (tablewrap.py:76) -/
def setBottom (els : List GridEl) (k : Nat) (bottom : Int) : List GridEl :=
  els.modify k (fun g => { g with bottom := bottom })

/-- the body of the loop over the cells of a row (tablewrap.py:66-91) -/
def gridCell (matrix : List (List Nat)) (rowIndex : Int) (st : GridRow) (tc : LNode) : Except Exn GridRow := do
  let span ← tcGridSpan tc.node
  let vm ← cellVMerge tc.node
  match vm with
  | .merged => do
    let above ← lastRow matrix
    let k ← pyIndex above st.cellIndex
    let g ← pyIndex st.els k
    if span = g.colspan then
      .ok ⟨setBottom st.els k rowIndex, st.row ++ List.replicate span.toNat k, st.cellIndex + span⟩
    else .error .assertionError
  | _ => .ok ⟨st.els ++ [⟨tc, rowIndex, rowIndex, st.cellIndex, st.cellIndex + span - 1⟩],
      st.row ++ List.replicate span.toNat st.els.length, st.cellIndex + span⟩

/-- the loop over the cells of a row (tablewrap.py:65-91) -/
def gridCells (matrix : List (List Nat)) (rowIndex : Int) : GridRow → List LNode → Except Exn GridRow
  | st, [] => .ok st
  | st, tc :: tcs => do
    let st' ← gridCell matrix rowIndex st tc
    gridCells matrix rowIndex st' tcs

/-- the loop over the rows (tablewrap.py:62-92) -/
def gridRows : Nat → Grid → List LNode → Except Exn Grid
  | _, g, [] => .ok g
  | i, g, tr :: trs => do
    let r ← gridCells g.matrix i ⟨g.els, [], 0⟩ (tr.childs wTc)
    gridRows (i + 1) ⟨r.els, g.matrix ++ [r.row]⟩ trs

/-- TableWrap.grid (tablewrap.py:44-93) -/
def grid (tbl : LNode) : Except Exn Grid := gridRows 0 ⟨[], []⟩ (tbl.childs wTr)

end Spex
