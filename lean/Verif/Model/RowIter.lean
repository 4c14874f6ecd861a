import Verif.Model.Xml
/-
Models of src/spex/jsonspec/rowiter.py and src/spex/jsonspec/queries.py.
-/
set_option autoImplicit false
namespace Spex
variable [Uni]

/-! ### queries.py -/

/-- contains_th (queries.py:16-18) -/
def containsTh (row : Node) : Bool := !(row.childs tTh).isEmpty

/-- find_colspan (queries.py:11-13): XPath `./*[@colspan]/*` -/
def findColspan (row : Node) : List Node :=
  (row.elems.filter (fun e => (e.attr? aColspan).isSome)).flatMap Node.elems

/-- extract_possible_colspan (queries.py:21-26); `None` and the empty string are both falsy for the only caller -/
def extractPossibleColspan (row : Node) : Str := (findColspan row).flatMap Node.toText

/-! ### rowiter.py -/

/-- `int(td.get(name, 1))` (rowiter.py:60, 67, 111, 117, 130) -/
def spanAttr (name : Str) (td : Node) : Except Exn Int :=
  match td.attr? name with
  | none => .ok 1
  | some v => pyInt v

/-- `colspan` and `rowspan` of a cell (rowiter.py:60,67,111,117) -/
def colspan (td : Node) : Except Exn Int := spanAttr aColspan td
/-- rowiter.py:111 -/
def rowspan (td : Node) : Except Exn Int := spanAttr aRowspan td

/-- `elem = copy.copy(td); del elem.attrib["rowspan"]` (rowiter.py:113-115) -/
def dropRowspan : Node → Node
  | .text s => .text s
  | .elem t as ks => .elem t (as.filter (fun kv => kv.1 != aRowspan)) ks

/-- an entry of `ALST` (rowiter.py:31): column, cell, count -/
abbrev Pend := Int × Node × Int

/-- alst_count_decr (rowiter.py:38-40) -/
def alstCountDecr (alst : List Pend) : List Pend :=
  (alst.filter (fun p => p.2.2 > 1)).map (fun p => (p.1, p.2.1, p.2.2 - 1))

/-- alst_insert (rowiter.py:43-49): before the first entry with a larger column -/
def alstInsert (alst : List Pend) (ndx : Int) (elem : Node) (count : Int) : List Pend :=
  match alst with
  | [] => [(ndx, elem, count)]
  | p :: rest => if ndx < p.1 then (ndx, elem, count) :: p :: rest else p :: alstInsert rest ndx elem count

/-- the inner `while` loop of sorted_row_children (rowiter.py:58-64): emit pending cells which start at the current
column. Result: emitted cells, new column, remaining pending cells. -/
def emitPending : Int → List Pend → Except Exn (List Node × Int × List Pend)
  | off, [] => .ok ([], off, [])
  | off, p :: rest =>
    if p.1 = off then
      match colspan p.2.1 with
      | .error e => .error e
      | .ok w => match emitPending (off + w) rest with
        | .error e => .error e
        | .ok (out, off', rest') => .ok (p.2.1 :: out, off', rest')
    else .ok ([], off, p :: rest)

/-- sorted_row_children (rowiter.py:52-72): `off` is `col_off`; the pending list is `elem_off, elem` followed by `rest`. -/
def sortedRowChildren : Int → List Node → List Pend → Except Exn (List Node)
  | off, [], alst =>
    -- lines 69-72: the pending element only if it starts here, the rest in any case
    match alst with
    | [] => .ok []
    | p :: rest => .ok ((if p.1 = off then [p.2.1] else []) ++ rest.map (·.2.1))
  | off, td :: tds, alst =>
    match emitPending off alst with
    | .error e => .error e
    | .ok (out, off', alst') => match colspan td with
      | .error e => .error e
      | .ok w => match sortedRowChildren (off' + w) tds alst' with
        | .error e => .error e
        | .ok out' => .ok (out ++ td :: out')

/-- the loop over the cells of a row which stores the cells with a row span (rowiter.py:109-117) -/
def storeSpans : Int → List Node → List Pend → Except Exn (List Pend)
  | _, [], alst => .ok alst
  | off, td :: tds, alst =>
    match rowspan td with
    | .error e => .error e
    | .ok rs => match colspan td with
      | .error e => .error e
      | .ok w =>
        storeSpans (off + w) tds (if rs > 1 then alstInsert alst off (dropRowspan td) rs else alst)

/-- A row yielded by `row_iter`, with its following siblings (`row.itersiblings()`); rows which were rebuilt are not
part of the table and have none (rowiter.py:84-122; quirks/nvm.py:45, mi.py:36). -/
structure Row where
  node : Node
  following : List Node

/-- rows with a cell, with their following sibling elements:
XPath `./tr/td[1]/parent::tr | ./tr/th[1]/parent::tr` (rowiter.py:85), in document order -/
def candidateRows : List Node → List Row
  | [] => []
  | k :: ks =>
    if k.hasTag tTr && (!(k.childs tTd).isEmpty || !(k.childs tTh).isEmpty) then
      ⟨k, ks.filter Node.isElem⟩ :: candidateRows ks
    else candidateRows ks

/-- the row handed out when cells are pending (rowiter.py:94-105). Text between the cells is dropped. -/
def rebuildRow (row : Row) (alst : List Pend) : Except Exn Row :=
  if alst.isEmpty then .ok row
  else match sortedRowChildren 0 (row.node.childs tTd) alst with
    | .error e => .error e
    | .ok tds => .ok ⟨match row.node with
        | .text s => .text s
        | .elem t as _ => .elem t as tds, []⟩

/-- the loop of row_iter (rowiter.py:87-122): the rows handed out, and the exception which ends the iteration, if any -/
def rowIterGo : List Pend → List Row → List Row × Option Exn
  | _, [] => ([], none)
  | alst, row :: rows =>
    if containsTh row.node then
      let (out, e) := rowIterGo alst rows
      (row :: out, e)
    else match rebuildRow row alst with
      | .error e => ([], some e)
      | .ok row' => match storeSpans 0 (row'.node.childs tTd) alst with
        | .error e => ([], some e)
        | .ok alst' =>
          let (out, e) := rowIterGo (alstCountDecr alst') rows
          (row' :: out, e)

/-- row_iter (rowiter.py:84-122) -/
def rowIter (tbl : Node) : List Row × Option Exn := rowIterGo [] (candidateRows tbl.kids)

end Spex
