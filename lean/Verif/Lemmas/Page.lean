import Verif.Lemmas.XmlWrite
/-
The rendered page as a tree: specification and proof that the pieces written are those of the tree.
-/
set_option autoImplicit false
namespace Spex

/-! ### The same with ends of lines -/

def spanT (cls : Classes) (s : HSpan) : HTree := .leaf c!"span" (optAttr c!"class" (s.style.bind cls.span)) true s.text

def liT (ns : List HTree) : List HTree := [.elem c!"li" '"' [] (.nl :: ns), .nl]

/-- an item without a list in it -/
def liT0 (ns : List HTree) : List HTree := liT (ns ++ [.nl])

def listT (props : NumLvl) (ns : List HTree) : List HTree := [.elem props.tag '"' [(c!"class", props.clsname)] (.nl :: ns), .nl]

mutual
def itemT (cls : Classes) (pending : Option (List HTree)) : HItem → List HTree × Option (List HTree)
  | .item spans => ((pending.map liT0).getD [], some (spans.map (spanT cls)))
  | .list props elems => (liT (pending.getD [] ++ listT props (itemsT cls none elems)), none)
def itemsT (cls : Classes) (pending : Option (List HTree)) : List HItem → List HTree
  | [] => (pending.map liT0).getD []
  | e :: es => (itemT cls pending e).1 ++ itemsT cls (itemT cls pending e).2 es
end

mutual
def unitT (cls : Classes) : HUnit → List HTree
  | .para spans => [.elem c!"p" '"' [] (.nl :: (spans.map (spanT cls) ++ [.nl])), .nl]
  | .list props elems => listT props (itemsT cls none elems)
  | .table _ id rows => [.elem c!"table" '\'' (idAttr id) (.nl :: rowsT cls 0 rows), .nl]
def unitsT (cls : Classes) : List HUnit → List HTree
  | [] => []
  | u :: us => unitT cls u ++ unitsT cls us
def rowsT (cls : Classes) (r : Nat) : List (List HCell) → List HTree
  | [] => []
  | row :: rows => .elem c!"tr" '"' [] (.nl :: cellsT cls r 0 row) :: .nl :: rowsT cls (r + 1) rows
def cellsT (cls : Classes) (r c : Nat) : List HCell → List HTree
  | [] => []
  | .mk tag elems colspan rowspan left top fill :: cells =>
    if left = (c : Int) ∧ top = (r : Int) then
      .elem tag '"' (cellAttrs colspan rowspan (fill.bind cls.cell)) (.nl :: unitsT cls elems) :: .nl :: cellsT cls r (c + 1) cells
    else cellsT cls r (c + 1) cells
end

def pageT (version title : Str) (revision : Option Str) (fname : Str) (body : List HTree) : List HTree :=
  [.elem c!"html" '"' [(c!"lang", c!"en")] [.nl,
    .elem c!"head" '"' [] [.nl,
      .void c!"meta" ([(c!"charset", c!"utf-8"), (c!"data-spec", title)] ++ optAttr c!"data-revision" revision) false, .nl,
      .void c!"meta" [(c!"name", c!"spexVersion"), (c!"content", version)] true, .nl,
      .leaf c!"title" [] false fname, .nl,
      .void c!"link" [(c!"rel", c!"stylesheet"), (c!"href", fname ++ c!".css")] false, .nl], .nl,
    .elem c!"body" '"' [] (.nl :: body), .nl], .nl]

/-! ### without ends of lines it is the specification -/

theorem norms_append (a b : List HTree) : norms (a ++ b) = norms a ++ norms b := by
  induction a with
  | nil => rfl
  | cons x a ih => simp only [List.cons_append, norms, ih]

/-- the nodes of trees -/
def nodesOf (hs : List HTree) : List Node := erases (norms hs)

theorem nodesOf_append (a b : List HTree) : nodesOf (a ++ b) = nodesOf a ++ nodesOf b := by
  unfold nodesOf; rw [norms_append, erases_append]

theorem nodesOf_nl (hs : List HTree) : nodesOf (.nl :: hs) = nodesOf hs := by
  simp only [nodesOf, norms, HTree.norm, erases, HTree.erase, List.nil_append]

theorem nodesOf_elem (tag : Str) (q : Char) (as : List (Str × Str)) (ks hs : List HTree) :
    nodesOf (.elem tag q as ks :: hs) = .elem tag as (nodesOf ks) :: nodesOf hs := by
  simp only [nodesOf, norms, HTree.norm, erases, HTree.erase, List.cons_append, List.nil_append]

theorem nodesOf_leaf (tag : Str) (as : List (Str × Str)) (e : Bool) (s : Str) (hs : List HTree) :
    nodesOf (.leaf tag as e s :: hs) = .elem tag as (textKids (eolNorm s)) :: nodesOf hs := by
  simp only [nodesOf, norms, HTree.norm, erases, HTree.erase, List.cons_append, List.nil_append]

theorem nodesOf_void (tag : Str) (as : List (Str × Str)) (e : Bool) (hs : List HTree) :
    nodesOf (.void tag as e :: hs) = .elem tag as [] :: nodesOf hs := by
  simp only [nodesOf, norms, HTree.norm, erases, HTree.erase, List.cons_append, List.nil_append]

theorem nodesOf_nil : nodesOf [] = [] := rfl

theorem nodesOf_spans (cls : Classes) (ss : List HSpan) : nodesOf (ss.map (spanT cls)) = ss.map (spanNode cls) := by
  induction ss with
  | nil => rfl
  | cons s ss ih => rw [List.map_cons, spanT, nodesOf_leaf, ih]; rfl

theorem nodesOf_liT (ns : List HTree) : nodesOf (liT ns) = [.elem c!"li" [] (nodesOf ns)] := by
  rw [liT, nodesOf_elem, nodesOf_nl, nodesOf_nl, nodesOf_nil]

theorem nodesOf_liT0 (ns : List HTree) : nodesOf (liT0 ns) = [.elem c!"li" [] (nodesOf ns)] := by
  rw [liT0, nodesOf_liT, nodesOf_append, nodesOf_nl, nodesOf_nil, List.append_nil]

theorem nodesOf_listT (props : NumLvl) (ns : List HTree) :
    nodesOf (listT props ns) = [.elem props.tag [(c!"class", props.clsname)] (nodesOf ns)] := by
  rw [listT, nodesOf_elem, nodesOf_nl, nodesOf_nl, nodesOf_nil]

theorem nodesOf_getD (p : Option (List HTree)) : nodesOf (p.getD []) = (p.map nodesOf).getD [] := by
  cases p <;> rfl

theorem nodesOf_pending (p : Option (List HTree)) :
    nodesOf ((p.map liT0).getD []) = ((p.map nodesOf).map liNode).toList := by
  cases p with
  | none => rfl
  | some ns => exact nodesOf_liT0 ns

mutual
theorem nodesOf_item (cls : Classes) (p : Option (List HTree)) (e : HItem) :
    nodesOf (itemT cls p e).1 = (itemNode cls (p.map nodesOf) e).1 ∧
    (itemT cls p e).2.map nodesOf = (itemNode cls (p.map nodesOf) e).2 := by
  cases e with
  | item spans =>
    rw [itemT, itemNode]
    exact ⟨nodesOf_pending p, by simp only [Option.map_some, nodesOf_spans]⟩
  | list props elems =>
    rw [itemT, itemNode]
    refine ⟨?_, rfl⟩
    show nodesOf (liT _) = _
    rw [nodesOf_liT, nodesOf_append, nodesOf_listT, nodesOf_items, nodesOf_getD]
    rfl
theorem nodesOf_items (cls : Classes) (p : Option (List HTree)) (es : List HItem) :
    nodesOf (itemsT cls p es) = itemNodes cls (p.map nodesOf) es := by
  cases es with
  | nil => rw [itemsT, itemNodes]; exact nodesOf_pending p
  | cons e es =>
    obtain ⟨h1, h2⟩ := nodesOf_item cls p e
    rw [itemsT, itemNodes, nodesOf_append, h1, nodesOf_items, h2]
end

mutual
theorem nodesOf_unit (cls : Classes) (u : HUnit) : nodesOf (unitT cls u) = [unitNode cls u] := by
  cases u with
  | para spans =>
    rw [unitT, unitNode, nodesOf_elem, nodesOf_nl, nodesOf_nl, nodesOf_append, nodesOf_nl, nodesOf_spans, nodesOf_nil, List.append_nil]
  | list props elems => rw [unitT, unitNode, nodesOf_listT, nodesOf_items]; rfl
  | table src id rows => rw [unitT, unitNode, nodesOf_elem, nodesOf_nl, nodesOf_nl, nodesOf_rows, nodesOf_nil]
theorem nodesOf_units (cls : Classes) (us : List HUnit) : nodesOf (unitsT cls us) = unitNodes cls us := by
  cases us with
  | nil => rw [unitsT, unitNodes]; rfl
  | cons u us => rw [unitsT, unitNodes, nodesOf_append, nodesOf_unit, nodesOf_units]; rfl
theorem nodesOf_rows (cls : Classes) (r : Nat) (rows : List (List HCell)) : nodesOf (rowsT cls r rows) = rowNodes cls r rows := by
  cases rows with
  | nil => rw [rowsT, rowNodes]; rfl
  | cons row rows => rw [rowsT, rowNodes, nodesOf_elem, nodesOf_nl, nodesOf_nl, nodesOf_cells, nodesOf_rows]
theorem nodesOf_cells (cls : Classes) (r c : Nat) (cells : List HCell) : nodesOf (cellsT cls r c cells) = cellNodes cls r c cells := by
  match cells with
  | [] => rw [cellsT, cellNodes]; rfl
  | .mk tag elems colspan rowspan left top fill :: cells =>
    rw [cellsT, cellNodes]
    by_cases h : left = (c : Int) ∧ top = (r : Int)
    · rw [if_pos h, if_pos h, nodesOf_elem, nodesOf_nl, nodesOf_nl, nodesOf_units, nodesOf_cells]
    · rw [if_neg h, if_neg h, nodesOf_cells]
end

theorem nodesOf_page (version title : Str) (revision : Option Str) (fname : Str) (body : List HTree)
    (h : ∀ c ∈ fname, c ≠ '\r') :
    nodesOf (pageT version title revision fname body) = [pageNode version title revision fname (nodesOf body)] := by
  unfold pageT pageNode
  simp only [nodesOf_elem, nodesOf_nl, nodesOf_void, nodesOf_leaf, nodesOf_nil, eolNorm_noCR h]

/-! ### the pieces written are those of the tree -/

/-- entries are only added -/
def CssCache.Grows (c c' : CssCache) : Prop := ∃ more, c'.entries = c.entries ++ more

/-- names of classes -/
structure CssCache.Ok (c : CssCache) : Prop where
  named : ∀ e ∈ c.entries, e.1 ≠ [] ∧ ∃ k, e.2 = c.pre ++ natStr k

theorem CssCache.Grows.refl (c : CssCache) : c.Grows c := ⟨[], by simp⟩
theorem CssCache.Grows.trans {a b c : CssCache} (h : a.Grows b) (h' : b.Grows c) : a.Grows c := by
  obtain ⟨m, hm⟩ := h
  obtain ⟨m', hm'⟩ := h'
  exact ⟨m ++ m', by rw [hm', hm, List.append_assoc]⟩

theorem CssCache.Grows.lookup {a b : CssCache} (h : a.Grows b) {k : Attrs} {v : Str} (hv : a.entries.lookup k = some v) :
    b.entries.lookup k = some v := by
  obtain ⟨m, hm⟩ := h
  rw [hm, List.lookup_append, hv]; rfl

theorem CssCache.Ok.lookup_nil {c : CssCache} (h : c.Ok) : c.entries.lookup [] = none := by
  have := h.named
  revert this
  generalize c.entries = es
  intro h
  induction es with
  | nil => rfl
  | cons e es ih =>
    rcases e with ⟨k, v⟩
    have hk : k ≠ [] := (h (k, v) (by simp)).1
    rw [List.lookup_cons]
    cases k with
    | nil => exact absurd rfl hk
    | cons x k => exact ih (fun e he => h e (List.mem_cons_of_mem _ he))

theorem getClsname_spec (c : CssCache) (attrs : Attrs) (hc : c.Ok) :
    c.Grows (c.getClsname attrs).2 ∧ (c.getClsname attrs).2.Ok ∧ (c.getClsname attrs).2.pre = c.pre ∧
    ∀ cf : CssCache, (c.getClsname attrs).2.Grows cf → cf.Ok → (c.getClsname attrs).1 = cf.entries.lookup attrs := by
  unfold CssCache.getClsname
  cases attrs with
  | nil =>
    refine ⟨.refl c, hc, rfl, fun cf _ hok => ?_⟩
    rw [hok.lookup_nil]; rfl
  | cons a as =>
    simp only [List.isEmpty_cons, Bool.false_eq_true, if_false]
    cases h : c.entries.lookup (a :: as) with
    | some name =>
      exact ⟨.refl c, hc, rfl, fun cf hg _ => (hg.lookup h).symm⟩
    | none =>
      refine ⟨⟨_, rfl⟩, ⟨?_⟩, rfl, fun cf hg _ => ?_⟩
      · intro e he
        rcases List.mem_append.1 he with he | he
        · exact hc.named e he
        · rw [List.mem_singleton.1 he]
          exact ⟨by simp, _, rfl⟩
      · refine (hg.lookup ?_).symm
        show (c.entries ++ [(a :: as, _)]).lookup (a :: as) = _
        rw [List.lookup_append, h]
        simp

/-- both caches -/
structure RSt.Grows (st st' : RSt) : Prop where
  txt : st.txt.Grows st'.txt
  tcell : st.tcell.Grows st'.tcell

structure RSt.Ok (st : RSt) : Prop where
  txt : st.txt.Ok
  tcell : st.tcell.Ok
  pre1 : st.txt.pre = c!"txtfmt"
  pre2 : st.tcell.pre = c!"tcell"

theorem RSt.Grows.refl (st : RSt) : st.Grows st := ⟨.refl _, .refl _⟩
theorem RSt.Grows.trans {a b c : RSt} (h : a.Grows b) (h' : b.Grows c) : a.Grows c := ⟨h.txt.trans h'.txt, h.tcell.trans h'.tcell⟩

/-- what holds for every part of the renderer: the caches grow, and the pieces are those of a tree for the classes of the
final caches -/
structure Renders (st : RSt) (r : List Piece × RSt) (tree : Classes → List (Option Char)) : Prop where
  grows : st.Grows r.2
  ok : r.2.Ok
  pieces : ∀ f : RSt, r.2.Grows f → f.Ok → chars r.1 = tree (classesOf f)

theorem chars_append (a b : List Piece) : chars (a ++ b) = chars a ++ chars b := by simp [chars]
theorem chars_emit (s : Str) : chars (emit s) = s.map some := by simp [chars, emit, pieceChars]
theorem chars_emitln (s : Str) : chars (emitln s) = s.map some ++ [none] := by simp [chars, emitln, pieceChars]

theorem chars_brk : chars brk = [none] := rfl

theorem attrText_eq (name : Str) (value : Option Str) : attrText name value = (optAttr name value).flatMap (attrStr '"') := by
  cases value <;> simp [attrText, optAttr, attrStr]

theorem spanClass_spec (st : RSt) (hst : st.Ok) (style : Option RunProps) :
    st.Grows (spanClass st style).2 ∧ (spanClass st style).2.Ok ∧
    ∀ f : RSt, (spanClass st style).2.Grows f → f.Ok → (spanClass st style).1 = style.bind (classesOf f).span := by
  cases style with
  | none => exact ⟨.refl st, hst, fun _ _ _ => rfl⟩
  | some p =>
    obtain ⟨h1, h2, h3, h4⟩ := getClsname_spec st.txt p.cssAttrs hst.txt
    exact ⟨⟨h1, .refl _⟩, ⟨h2, hst.tcell, h3.trans hst.pre1, hst.pre2⟩, fun f hf hok => h4 _ hf.txt hok.txt⟩

theorem cellClass_spec (st : RSt) (hst : st.Ok) (fill : Option Str) :
    st.Grows (cellClass st fill).2 ∧ (cellClass st fill).2.Ok ∧
    ∀ f : RSt, (cellClass st fill).2.Grows f → f.Ok → (cellClass st fill).1 = fill.bind (classesOf f).cell := by
  cases fill with
  | none => exact ⟨.refl st, hst, fun _ _ _ => rfl⟩
  | some p =>
    obtain ⟨h1, h2, h3, h4⟩ := getClsname_spec st.tcell (tcAttrs p) hst.tcell
    exact ⟨⟨.refl _, h1⟩, ⟨hst.txt, h2, hst.pre1, h3.trans hst.pre2⟩, fun f hf hok => h4 _ hf.tcell hok.tcell⟩

theorem renderSpan_spec (st : RSt) (hst : st.Ok) (s : HSpan) :
    Renders st (renderSpan st s) (fun cls => (spanT cls s).ser) := by
  obtain ⟨h1, h2, h3⟩ := spanClass_spec st hst s.style
  refine ⟨h1, h2, fun f hf hok => ?_⟩
  unfold renderSpan
  simp only [chars_emit]
  rw [h3 f hf hok, spanT, HTree.ser, attrText_eq]
  simp only [tagStr, leafStr, endTag, if_true]
  simp

theorem renderSpans_spec (st : RSt) (hst : st.Ok) (ss : List HSpan) :
    Renders st (renderSpans st ss) (fun cls => sers (ss.map (spanT cls))) := by
  induction ss generalizing st with
  | nil => exact ⟨.refl _, hst, fun _ _ _ => rfl⟩
  | cons s ss ih =>
    have h := renderSpan_spec st hst s
    have h' := ih (renderSpan st s).2 h.ok
    refine ⟨h.grows.trans h'.grows, h'.ok, fun f hf hok => ?_⟩
    show chars ((renderSpan st s).1 ++ (renderSpans (renderSpan st s).2 ss).1) = _
    rw [chars_append, h.pieces f (h'.grows.trans hf) hok, h'.pieces f hf hok, List.map_cons, sers]

theorem listStart_eq (props : NumLvl) : listStart props = tagStr props.tag '"' [(c!"class", props.clsname)] := by
  simp [listStart, tagStr, attrText, attrStr]

theorem ser_li (ns : List HTree) : sers (liT ns) =
    (c!"<li>").map some ++ [none] ++ sers ns ++ (c!"</li>").map some ++ [none] := by
  simp only [liT, sers, HTree.ser, tagStr, endTag, List.append_nil, List.flatMap_nil, List.append_assoc]
  rfl

theorem ser_li0 (ns : List HTree) : sers (liT0 ns) =
    (c!"<li>").map some ++ [none] ++ sers ns ++ [none] ++ (c!"</li>").map some ++ [none] := by
  rw [liT0, ser_li, sers_append]
  simp only [sers, HTree.ser, List.append_nil, List.append_assoc]

theorem ser_list (props : NumLvl) (ns : List HTree) : sers (listT props ns) =
    (listStart props).map some ++ [none] ++ sers ns ++ (endTag props.tag).map some ++ [none] := by
  simp only [listT, sers, HTree.ser, listStart_eq, List.append_nil, List.append_assoc]

/-- the list is within an item, if `pending` -/
def openLi (cls : Classes) (pending : Option (List HSpan)) : List (Option Char) :=
  match pending with
  | none => []
  | some spans => (c!"<li>").map some ++ [none] ++ sers (spans.map (spanT cls))

/-- the pending item as a tree -/
def pendingT (cls : Classes) (pending : Option (List HSpan)) : Option (List HTree) := pending.map (·.map (spanT cls))

theorem openLi_close (cls : Classes) (p : Option (List HSpan)) :
    openLi cls p ++ chars (if p.isSome then brk ++ emitln c!"</li>" else []) = sers (((pendingT cls p).map liT0).getD []) := by
  cases p with
  | none => rfl
  | some ss =>
    simp only [Option.isSome_some, if_true, chars_append, chars_brk, chars_emitln, pendingT, Option.map_some, Option.getD_some, ser_li0, openLi,
      List.append_assoc]

mutual
theorem renderItem_spec (e : HItem) (st : RSt) (hst : st.Ok) (p : Option (List HSpan)) :
    st.Grows (renderItem st p.isSome e).2.1 ∧ (renderItem st p.isSome e).2.1.Ok ∧
    ∃ p' : Option (List HSpan), (renderItem st p.isSome e).2.2 = p'.isSome ∧
      (∀ cls, (itemT cls (pendingT cls p) e).2 = pendingT cls p') ∧
      ∀ f : RSt, (renderItem st p.isSome e).2.1.Grows f → f.Ok →
        openLi (classesOf f) p ++ chars (renderItem st p.isSome e).1 =
          sers (itemT (classesOf f) (pendingT (classesOf f) p) e).1 ++ openLi (classesOf f) p' := by
  cases e with
  | item spans =>
    have h := renderSpans_spec st hst spans
    rw [renderItem]
    refine ⟨h.grows, h.ok, some spans, rfl, fun cls => by rw [itemT]; rfl, fun f hf hok => ?_⟩
    rw [itemT]
    simp only [chars_append, chars_emitln]
    rw [h.pieces f hf hok, ← openLi_close]
    simp only [openLi, List.append_assoc]
  | list props elems =>
    have h := renderItems_spec elems st hst none
    obtain ⟨h1, h2, h3⟩ := h
    rw [renderItem]
    refine ⟨h1, h2, none, rfl, fun cls => by rw [itemT]; rfl, fun f hf hok => ?_⟩
    have h4 := h3 f hf hok
    simp only [openLi, List.nil_append] at h4
    rw [itemT]
    simp only [chars_append, chars_emitln]
    have e1 : chars (renderItems st false elems).1 = sers (itemsT (classesOf f) none elems) := h4
    rw [e1, ser_li, sers_append, ser_list]
    cases p with
    | none => simp [openLi, pendingT, sers, chars_emitln]
    | some ss => simp [openLi, pendingT, chars]
theorem renderItems_spec (es : List HItem) (st : RSt) (hst : st.Ok) (p : Option (List HSpan)) :
    st.Grows (renderItems st p.isSome es).2 ∧ (renderItems st p.isSome es).2.Ok ∧
      ∀ f : RSt, (renderItems st p.isSome es).2.Grows f → f.Ok →
        openLi (classesOf f) p ++ chars (renderItems st p.isSome es).1 =
          sers (itemsT (classesOf f) (pendingT (classesOf f) p) es) := by
  cases es with
  | nil =>
    rw [renderItems]
    refine ⟨.refl _, hst, fun f _ _ => ?_⟩
    rw [itemsT]
    exact openLi_close _ p
  | cons e es =>
    obtain ⟨h1, h2, p', hp, hq, h3⟩ := renderItem_spec e st hst p
    have h := renderItems_spec es (renderItem st p.isSome e).2.1 h2 p'
    rw [← hp] at h
    obtain ⟨g1, g2, g3⟩ := h
    rw [renderItems]
    refine ⟨h1.trans g1, g2, fun f hf hok => ?_⟩
    simp only [chars_append]
    rw [← List.append_assoc, h3 f (g1.trans hf) hok, List.append_assoc, g3 f hf hok, itemsT, sers_append, hq]
end

theorem tableStart_eq (id : Option Str) : tableStart id = tagStr c!"table" '\'' (idAttr id) := by
  unfold tableStart idAttr
  cases id with
  | none => rfl
  | some i =>
    cases i with
    | nil => rfl
    | cons c i => simp [tagStr, attrStr]

theorem cellStart_eq (tag : Str) (colspan rowspan : Int) (cls : Option Str) :
    cellStart tag colspan rowspan cls = tagStr tag '"' (cellAttrs colspan rowspan cls) := by
  unfold cellStart tagStr cellAttrs
  simp only [attrText_eq, List.flatMap_append, List.append_assoc]
  rfl

mutual
theorem renderAny_spec (u : HUnit) (st : RSt) (hst : st.Ok) : Renders st (renderAny st u) (fun cls => sers (unitT cls u)) := by
  cases u with
  | para spans =>
    have h := renderSpans_spec st hst spans
    rw [renderAny]
    refine ⟨h.grows, h.ok, fun f hf hok => ?_⟩
    simp only [renderParagraph, chars_append, chars_emitln, chars_brk, h.pieces f hf hok, unitT, sers, sers_append, HTree.ser, tagStr, endTag,
      List.flatMap_nil, List.append_nil, List.append_assoc]
    rfl
  | list props elems =>
    obtain ⟨h1, h2, h3⟩ := renderItems_spec elems st hst none
    rw [renderAny]
    refine ⟨h1, h2, fun f hf hok => ?_⟩
    have e1 : chars (renderItems st false elems).1 = sers (itemsT (classesOf f) none elems) := h3 f hf hok
    simp only [renderList, chars_append, chars_emitln, e1, unitT, ser_list, List.append_assoc]
  | table src id rows =>
    have h := renderRows_spec rows st hst 0
    rw [renderAny]
    refine ⟨h.grows, h.ok, fun f hf hok => ?_⟩
    simp only [chars_append, chars_emitln, h.pieces f hf hok, unitT, sers, HTree.ser, tableStart_eq, endTag,
      List.append_nil, List.append_assoc]
    rfl
theorem renderUnits_spec (us : List HUnit) (st : RSt) (hst : st.Ok) : Renders st (renderUnits st us) (fun cls => sers (unitsT cls us)) := by
  cases us with
  | nil =>
    rw [renderUnits]
    exact ⟨.refl _, hst, fun _ _ _ => by simp only [unitsT]; rfl⟩
  | cons u us =>
    have h := renderAny_spec u st hst
    have h' := renderUnits_spec us (renderAny st u).2 h.ok
    rw [renderUnits]
    refine ⟨h.grows.trans h'.grows, h'.ok, fun f hf hok => ?_⟩
    simp only [chars_append, unitsT, sers_append]
    rw [h.pieces f (h'.grows.trans hf) hok, h'.pieces f hf hok]
theorem renderRows_spec (rows : List (List HCell)) (st : RSt) (hst : st.Ok) (r : Nat) :
    Renders st (renderRows st r rows) (fun cls => sers (rowsT cls r rows)) := by
  cases rows with
  | nil =>
    rw [renderRows]
    exact ⟨.refl _, hst, fun _ _ _ => by simp only [rowsT]; rfl⟩
  | cons row rows =>
    have h := renderCells_spec row st hst r 0
    have h' := renderRows_spec rows (renderCells st r 0 row).2 h.ok (r + 1)
    rw [renderRows]
    refine ⟨h.grows.trans h'.grows, h'.ok, fun f hf hok => ?_⟩
    simp only [chars_append, chars_emitln, rowsT, sers, HTree.ser]
    rw [h.pieces f (h'.grows.trans hf) hok, h'.pieces f hf hok]
    simp only [tagStr, endTag, List.flatMap_nil, List.append_nil, List.append_assoc]
    rfl
theorem renderCells_spec (cells : List HCell) (st : RSt) (hst : st.Ok) (r c : Nat) :
    Renders st (renderCells st r c cells) (fun cls => sers (cellsT cls r c cells)) := by
  match cells with
  | [] =>
    rw [renderCells]
    exact ⟨.refl _, hst, fun _ _ _ => by simp only [cellsT]; rfl⟩
  | .mk tag elems colspan rowspan left top fill :: cells =>
    rw [renderCells]
    by_cases hp : left = (c : Int) ∧ top = (r : Int)
    · rw [if_pos hp]
      obtain ⟨c1, c2, c3⟩ := cellClass_spec st hst fill
      have h := renderUnits_spec elems (cellClass st fill).2 c2
      have h' := renderCells_spec cells (renderUnits (cellClass st fill).2 elems).2 h.ok r (c + 1)
      refine ⟨(c1.trans h.grows).trans h'.grows, h'.ok, fun f hf hok => ?_⟩
      simp only [chars_append, chars_emitln, chars_emit, chars_brk, cellsT, if_pos hp, sers, HTree.ser]
      rw [h.pieces f (h'.grows.trans hf) hok, h'.pieces f hf hok, c3 f (h.grows.trans (h'.grows.trans hf)) hok, cellStart_eq]
      simp only [List.append_assoc]
    · rw [if_neg hp]
      have h' := renderCells_spec cells st hst r (c + 1)
      refine ⟨h'.grows, h'.ok, fun f hf hok => ?_⟩
      simp only [cellsT, if_neg hp]
      exact h'.pieces f hf hok
end

theorem RSt.init_ok : RSt.init.Ok := ⟨⟨by simp [RSt.init, CssCache.init]⟩, ⟨by simp [RSt.init, CssCache.init]⟩, rfl, rfl⟩

/-- the line before the root element -/
def docType : List (Option Char) := (c!"<!DOCTYPE html>").map some ++ [none]

set_option maxRecDepth 4000 in
theorem pageHead_spec (version title : Str) (revision : Option Str) (fname : Str) (body : List HTree) :
    chars (pageHead version title revision fname) ++ sers body ++ chars (emitln c!"</body>" ++ emitln c!"</html>") =
      docType ++ sers (pageT version title revision fname body) := by
  cases revision with
  | none =>
    simp only [pageHead, pageT, chars_append, chars_emitln, chars_emit, sers, HTree.ser, docType, tagStr, endTag,
      leafStr, optAttr, attrText, attrStr, List.flatMap_cons, List.flatMap_nil, List.map_append, List.append_assoc,
      List.append_nil, List.cons_append, List.nil_append, List.map_cons, List.map_nil, if_true, Bool.false_eq_true, if_false]
  | some r =>
    simp only [pageHead, pageT, chars_append, chars_emitln, chars_emit, sers, HTree.ser, docType, tagStr, endTag,
      leafStr, optAttr, attrText, attrStr, List.flatMap_cons, List.flatMap_nil, List.map_append, List.append_assoc,
      List.append_nil, List.cons_append, List.nil_append, List.map_cons, List.map_nil, if_true, Bool.false_eq_true, if_false]

theorem renderPage_spec (version title : Str) (revision : Option Str) (fname : Str) (us : List HUnit) :
    (renderPage version title revision fname us).2.Ok ∧
    chars (renderPage version title revision fname us).1 = docType ++
      sers (pageT version title revision fname (unitsT (classesOf (renderPage version title revision fname us).2) us)) := by
  have h := renderUnits_spec us RSt.init RSt.init_ok
  refine ⟨h.ok, ?_⟩
  rw [← pageHead_spec]
  unfold renderPage
  simp only [chars_append, List.append_assoc]
  rw [h.pieces _ (.refl _) h.ok]

end Spex
