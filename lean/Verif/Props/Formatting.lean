import Verif.Lemmas.Fuel
import Verif.Lemmas.Monad
import Verif.Model.Output
import Verif.Model.Ascii
import Verif.Props.Output
/-
C97: of a page only its texts, tables, rows, cells, paragraphs and spans count for the second stage, not how they look.
-/
set_option autoImplicit false
namespace Spex

/-! ### Specification -/

/-- the attributes which count: over how many columns and rows a cell goes -/
def spanAttrs (as : List (Str × Str)) : List (Str × Str) :=
  ((as.lookup c!"colspan").toList.map fun v => (c!"colspan", v)) ++ (as.lookup c!"rowspan").toList.map fun v => (c!"rowspan", v)

/-- a paragraph with nothing but its text -/
def plainPara : Node → Node
  | .text s => .text s
  | .elem t as ks => .elem t (spanAttrs as) [.text (Node.flats ks)]

mutual
/-- what is left of a page without attributes other than spans, and without markup in the paragraphs of cells -/
def bare : Node → Node
  | .text s => .text s
  | .elem t as ks => .elem t (spanAttrs as) (bares (t == c!"td" || t == c!"th") ks)
def bares (cell : Bool) : List Node → List Node
  | [] => []
  | k :: ks => (if cell && k.hasTag c!"p" then plainPara k else bare k) :: bares cell ks
end

/-- two pages say the same: they have the same head, and differ only in attributes other than spans and in the markup in the paragraphs
of cells -/
def SaysSame (a b : Node) : Prop := a.childs c!"head" = b.childs c!"head" ∧ bare a = bare b

/-! ### Nodes -/

/-- what becomes of a child -/
def bareIn (cell : Bool) (k : Node) : Node := if cell && k.hasTag tP then plainPara k else bare k

theorem bares_map (cell : Bool) (ks : List Node) : bares cell ks = ks.map (bareIn cell) := by
  induction ks with
  | nil => rw [bares]; rfl
  | cons k ks ih => rw [bares, ih]; rfl

theorem bareIn_false (k : Node) : bareIn false k = bare k := rfl

theorem hasTag_bare (t : Str) (n : Node) : (bare n).hasTag t = n.hasTag t := by cases n <;> (rw [bare]; try rfl)
theorem isElem_bare (n : Node) : (bare n).isElem = n.isElem := by cases n <;> (rw [bare]; try rfl)
theorem hasTag_plainPara (t : Str) (n : Node) : (plainPara n).hasTag t = n.hasTag t := by cases n <;> rfl
theorem isElem_plainPara (n : Node) : (plainPara n).isElem = n.isElem := by cases n <;> rfl
theorem flat_plainPara (n : Node) : (plainPara n).flat = n.flat := by
  cases n with
  | text s => rfl
  | elem t as ks => simp [plainPara, Node.flat, Node.flats]

theorem hasTag_bareIn (c : Bool) (t : Str) (n : Node) : (bareIn c n).hasTag t = n.hasTag t := by
  unfold bareIn; split
  · exact hasTag_plainPara t n
  · exact hasTag_bare t n
theorem isElem_bareIn (c : Bool) (n : Node) : (bareIn c n).isElem = n.isElem := by
  unfold bareIn; split
  · exact isElem_plainPara n
  · exact isElem_bare n

mutual
theorem flat_bare : ∀ n : Node, (bare n).flat = n.flat
  | .text s => by rw [bare]
  | .elem t as ks => by rw [bare, Node.flat, Node.flat]; exact flats_bares _ ks
theorem flats_bares (c : Bool) : ∀ ks : List Node, Node.flats (bares c ks) = Node.flats ks
  | [] => by rw [bares]
  | k :: ks => by
    rw [bares, Node.flats, Node.flats, flats_bares c ks]
    split
    · rw [flat_plainPara]
    · rw [flat_bare k]
end

theorem flat_bareIn (c : Bool) (n : Node) : (bareIn c n).flat = n.flat := by
  unfold bareIn; split
  · exact flat_plainPara n
  · exact flat_bare n

theorem toText_bareIn (c : Bool) (n : Node) : (bareIn c n).toText = n.toText := by unfold Node.toText; rw [flat_bareIn]
theorem toText_bare (n : Node) : (bare n).toText = n.toText := toText_bareIn false n

/-- is it a cell -/
def isCell (n : Node) : Bool := n.hasTag tTd || n.hasTag tTh

theorem kids_bare (n : Node) : (bare n).kids = n.kids.map (bareIn (isCell n)) := by
  cases n with
  | text s => rw [bare]; rfl
  | elem t as ks => rw [bare, Node.kids, bares_map]; rfl

theorem filter_bareIn (c : Bool) (p : Node → Bool) (hp : ∀ n, p (bareIn c n) = p n) (ks : List Node) :
    (ks.map (bareIn c)).filter p = (ks.filter p).map (bareIn c) := by
  induction ks with
  | nil => rfl
  | cons k ks ih =>
    rw [List.map_cons, List.filter_cons, List.filter_cons, hp, ih]
    split <;> rfl

theorem childs_bare (n : Node) (t : Str) : (bare n).childs t = (n.childs t).map (bareIn (isCell n)) := by
  unfold Node.childs
  rw [kids_bare, filter_bareIn _ _ (fun n => hasTag_bareIn _ t n)]

theorem elems_bare (n : Node) : (bare n).elems = n.elems.map (bareIn (isCell n)) := by
  unfold Node.elems
  rw [kids_bare, filter_bareIn _ _ (fun n => isElem_bareIn _ n)]

/-- children which are not paragraphs -/
theorem childs_bare_ne (n : Node) (t : Str) (ht : t ≠ tP) : (bare n).childs t = (n.childs t).map bare := by
  rw [childs_bare]
  refine List.map_congr_left fun k hk => ?_
  have h1 : k.hasTag t = true := (List.mem_filter.1 hk).2
  unfold bareIn
  rw [if_neg]
  intro h
  rw [Bool.and_eq_true] at h
  cases k with
  | text s => cases h1
  | elem u _ _ =>
    simp only [Node.hasTag, beq_iff_eq] at h1 h
    exact ht (h1.symm.trans h.2)

theorem nthChild_bare (n : Node) (t : Str) (i : Nat) : (bare n).nthChild t i = (n.nthChild t i).map (bareIn (isCell n)) := by
  unfold Node.nthChild
  rw [childs_bare, List.getElem?_map]

theorem nthChild_bare_ne (n : Node) (t : Str) (i : Nat) (ht : t ≠ tP) : (bare n).nthChild t i = (n.nthChild t i).map bare := by
  unfold Node.nthChild
  rw [childs_bare_ne n t ht, List.getElem?_map]

theorem lookup_spanAttrs (as : List (Str × Str)) (a : Str) (ha : a = aColspan ∨ a = aRowspan) : (spanAttrs as).lookup a = as.lookup a := by
  have h1 : (c!"colspan" == c!"rowspan") = false := by decide
  have h2 : (c!"rowspan" == c!"colspan") = false := by decide
  unfold spanAttrs
  rcases ha with rfl | rfl <;> cases h3 : as.lookup c!"colspan" <;> cases h4 : as.lookup c!"rowspan" <;>
    simp [List.lookup, aColspan, aRowspan, *]

theorem attr_bare (n : Node) (a : Str) (ha : a = aColspan ∨ a = aRowspan) : (bare n).attr? a = n.attr? a := by
  cases n with
  | text s => rw [bare]
  | elem t as ks => rw [bare]; exact lookup_spanAttrs as a ha

theorem attr_plainPara (n : Node) (a : Str) (ha : a = aColspan ∨ a = aRowspan) : (plainPara n).attr? a = n.attr? a := by
  cases n with
  | text s => rfl
  | elem t as ks => exact lookup_spanAttrs as a ha

theorem attr_bareIn (c : Bool) (n : Node) (a : Str) (ha : a = aColspan ∨ a = aRowspan) : (bareIn c n).attr? a = n.attr? a := by
  unfold bareIn; split
  · exact attr_plainPara n a ha
  · exact attr_bare n a ha

theorem lookup_drop (as : List (Str × Str)) (a b : Str) :
    (as.filter (fun kv => kv.1 != b)).lookup a = if a = b then none else as.lookup a := by
  induction as with
  | nil => simp
  | cons kv as ih =>
    by_cases h : kv.1 = b
    · rw [List.filter_cons_of_neg (by simp [h]), ih]
      by_cases hab : a = b
      · rw [if_pos hab, if_pos hab]
      · rw [if_neg hab, if_neg hab, List.lookup_cons]
        have : (a == kv.1) = false := by rw [h]; simpa using hab
        rw [this]
    · rw [List.filter_cons_of_pos (by simpa using h), List.lookup_cons, List.lookup_cons, ih]
      by_cases hak : a = kv.1
      · have : a ≠ b := fun e => h (hak ▸ e)
        rw [if_neg this, if_neg this]
      · have : (a == kv.1) = false := by simpa using hak
        rw [this]

theorem spanAttrs_drop (as : List (Str × Str)) :
    spanAttrs (as.filter (fun kv => kv.1 != aRowspan)) = (spanAttrs as).filter (fun kv => kv.1 != aRowspan) := by
  unfold spanAttrs
  rw [lookup_drop, lookup_drop, if_neg (by decide), if_pos rfl]
  cases as.lookup c!"colspan" <;> cases as.lookup c!"rowspan" <;> rfl

theorem bare_dropRowspan (n : Node) : bare (dropRowspan n) = dropRowspan (bare n) := by
  cases n with
  | text s => rw [dropRowspan, bare]; rfl
  | elem t as ks =>
    rw [dropRowspan, bare, bare, dropRowspan, spanAttrs_drop]

variable [Uni]

/-! ### Rows -/

theorem colspan_bare (n : Node) : colspan (bare n) = colspan n := by
  unfold colspan spanAttr; rw [attr_bare n _ (.inl rfl)]

theorem rowspan_bare (n : Node) : rowspan (bare n) = rowspan n := by
  unfold rowspan spanAttr; rw [attr_bare n _ (.inr rfl)]

/-- a cell from above -/
def Pend.bare (p : Pend) : Pend := (p.1, Spex.bare p.2.1, p.2.2)

/-- a row which is handed out -/
def Row.bare (r : Row) : Row := ⟨Spex.bare r.node, r.following.map Spex.bare⟩

theorem emitPending_bare (alst : List Pend) : ∀ off, emitPending off (alst.map Pend.bare) =
    (emitPending off alst).map (fun r => (r.1.map bare, r.2.1, r.2.2.map Pend.bare)) := by
  induction alst with
  | nil => intro off; rfl
  | cons p alst ih =>
    intro off
    rw [List.map_cons, emitPending, emitPending]
    by_cases h : p.1 = off
    · rw [if_pos (show (Pend.bare p).1 = off from h), if_pos h]
      rw [show colspan (Pend.bare p).2.1 = colspan p.2.1 from colspan_bare _]
      cases colspan p.2.1 with
      | error e => rfl
      | ok w =>
        simp only
        rw [ih]
        rcases emitPending (off + w) alst with e | ⟨out, off', rest⟩ <;> rfl
    · rw [if_neg (show ¬ (Pend.bare p).1 = off from h), if_neg h]; rfl

theorem sortedRowChildren_bare (tds : List Node) : ∀ off alst, sortedRowChildren off (tds.map bare) (alst.map Pend.bare) =
    (sortedRowChildren off tds alst).map (List.map bare) := by
  induction tds with
  | nil =>
    intro off alst
    rw [List.map_nil, sortedRowChildren.eq_def, sortedRowChildren.eq_def]
    cases alst with
    | nil => rfl
    | cons p rest =>
      simp only [List.map_cons, Except.map, List.map_append, List.map_map]
      by_cases h : p.1 = off
      · rw [if_pos (show (Pend.bare p).1 = off from h), if_pos h]; rfl
      · rw [if_neg (show ¬ (Pend.bare p).1 = off from h), if_neg h]; rfl
  | cons td tds ih =>
    intro off alst
    rw [List.map_cons, sortedRowChildren, sortedRowChildren, emitPending_bare]
    rcases emitPending off alst with e | ⟨out, off', rest⟩
    · rfl
    · simp only [Except.map]
      rw [colspan_bare]
      cases colspan td with
      | error e => rfl
      | ok w =>
        simp only
        rw [ih]
        cases sortedRowChildren (off' + w) tds rest with
        | error e => rfl
        | ok o => simp [Except.map]

omit [Uni] in
theorem alstInsert_bare (alst : List Pend) (i : Int) (n : Node) (c : Int) :
    alstInsert (alst.map Pend.bare) i (bare n) c = (alstInsert alst i n c).map Pend.bare := by
  induction alst with
  | nil => rfl
  | cons p alst ih =>
    rw [List.map_cons, alstInsert, alstInsert, ih]
    by_cases h : i < p.1
    · rw [if_pos (show i < (Pend.bare p).1 from h), if_pos h]; rfl
    · rw [if_neg (show ¬ i < (Pend.bare p).1 from h), if_neg h]; rfl

omit [Uni] in
theorem alstCountDecr_bare (alst : List Pend) : alstCountDecr (alst.map Pend.bare) = (alstCountDecr alst).map Pend.bare := by
  unfold alstCountDecr
  induction alst with
  | nil => rfl
  | cons p alst ih =>
    rw [List.map_cons, List.filter_cons, List.filter_cons]
    have : (Pend.bare p).2.2 = p.2.2 := rfl
    rw [this]
    split
    · rw [List.map_cons, List.map_cons, List.map_cons, ih]; rfl
    · exact ih

theorem storeSpans_bare (tds : List Node) : ∀ off alst, storeSpans off (tds.map bare) (alst.map Pend.bare) =
    (storeSpans off tds alst).map (List.map Pend.bare) := by
  induction tds with
  | nil => intro off alst; rfl
  | cons td tds ih =>
    intro off alst
    rw [List.map_cons, storeSpans, storeSpans, rowspan_bare, colspan_bare]
    cases rowspan td with
    | error e => rfl
    | ok rs =>
      cases colspan td with
      | error e => rfl
      | ok w =>
        simp only
        rw [← ih]
        congr 1
        split
        · rw [← bare_dropRowspan, alstInsert_bare]
        · rfl

omit [Uni] in
theorem containsTh_bare (n : Node) : containsTh (bare n) = containsTh n := by
  unfold containsTh
  rw [childs_bare, List.isEmpty_map]

omit [Uni] in
theorem candidateRows_bare (ks : List Node) : candidateRows (ks.map bare) = (candidateRows ks).map Row.bare := by
  induction ks with
  | nil => rfl
  | cons k ks ih =>
    rw [List.map_cons, candidateRows, candidateRows, hasTag_bare, childs_bare, childs_bare, List.isEmpty_map, List.isEmpty_map, ih]
    split
    · rw [List.map_cons]
      congr 1
      unfold Row.bare
      congr 1
      exact filter_bareIn false _ (fun n => isElem_bareIn false n) ks
    · rfl

omit [Uni] in
theorem candidateRows_tr (ks : List Node) : ∀ r ∈ candidateRows ks, r.node.hasTag tTr = true := by
  induction ks with
  | nil => intro r hr; cases hr
  | cons k ks ih =>
    intro r hr
    rw [candidateRows] at hr
    split at hr
    · rename_i h
      rcases List.mem_cons.1 hr with rfl | hr
      · rw [Bool.and_eq_true] at h; exact h.1
      · exact ih r hr
    · exact ih r hr

theorem rebuildRow_bare (row : Row) (hr : row.node.hasTag tTr = true) (alst : List Pend) :
    rebuildRow row.bare (alst.map Pend.bare) = (rebuildRow row alst).map Row.bare := by
  unfold rebuildRow
  rw [List.isEmpty_map]
  by_cases h : alst.isEmpty = true
  · rw [if_pos h, if_pos h]; rfl
  · rw [if_neg h, if_neg h]
    rw [show row.bare.node.childs tTd = (row.node.childs tTd).map bare from childs_bare_ne _ _ (by decide), sortedRowChildren_bare]
    cases sortedRowChildren 0 (row.node.childs tTd) alst with
    | error e => rfl
    | ok tds =>
      simp only [Except.map]
      congr 1
      cases hn : row.node with
      | text s => rw [hn] at hr; cases hr
      | elem t as ks =>
        rw [hn] at hr
        simp only [Node.hasTag, beq_iff_eq] at hr
        subst hr
        unfold Row.bare
        rw [hn]
        simp only [bare, bares_map, List.map_nil]
        rfl

theorem rowIterGo_bare (rows : List Row) (hr : ∀ r ∈ rows, r.node.hasTag tTr = true) : ∀ alst,
    rowIterGo (alst.map Pend.bare) (rows.map Row.bare) = ((rowIterGo alst rows).1.map Row.bare, (rowIterGo alst rows).2) := by
  induction rows with
  | nil => intro alst; rfl
  | cons row rows ih =>
    intro alst
    have ih := ih (fun r h => hr r (List.mem_cons_of_mem _ h))
    rw [List.map_cons, rowIterGo, rowIterGo, show containsTh row.bare.node = containsTh row.node from containsTh_bare _]
    by_cases h : containsTh row.node = true
    · rw [if_pos h, if_pos h, ih]; rfl
    · rw [if_neg h, if_neg h, rebuildRow_bare row (hr row List.mem_cons_self)]
      cases rebuildRow row alst with
      | error e => rfl
      | ok row' =>
        simp only [Except.map]
        rw [show row'.bare.node.childs tTd = (row'.node.childs tTd).map bare from childs_bare_ne _ _ (by decide), storeSpans_bare]
        cases storeSpans 0 (row'.node.childs tTd) alst with
        | error e => rfl
        | ok alst' =>
          simp only [Except.map]
          rw [alstCountDecr_bare, ih]; rfl

omit [Uni] in
theorem not_cell_table {n : Node} (h : n.hasTag tTable = true) : isCell n = false := by
  cases n with
  | text s => rfl
  | elem t as ks =>
    simp only [Node.hasTag, beq_iff_eq] at h
    subst h; rfl

omit [Uni] in
theorem not_cell_tr {n : Node} (h : n.hasTag tTr = true) : isCell n = false := by
  cases n with
  | text s => rfl
  | elem t as ks =>
    simp only [Node.hasTag, beq_iff_eq] at h
    subst h; rfl

theorem rowIter_bare {tbl : Node} (h : tbl.hasTag tTable = true) :
    rowIter (bare tbl) = ((rowIter tbl).1.map Row.bare, (rowIter tbl).2) := by
  unfold rowIter
  rw [kids_bare, not_cell_table h]
  have := rowIterGo_bare (candidateRows tbl.kids) (candidateRows_tr _) []
  rw [← candidateRows_bare] at this
  exact this

/-! ### Figures -/

omit [Uni] in
theorem req_map {α β : Type} (g : α → β) (o : Option α) : req (o.map g) = (req o).map g := by cases o <;> rfl

omit [Uni] in
theorem extractFields_bare (cols : Cols) (row : Node) : extractFields cols (bare row) = extractFields cols row := by
  unfold extractFields
  rw [nthChild_bare_ne _ _ _ (by decide), nthChild_bare_ne _ _ _ (by decide), nthChild_bare_ne _ _ _ (by decide), req_map, req_map]
  have h : ((row.nthChild tTd (cols.label + 1)).map bare).bind (·.nthChild tP 1) =
      ((row.nthChild tTd (cols.label + 1)).bind fun td => (td.nthChild tP 1).map (bareIn (isCell td))) := by
    cases row.nthChild tTd (cols.label + 1) with
    | none => rfl
    | some td => exact nthChild_bare td tP 1
  rw [h]
  rcases req (row.nthChild tTd (cols.key + 1)) with e | r
  · rfl
  rcases req (row.nthChild tTd (cols.content + 1)) with e | c
  · rfl
  cases row.nthChild tTd (cols.label + 1) with
  | none => rfl
  | some td =>
    cases hp : td.nthChild tP 1 with
    | none => simp [hp, req, Except.map, bind, Except.bind]
    | some p => simp [hp, req, Except.map, bind, Except.bind, pure, Except.pure, toText_bare, toText_bareIn]

omit [Uni] in
theorem figureTitle_bare (tr : Node) : figureTitle (bare tr) = figureTitle tr := by
  unfold figureTitle; rw [toText_bare]

/-- a figure behind the rows of another one; it is always a table -/
def extraBare : Option (EntityMeta × Node) → Option (EntityMeta × Node) := 
  Option.map fun x => (x.1, if x.2.hasTag tTable then bare x.2 else x.2)

/-- the same with the table made bare -/
def RowOut.bare {α : Type} : RowOut α → RowOut α
  | .field f => .field f
  | .skip => .skip
  | .stop extra => .stop (extraBare extra)

omit [Uni] in
theorem bare_table (ks : List Node) : bare (.elem tTable [] ks) = .elem tTable [] (ks.map bare) := by
  rw [bare, bares_map]; rfl

theorem rowErrHandler_bare (h : ErrHandler) (row : Row) : rowErrHandler h row.bare = match rowErrHandler h row with
    | .stop extra => .stop (extraBare extra)
    | .cont => .cont
    | .raise => .raise := by
  cases h with
  | default =>
    simp only [rowErrHandler, Row.bare, childs_bare, List.length_map]
    split <;> rfl
  | kvFig41 =>
    simp only [rowErrHandler, Row.bare, toText_bare]
    split <;> rfl
  | split pre newId =>
    simp only [rowErrHandler, Row.bare, toText_bare, figureTitle_bare]
    split
    · rfl
    · simp [extraBare, bare_table, Node.hasTag]

/-- a parser of figures for which looks do not count -/
def ParseFn.Blind (parse : ParseFn) : Prop := ∀ m t, t.hasTag tTable = true → parse m (bare t) = parse m t

omit [Uni] in
theorem subTables_bare {parse : ParseFn} (hp : parse.Blind) (m : EntityMeta) (ts : List Node) (ht : ∀ t ∈ ts, t.hasTag tTable = true) :
    subTables parse m (ts.map bare) = subTables parse m ts := by
  induction ts with
  | nil => rfl
  | cons t ts ih =>
    rw [List.map_cons, subTables, subTables, hp m t (ht t List.mem_cons_self), ih (fun t h => ht t (List.mem_cons_of_mem _ h))]

omit [Uni] in
theorem extractDataSubTable_bare {parse : ParseFn} (hp : parse.Blind) (m : EntityMeta) (data : Node) :
    extractDataSubTable parse m (bare data) = extractDataSubTable parse m data := by
  unfold extractDataSubTable
  rw [childs_bare_ne _ _ (by decide)]
  exact subTables_bare hp m _ (fun t h => (List.mem_filter.1 h).2)

theorem structRow_bare {parse : ParseFn} (hp : parse.Blind) (fig : Str) (h : ErrHandler) (cols : Cols) (dyn : Bool) (row : Row) :
    structRow parse fig h cols dyn row.bare = RowOut.bare <$> structRow parse fig h cols dyn row := by
  unfold structRow
  rw [show row.bare.node = bare row.node from rfl, extractFields_bare]
  cases hf : extractFields cols row.node with
  | error e =>
    simp only
    rw [toText_bare]
    split
    · simp [RowOut.bare]
    · split
      · simp [RowOut.bare, extraBare]
      · rw [rowErrHandler_bare]
        cases rowErrHandler h row with
        | stop extra => simp [RowOut.bare]
        | cont => simp [RowOut.bare]
        | raise => rfl
  | ok v =>
    obtain ⟨r, c, l⟩ := v
    simp only
    split
    · split
      · simp [RowOut.bare]
      · rw [map_bind]
        congr 1
        funext v
        cases handleSpecialCase c v <;> simp [RowOut.bare]
    · rw [map_bind]
      congr 1
      funext v
      rw [map_bind]
      congr 1
      funext lbl
      rw [nthChild_bare_ne _ _ _ (by decide), req_map]
      cases req (row.node.nthChild tTd (cols.content + 1)) with
      | error e => rfl
      | ok td =>
        simp only [Except.map, M.ofExcept_ok, pure_bind]
        rw [extractDataSubTable_bare hp, map_bind]
        congr 1

omit [Uni] in
theorem extractPossibleColspan_bare {row : Node} (hr : row.hasTag tTr = true) : extractPossibleColspan (bare row) = extractPossibleColspan row := by
  unfold extractPossibleColspan findColspan
  rw [elems_bare, filter_bareIn (isCell row) (fun e => (e.attr? aColspan).isSome) (fun n => by rw [attr_bareIn _ n _ (.inl rfl)]) row.elems,
    not_cell_tr hr]
  induction row.elems.filter (fun e => (e.attr? aColspan).isSome) with
  | nil => rfl
  | cons e es ih =>
    rw [List.map_cons, List.flatMap_cons, List.flatMap_cons, List.flatMap_append, List.flatMap_append, ih]
    congr 1
    rw [bareIn_false, elems_bare, List.flatMap_map]
    congr 1
    funext x
    exact toText_bareIn _ x

theorem rowIterGo_tr (rows : List Row) (hr : ∀ r ∈ rows, r.node.hasTag tTr = true) : ∀ alst, ∀ r ∈ (rowIterGo alst rows).1,
    r.node.hasTag tTr = true := by
  induction rows with
  | nil => intro alst r h; rw [rowIterGo] at h; cases h
  | cons row rows ih =>
    intro alst r h
    have ih := ih (fun r h => hr r (List.mem_cons_of_mem _ h))
    have h0 := hr row List.mem_cons_self
    rw [rowIterGo] at h
    by_cases ht : containsTh row.node = true
    · rw [if_pos ht] at h
      rcases List.mem_cons.1 h with rfl | h
      · exact h0
      · exact ih _ r h
    · rw [if_neg ht] at h
      cases hb : rebuildRow row alst with
      | error e => rw [hb] at h; cases h
      | ok row' =>
        rw [hb] at h
        simp only at h
        cases hs : storeSpans 0 (row'.node.childs tTd) alst with
        | error e => rw [hs] at h; cases h
        | ok alst' =>
          rw [hs] at h
          rcases List.mem_cons.1 h with rfl | h
          · unfold rebuildRow at hb
            by_cases he : alst.isEmpty = true
            · rw [if_pos he] at hb; cases hb; exact h0
            · rw [if_neg he] at hb
              cases hq : sortedRowChildren 0 (row.node.childs tTd) alst with
              | error e => rw [hq] at hb; cases hb
              | ok tds =>
                rw [hq] at hb
                cases hb
                cases hn : row.node with
                | text s => rw [hn] at h0; cases h0
                | elem t as ks => rw [hn] at h0; exact h0
          · exact ih _ r h

theorem structRows_bare {parse : ParseFn} (hp : parse.Blind) (fig : Str) (h : ErrHandler) (cols : Cols) (err : Option Exn) (rows : List Row)
    (hr : ∀ r ∈ rows, r.node.hasTag tTr = true) : ∀ dyn, structRows parse fig h cols err dyn (rows.map Row.bare) =
      (fun x => (x.1, extraBare x.2)) <$> structRows parse fig h cols err dyn rows := by
  induction rows with
  | nil =>
    intro dyn
    cases err with
    | none => simp [structRows, extraBare]
    | some e => simp only [List.map_nil, structRows]; rfl
  | cons row rows ih =>
    intro dyn
    have ih := ih (fun r h => hr r (List.mem_cons_of_mem _ h))
    rw [List.map_cons, structRows, structRows, show containsTh row.bare.node = containsTh row.node from containsTh_bare _,
      show extractPossibleColspan row.bare.node = extractPossibleColspan row.node from extractPossibleColspan_bare (hr row List.mem_cons_self)]
    split
    · exact ih _
    · rw [structRow_bare hp, map_bind, bind_map_left]
      congr 1
      funext o
      cases o with
      | stop extra => simp [RowOut.bare]
      | skip => exact ih _
      | field f =>
        simp only [RowOut.bare]
        rw [ih, map_bind, bind_map_left]
        congr 1

omit [Uni] in
theorem parseExtra_bare {parse : ParseFn} (hp : parse.Blind) (extra : Option (EntityMeta × Node)) :
    parseExtra parse (extraBare extra) = parseExtra parse extra := by
  cases extra with
  | none => rfl
  | some x =>
    simp only [extraBare, Option.map_some, parseExtra]
    split
    · rename_i h; exact hp x.1 x.2 h
    · rfl

theorem structCall_bare {parse : ParseFn} (hp : parse.Blind) (c : StructCls) (m : EntityMeta) (cols : Cols) {tbl : Node}
    (ht : tbl.hasTag tTable = true) : structCall parse c m cols (bare tbl) = structCall parse c m cols tbl := by
  unfold structCall
  rw [rowIter_bare ht]
  simp only
  have hr : ∀ r ∈ (rowIter tbl).1, r.node.hasTag tTr = true := rowIterGo_tr _ (candidateRows_tr _) _
  rw [structRows_bare hp _ _ _ _ _ hr, bind_map_left]
  congr 1
  funext x
  simp only [parseExtra_bare hp]

theorem valueLabel_bare (ov : List ((Str × Str) × Str)) (fig : Str) (cols : Cols) (row : Node) (val : Str) (data : Node) :
    valueLabel ov fig cols (bare row) val (bare data) = valueLabel ov fig cols row val data := by
  have hd : extractLabelDedicated fig cols (bare row) val = extractLabelDedicated fig cols row val := by
    unfold extractLabelDedicated
    rw [nthChild_bare_ne _ _ _ (by decide)]
    cases row.nthChild tTd (cols.label + 1) with
    | none => rfl
    | some td =>
      simp only [Option.map_some, Option.bind_some]
      rw [nthChild_bare]
      cases td.nthChild tP 1 with
      | none => rfl
      | some p =>
        simp only [Option.map_some, req, M.ofExcept_ok, pure_bind]
        rw [toText_bareIn]
  have hs : labelTextSame fig val (bare data) = labelTextSame fig val data := by
    unfold labelTextSame extractContent
    rw [nthChild_bare]
    cases data.nthChild tP 1 with
    | none => rfl
    | some p =>
      simp only [Option.map_some]
      rw [toText_bareIn]
  unfold valueLabel extractLabelValue labelText labelTextDedicated
  rw [hd, hs]

theorem valueRow_bare {parse : ParseFn} (hp : parse.Blind) (ov : List ((Str × Str) × Str)) (fig : Str) (cols : Cols) (row : Row) :
    valueRow parse ov fig cols row.bare = valueRow parse ov fig cols row := by
  unfold valueRow
  rw [show row.bare.node = bare row.node from rfl, nthChild_bare_ne _ _ _ (by decide), nthChild_bare_ne _ _ _ (by decide), toText_bare]
  cases row.node.nthChild tTd (cols.key + 1) with
  | none => rfl
  | some v =>
    cases row.node.nthChild tTd (cols.content + 1) with
    | none => rfl
    | some d =>
      simp only [Option.map_some]
      rw [toText_bare, toText_bare, valueLabel_bare, extractDataSubTable_bare hp]

theorem valueRows_bare {parse : ParseFn} (hp : parse.Blind) (ov : List ((Str × Str) × Str)) (fig : Str) (cols : Cols) (err : Option Exn)
    (rows : List Row) : valueRows parse ov fig cols err (rows.map Row.bare) = valueRows parse ov fig cols err rows := by
  induction rows with
  | nil => rfl
  | cons row rows ih =>
    rw [List.map_cons, valueRows, valueRows, show containsTh row.bare.node = containsTh row.node from containsTh_bare _, valueRow_bare hp, ih]

theorem callExtractor_bare (env : Env) {parse : ParseFn} (hp : parse.Blind) (c : Cls) (m : EntityMeta) (cols : Cols) {tbl : Node}
    (ht : tbl.hasTag tTable = true) : callExtractor env parse c m cols (bare tbl) = callExtractor env parse c m cols tbl := by
  cases c with
  | struct c => exact structCall_bare hp c m cols ht
  | value =>
    unfold callExtractor valueCall
    simp only
    rw [rowIter_bare ht]
    simp only
    rw [valueRows_bare hp]

theorem headers_bare (fig : Str) (tbl : Node) : extractTblHeaders fig (bare tbl) = extractTblHeaders fig tbl := by
  have h : ∀ (g : Node → Node) (cs : List Node), (∀ n, (g n).toText = n.toText) → extractHdrs fig (cs.map g) = extractHdrs fig cs := by
    intro g cs hg
    induction cs with
    | nil => rfl
    | cons c cs ih => rw [List.map_cons, extractHdrs, extractHdrs, ih, show hdrText (g c) = hdrText c by unfold hdrText; rw [hg]]
  unfold extractTblHeaders headerCells
  rw [nthChild_bare_ne _ _ _ (by decide)]
  cases tbl.nthChild tTr 1 with
  | none => rfl
  | some tr =>
    simp only [Option.map_some]
    rw [elems_bare]
    exact h _ _ (toText_bareIn _)

theorem parseFig_blind (env : Env) (n : Nat) : (parseFig env n).Blind := by
  induction n with
  | zero => intro m t _; rfl
  | succ n ih =>
    intro m t ht
    have hr : ∀ hdrs c mapping, runExtractor env (parseFig env n) m (bare t) hdrs c mapping = runExtractor env (parseFig env n) m t hdrs c mapping := by
      intro hdrs c mapping
      unfold runExtractor
      simp only [callExtractor_bare env ih c m _ ht]
    unfold parseFig onParseFig
    simp only [headers_bare, hr]

/-- looks do not count for a figure -/
theorem parseFigure_bare (env : Env) (m : EntityMeta) {tbl : Node} (ht : tbl.hasTag tTable = true) :
    parseFigure env m (bare tbl) = parseFigure env m tbl := by
  unfold parseFigure
  rw [parseFig_fuel env _ ((bare tbl).size + tbl.size) m (bare tbl) (Nat.le_refl _) (by omega) |>.symm,
    parseFig_fuel env _ ((bare tbl).size + tbl.size) m tbl (Nat.le_refl _) (by omega) |>.symm]
  exact parseFig_blind env _ m tbl ht

/-! ### Documents -/

omit [Uni] in
theorem unwrapTable_bare {tbl : Node} : unwrapTable (bare tbl) = bare (unwrapTable tbl) := by
  unfold unwrapTable
  rw [nthChild_bare_ne _ _ _ (by decide)]
  cases tbl.nthChild tTr 1 with
  | none => rfl
  | some tr =>
    simp only [Option.map_some, Option.bind_some]
    rw [nthChild_bare_ne _ _ _ (by decide)]
    cases tr.nthChild tTd 1 with
    | none => rfl
    | some td =>
      simp only [Option.map_some, Option.bind_some]
      rw [elems_bare, List.head?_map]
      cases td.elems.head? with
      | none => rfl
      | some x =>
        simp only [Option.map_some, hasTag_bareIn]
        by_cases h : x.hasTag tTable = true
        · rw [if_pos h, if_pos h]
          unfold bareIn
          rw [if_neg]
          cases x with
          | text s => cases h
          | elem t as ks =>
            simp only [Node.hasTag, beq_iff_eq] at h
            subst h
            simp [Node.hasTag]
        · rw [if_neg h, if_neg h]

omit [Uni] in
theorem unwrapTable_tag {tbl : Node} (h : tbl.hasTag tTable = true) : (unwrapTable tbl).hasTag tTable = true := by
  unfold unwrapTable
  split
  · split
    · assumption
    · exact h
  · exact h

omit [Uni] in
theorem removeFirstTr_tag {tbl : Node} (h : tbl.hasTag tTable = true) : (removeFirstTr tbl).hasTag tTable = true := by
  cases tbl with
  | text s => cases h
  | elem t as ks => exact h

omit [Uni] in
theorem removeFirstTr_bare {tbl : Node} (h : tbl.hasTag tTable = true) : removeFirstTr (bare tbl) = bare (removeFirstTr tbl) := by
  cases tbl with
  | text s => cases h
  | elem t as ks =>
    rw [bare, removeFirstTr, removeFirstTr, bare, bares_map, bares_map]
    congr 1
    clear h
    induction ks with
    | nil => rfl
    | cons k ks ih =>
      rw [List.map_cons, List.eraseP_cons, List.eraseP_cons, hasTag_bareIn]
      cases k.hasTag tTr with
      | true => rfl
      | false => simp only [cond_false, List.map_cons]; rw [ih]

theorem parseTables_bare (env : Env) (ts : List Node) (ht : ∀ t ∈ ts, t.hasTag tTable = true) : ∀ k,
    parseTables env k (ts.map bare) = parseTables env k ts := by
  induction ts with
  | nil => intro k; rfl
  | cons t ts ih =>
    intro k
    have ih := ih (fun t h => ht t (List.mem_cons_of_mem _ h))
    have h0 := unwrapTable_tag (ht t List.mem_cons_self)
    rw [List.map_cons, parseTables, parseTables]
    rw [unwrapTable_bare, nthChild_bare_ne _ _ _ (by decide)]
    cases (unwrapTable t).nthChild tTr 1 with
    | none => rfl
    | some tr =>
      simp only [Option.map_some]
      rw [figureTitle_bare]
      cases figureTitle tr with
      | none => exact ih k
      | some title =>
        simp only
        cases figureId title with
        | none => simp only [ih]
        | some fid => simp only [ih, removeFirstTr_bare h0, parseFigure_bare env _ (removeFirstTr_tag h0)]

omit [Uni] in
theorem figures_bare (root : Node) : figures (bare root) = (figures root).map bare := by
  unfold figures
  rw [childs_bare_ne _ _ (by decide), List.flatMap_map, List.map_flatMap]
  congr 1
  funext b
  exact childs_bare_ne _ _ (by decide)

omit [Uni] in
theorem figures_tag (root : Node) : ∀ t ∈ figures root, t.hasTag tTable = true := by
  intro t ht
  obtain ⟨b, -, hb⟩ := List.mem_flatMap.1 ht
  exact (List.mem_filter.1 hb).2

/-- looks do not count for a document -/
theorem parseDoc_bare (env : Env) (root : Node) : parseDoc env (bare root) = parseDoc env root := by
  unfold parseDoc
  rw [figures_bare, parseTables_bare env _ (figures_tag root)]

/-- C97: **the same content gives the same entities and diagnostics**, in the same order, and the same errors, whatever the classes, ids and
other attributes are, and however the text of a paragraph is divided and formatted. -/
theorem C97_content {a b : Node} (h : bare a = bare b) (key rev : Str) (skip : Bool) :
    parseDoc (getParser key rev skip) a = parseDoc (getParser key rev skip) b := by
  rw [← parseDoc_bare, h, parseDoc_bare]

omit [Uni] in
theorem metaAttr_head {a b : Node} (h : a.childs c!"head" = b.childs c!"head") (name : Str) : metaAttr a name = metaAttr b name := by
  unfold metaAttr; rw [h]

/-- C97: **the same page, but for its looks, gives the same JSON file**, the same reports of progress and the same end of the run, also when
it is stopped at one of its reports. -/
theorem C97_same_output {a b : Node} (h : SaysSame a b) (ignore : List LintErr) (skip progress : Bool) (close : Option Nat) :
    parseSpec ignore skip progress close (.ok a) = parseSpec ignore skip progress close (.ok b) := by
  have hs : specSteps ignore skip progress (.ok a) = specSteps ignore skip progress (.ok b) := by
    unfold specSteps htmlToSpecDoc
    simp only
    rw [metaAttr_head h.1, metaAttr_head h.1]
    cases metaAttr b c!"data-spec" with
    | error e => rfl
    | ok key =>
      simp only
      cases metaAttr b c!"data-revision" with
      | error e => rfl
      | ok rev =>
        simp only
        rw [C97_content h.2, show numFigures a = numFigures b by
          have := congrArg List.length (figures_bare a)
          rw [h.2, figures_bare b, List.length_map, List.length_map] at this
          exact this.symm]
  unfold parseSpec
  rw [hs]

/-! ### Examples -/

namespace FormattingSample

/-- a page with a figure of one field; `as` are attributes of the table, `label` is how the cell with its label is written -/
def page (as : List (Str × Str)) (bits label : List Node) (wide : Str) : Node :=
  .elem c!"html" [] [
    .elem c!"head" [] [.elem c!"meta" [(c!"data-spec", c!"Big"), (c!"data-revision", c!"1.0A")] []],
    .elem c!"body" as [.elem c!"table" as [
      .elem c!"tr" [] [.elem c!"td" [(c!"class", c!"c1"), (c!"colspan", wide)] [.elem c!"p" [] [.text c!"Figure 7: Command"]]],
      .elem c!"tr" as [.elem c!"th" as [.text c!"Bits"], .elem c!"th" [] [.text c!"Description"]],
      .elem c!"tr" [] [.elem c!"td" [] [.elem c!"p" as bits], .elem c!"td" as [.elem c!"p" [] label]]]]]

def span (cls s : Str) : Node := .elem c!"span" [(c!"class", cls)] [.text s]

/-- without any formatting -/
def plain : Node := page [] [.text c!"15:00"] [.text c!"Kind (KI): the kind"] c!"2"

/-- with classes, an id, and the text in pieces, one of which is in two elements -/
def painted : Node := page [(c!"id", c!"tbl1"), (c!"class", c!"c2")] [span c!"b" c!"15:", span c!"i" c!"00"]
  [span c!"b" c!"Ki", .text c!"nd (K", .elem c!"b" [] [span c!"u" c!"I"], .text c!"): the kind"] c!"2"

omit [Uni] in
/-- the hypothesis of `C97_same_output` -/
theorem painted_same : SaysSame painted plain := by
  refine ⟨rfl, ?_⟩
  simp [painted, plain, page, span, bare, bares, spanAttrs, plainPara, Node.hasTag, Node.flats, Node.flat]

/-- what both pages give: a figure with its field -/
example : letI := Uni.ascii
    written (parseSpec [] false true none (.ok painted)) = written (parseSpec [] false true none (.ok plain)) ∧
    entities (parseDoc (getParser c!"big" c!"1.0a" false) plain).1 =
      [⟨⟨some c!"Figure 7: Command", c!"7", none⟩, .struct .bits [⟨c!"ki", .int 0 15, some c!"the kind"⟩]⟩] := by
  let _ := Uni.ascii
  exact ⟨by rw [C97_same_output painted_same], by decide +kernel⟩

end FormattingSample

end Spex
