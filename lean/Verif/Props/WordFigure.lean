import Verif.Props.StructFigure
import Verif.Props.FirstStage
/-
C68: a bits or bytes figure of a Word document, through both stages.
-/
set_option autoImplicit false
namespace Spex

section
variable [Uni]

/-! ### Specification -/

/-- the title of a figure: the word `Figure`, blanks, the id, and nothing or a blank, `:` or `^` (C62) -/
def FigureTitle (title fid : Str) : Prop :=
  ∃ blanks rest, title = c!"Figure" ++ blanks ++ fid ++ rest ∧ blanks ≠ [] ∧ (∀ c ∈ blanks, isSpace c = true) ∧
    fid ≠ [] ∧ (∀ c ∈ fid, isSpace c = false ∧ c ≠ '^' ∧ c ≠ ':') ∧ (∀ c r, rest = c :: r → isSpace c = true ∨ c = '^' ∨ c = ':')

/-- a grey Word cell with the heading `name` (C15): a cell of one column with one paragraph, whose words in lower case are the name or one of
the other spellings of it -/
structure HeadCell (doc : WordDoc) (c : WCell) (name : Str) : Prop where
  own : c.cont = false
  span : c.span = 1
  grey : Grey c.tc.node
  plain : ParaCell doc c.tc.node
  text : ∃ t, cellTexts c.tc.node = [t] ∧ standardName (headingText (strip t)) = name

/-- the cell `x` of row `i` of a Word table belongs to a plain cell with these texts -/
def CellSays (doc : WordDoc) (rows : List (List WCell)) (i : Nat) (x : WCell) (ts : List Str) : Prop :=
  ∃ j c, Origin rows i x j c ∧ ParaCell doc c.tc.node ∧ cellTexts c.tc.node = ts

/-- The Word table is a figure. The first row is the title. The second row holds the names of the columns. `ps` are the texts of the cells of
the rows below, with their columns. -/
structure FigureTable (doc : WordDoc) (tbl : LNode) (title fid : Str) (names : List Str) (ps : List (List (Nat × List Str))) : Prop where
  rows : ∃ (top : WCell) (head : List WCell) (body : List (List WCell)) (W : Nat) (t : Str),
    WordTable tbl ([top] :: head :: body) ∧ DataTable [head] body W ∧
    ParaCell doc top.tc.node ∧ cellTexts top.tc.node = [t] ∧ strip t = title ∧ FigureTitle title fid ∧
    List.Forall₂ (HeadCell doc) head names ∧
    body.length = ps.length ∧ ∀ (i : Nat) row p, body[i]? = some row → ps[i]? = some p → ∀ q ∈ p, ∃ x, row[q.1]? = some x ∧
      CellSays doc ([top] :: head :: body) (2 + i) x q.2

/-- The Word table is a figure which describes a layout: among the names of the columns are `bytes` or `bits` (C13), and `description`. The rows
below are the fields: `ps` are the texts of their cells in these two columns. -/
def LayoutTable (doc : WordDoc) (tbl : LNode) (title fid : Str) (ty : StructTy) (ps : List (List Str × List Str)) : Prop :=
  ∃ (names : List Str) (key : Str) (k d : Nat), FigureTable doc tbl title fid names (ps.map fun p => [(k, p.1), (d, p.2)]) ∧
    names.Nodup ∧ c!"attribute" ∉ names ∧ LayoutColumns names ty key ∧ names[k]? = some key ∧ names[d]? = some c!"description" ∧
    ∀ p ∈ ps, ∃ f, FieldOf p.1 p.2 f

/-- no other table of the Word document contains this one -/
def Outermost (doc : WordDoc) (tbl : LNode) : Prop :=
  tbl ∈ docTables doc.root ∧ ∀ t ∈ docTables doc.root, t.path <+: tbl.path → t.path = tbl.path

/-! ### Proof: the tables of the page -/

/-- a table which is not inside another one is a table of its own on the page -/
theorem outermost_unit {doc : WordDoc} {us : List HUnit} (h : parseWord doc = .ok us) {tbl : LNode} (ho : Outermost doc tbl) :
    ∃ v ∈ us, ∃ fuel seen seen', parseTable doc fuel tbl seen = .ok ([v], seen') ∧ ∀ p ∈ seen, ¬ tbl.path <+: p := by
  obtain ⟨hm, hout⟩ := ho
  suffices hv : ∃ v ∈ us, ∃ fuel seen seen', parseTable doc fuel tbl seen = .ok ([v], seen') by
    obtain ⟨v, hv, fuel, seen, seen', hp⟩ := hv
    have hsrc : ∃ id rows, v = .table tbl.path id rows := by
      cases fuel with
      | zero => rw [parseTable] at hp; cases hp
      | succ fuel =>
        rw [parseTable] at hp
        split at hp
        · split at hp
          · cases hp
          · obtain ⟨g, -, hp⟩ := except_bind_ok hp
            obtain ⟨r, -, hp⟩ := except_bind_ok hp
            cases hp
            exact ⟨_, _, rfl⟩
        · cases hp
    obtain ⟨id, rows, hv'⟩ := hsrc
    have hsh : v ∈ shownUnits us := by
      obtain ⟨a, b, rfl⟩ := List.append_of_mem hv
      rw [shownUnits_append, List.mem_append]
      right
      rw [hv', shownUnits, HUnit.shown]
      simp
    obtain ⟨tbl', fuel', s1, s2, h1, h2, h3, h4⟩ := parseWord_from h v hsh
    have : tbl' = tbl := (mem_docTables.1 h1).1.unique (mem_docTables.1 hm).1 (by rw [← h2, hv']; rfl)
    subst this
    exact ⟨v, hv, fuel', s1, s2, h3, h4⟩
  unfold parseWord at h
  obtain ⟨⟨uss, s⟩, h1, h'⟩ := except_bind_ok h
  cases h'
  clear h
  have gen : ∀ (ts : List LNode), tbl ∈ ts → (∀ t ∈ ts, t.path <+: tbl.path → t.path = tbl.path) → (∀ t ∈ ts, t.path = tbl.path → t = tbl) →
      ∀ (s : Seen) (uss : List (List HUnit)) (s' : Seen), tbl.path ∉ s → mapSt (parseTable doc (docFuel doc.root)) ts s = .ok (uss, s') →
      ∃ v ∈ uss.flatten, ∃ fuel seen seen', parseTable doc fuel tbl seen = .ok ([v], seen') := by
    intro ts
    induction ts with
    | nil => intro hm; cases hm
    | cons t ts ih =>
      intro hm ho hu s uss s' hs hmap
      obtain ⟨b, s1, bs', s2, g1, g2, g3⟩ := mapSt_cons hmap
      cases g3
      by_cases htt : t = tbl
      · subst htt
        have g0 := g1
        cases hf : docFuel doc.root with
        | zero => rw [hf, parseTable] at g1; cases g1
        | succ n =>
          rw [hf, parseTable] at g1
          by_cases ht : t.node.hasTag wTbl = true
          · rw [if_pos ht, if_neg hs] at g1
            obtain ⟨g, h1, h⟩ := except_bind_ok g1
            obtain ⟨⟨rows, s2⟩, h2, h⟩ := except_bind_ok h
            cases h
            exact ⟨_, by simp, _, _, _, g0⟩
          · rw [if_neg ht] at g1; cases g1
      · have hm' : tbl ∈ ts := by
          rcases List.mem_cons.1 hm with h | h
          · exact absurd h.symm htt
          · exact h
        obtain ⟨v, hv, rest⟩ := ih hm' (fun t ht => ho t (List.mem_cons_of_mem _ ht)) (fun t ht => hu t (List.mem_cons_of_mem _ ht)) s1 bs' _ (by
          intro hc
          rcases (parse_seen _).1 _ _ _ _ g1 _ hc with h | h
          · exact hs h
          · exact htt (hu t List.mem_cons_self (ho t List.mem_cons_self h))) g2
        exact ⟨v, by simp [List.flatten_cons, List.mem_append]; exact .inr (by simpa using hv), rest⟩
  refine gen _ hm hout (fun t ht hp => ?_) [] uss s (by simp) h1
  have a := (mem_docTables.1 ht).1
  have b := (mem_docTables.1 hm).1
  unfold InDoc at a b
  cases t; cases tbl
  simp only at hp
  subst hp
  simp_all

/-! ### Proof: the rows and cells of a table -/

omit [Uni] in
theorem WordTable.same {tbl : LNode} {rows : List (List WCell)} (h : WordTable tbl rows) {row : List WCell} (hr : row ∈ rows) {x y : WCell}
    (hx : x ∈ row) (hy : y ∈ row) (hc : x.col = y.col) : x = y := by
  obtain ⟨a, b, rfl⟩ := List.append_of_mem hx
  have e1 := h.cols _ hr a x b rfl
  have hsp := (h.markup _ hr x hx).span_pos
  rcases List.mem_append.1 hy with hy' | hy'
  · exfalso
    obtain ⟨a1, a2, rfl⟩ := List.append_of_mem hy'
    have e2 := h.cols _ hr a1 y (a2 ++ x :: b) (by simp)
    have hsy := (h.markup _ hr y hy).span_pos
    rw [widthOf_append, widthOf_cons] at e1
    omega
  · rcases List.mem_cons.1 hy' with rfl | hy'
    · rfl
    · exfalso
      obtain ⟨a1, a2, rfl⟩ := List.append_of_mem hy'
      have e2 := h.cols _ hr (a ++ x :: a1) y a2 (by simp)
      rw [widthOf_append, widthOf_cons] at e2
      omega

omit [Uni] in
/-- a cell belongs to one cell only -/
theorem Origin.unique {tbl : LNode} {rows : List (List WCell)} (h : WordTable tbl rows) {i k k' : Nat} {x c c' : WCell}
    (h1 : Origin rows i x k c) (h2 : Origin rows i x k' c') : c = c' := by
  have key : ∀ {k k' : Nat} {c c' : WCell}, Origin rows i x k c → Origin rows i x k' c' → ¬ k < k' := by
    intro k k' c c' h1 h2 hlt
    obtain ⟨row, e1, e2⟩ := h2.row
    obtain ⟨row', e3, y, e4, e5, e6⟩ := h1.cont k' hlt h2.le
    rw [e1] at e3; cases e3
    have := h.same (List.mem_of_getElem? e1) e2 e4 (h2.col.trans e5.symm)
    rw [this] at h2
    rw [h2.own] at e6
    cases e6
  have hk : k = k' := by
    have a := key h1 h2
    have b := key h2 h1
    omega
  subst hk
  obtain ⟨row, e1, e2⟩ := h1.row
  obtain ⟨row', e3, e4⟩ := h2.row
  rw [e1] at e3; cases e3
  exact h.same (List.mem_of_getElem? e1) e2 e4 (h1.col.trans h2.col.symm)

omit [Uni] in
theorem cleans_elems {ks ns : List Node} (h : cleans ks = ns) (hn : ∀ n ∈ ns, n.isElem = true) : (ks.filter Node.isElem).map Node.clean = ns := by
  induction ks generalizing ns with
  | nil => rw [cleans] at h; rw [← h]; rfl
  | cons k ks ih =>
    rw [cleans] at h
    by_cases hb : k.isBlank = true
    · rw [if_pos hb] at h
      rw [List.filter_cons_of_neg (by cases k <;> simp [Node.isBlank, Node.isElem] at hb ⊢)]
      exact ih h hn
    · rw [if_neg hb] at h
      cases ns with
      | nil => cases h
      | cons n ns =>
        rw [List.cons.injEq] at h
        have he := hn n List.mem_cons_self
        rw [← h.1] at he
        have he' : k.isElem = true := by
          cases k with
          | text s => rw [Node.clean] at he; exact he
          | elem t as ks => rfl
        rw [List.filter_cons_of_pos he', List.map_cons, h.1, ih h.2 (fun m hm => hn m (List.mem_cons_of_mem _ hm))]

omit [Uni] in
theorem cleans_nil {ks : List Node} (h : cleans ks = []) : ∀ c ∈ Node.flats ks, isXmlSpace c = true := by
  induction ks with
  | nil => intro c hc; rw [Node.flats] at hc; cases hc
  | cons k ks ih =>
    rw [cleans] at h
    by_cases hb : k.isBlank = true
    · rw [if_pos hb] at h
      intro c hc
      rw [Node.flats] at hc
      rcases List.mem_append.1 hc with hc | hc
      · cases k with
        | text w => rw [Node.flat] at hc; exact List.all_eq_true.1 hb c hc
        | elem t as ks => cases hb
      · exact ih h c hc
    · rw [if_neg hb] at h; cases h

omit [Uni] in
theorem cleans_one {ks : List Node} {n : Node} (h : cleans ks = [n]) (hn : n.isElem = true) :
    ∃ w1 e w2, ks.filter Node.isElem = [e] ∧ e.clean = n ∧ Node.flats ks = w1 ++ e.flat ++ w2 ∧ (∀ c ∈ w1, isXmlSpace c = true) ∧ (∀ c ∈ w2, isXmlSpace c = true) := by
  induction ks with
  | nil => rw [cleans] at h; cases h
  | cons k ks ih =>
    rw [cleans] at h
    by_cases hb : k.isBlank = true
    · rw [if_pos hb] at h
      obtain ⟨w1, e, w2, g1, g2, g3, g4, g5⟩ := ih h
      cases k with
      | elem t as ks => cases hb
      | text w =>
        refine ⟨w ++ w1, e, w2, by rw [List.filter_cons_of_neg (by simp [Node.isElem])]; exact g1, g2, ?_, ?_, g5⟩
        · rw [Node.flats, Node.flat, g3]; simp
        · intro c hc
          rcases List.mem_append.1 hc with hc | hc
          · exact List.all_eq_true.1 hb c hc
          · exact g4 c hc
    · rw [if_neg hb, List.cons.injEq] at h
      have he : k.isElem = true := by
        cases k with
        | text s => rw [← h.1, Node.clean] at hn; exact hn
        | elem t as ks => rfl
      have h3 := cleans_elems h.2 (by simp)
      rw [List.map_eq_nil_iff] at h3
      exact ⟨[], k, Node.flats ks, by rw [List.filter_cons_of_pos he, h3], h.1, by rw [Node.flats]; rfl, by simp, cleans_nil h.2⟩

/-- the rows of a table on the page -/
theorem shown_tr {doc : WordDoc} {cls : Classes} {rows : List (List WCell)} {n : Node} (hs : ShowsTable doc cls rows n.clean) {i : Nat}
    {row : List WCell} (hi : rows[i]? = some row) : ∃ tr ks ns, (n.childs tTr)[i]? = some tr ∧ tr = .elem c!"tr" [] ks ∧ cleans ks = ns ∧
      (∀ x ∈ ns, x.isElem = true) ∧ List.Forall₂ (ShowsCell doc cls rows i) (row.filter (fun c => !c.cont)) ns := by
  obtain ⟨id, trs, hn, hl, hc⟩ := hs
  have h1 := childs_clean hn (by decide) tTr
  have h2 : (trs.map (Node.elem c!"tr" [])).filter (Node.hasTag tTr) = trs.map (Node.elem c!"tr" []) := by
    rw [List.filter_eq_self]
    intro a ha
    obtain ⟨ns, -, rfl⟩ := List.mem_map.1 ha
    simp [Node.hasTag]
  rw [h2] at h1
  have h3 := congrArg (·[i]?) h1
  simp only [List.getElem?_map] at h3
  have hlt : i < trs.length := by rw [hl]; exact (List.getElem?_eq_some_iff.1 hi).1
  rw [List.getElem?_eq_getElem hlt, Option.map_some] at h3
  cases htr : (n.childs tTr)[i]? with
  | none => rw [htr] at h3; cases h3
  | some tr =>
    rw [htr, Option.map_some, Option.some.injEq] at h3
    have hF := hc i row _ hi (List.getElem?_eq_getElem hlt)
    obtain ⟨ks, rfl⟩ := clean_elem h3
    rw [Node.clean, if_neg (by decide)] at h3
    refine ⟨_, ks, _, rfl, rfl, (Node.elem.inj h3).2.2, ?_, hF⟩
    intro x hx
    obtain ⟨c, -, tag, fill, hh, elems, -, -, -, -, he⟩ := forall2_right hF hx
    rw [he]; rfl

/-- a header cell on the page -/
theorem head_cell {doc : WordDoc} {cls : Classes} {rows : List (List WCell)} {i : Nat} {c : WCell} {name : Str} {e : Node} (h : HeadCell doc c name)
    (hs : ShowsCell doc cls rows i c e.clean) (ht : e.Tight) :
    standardName (headingText e.toText) = name ∧ e.hasTag tTh = true ∧ e.attr? aColspan = none := by
  obtain ⟨t, h1, h2⟩ := h.text
  have hT := shownCell_texts hs ht h.plain
  obtain ⟨tag, fill, hh, elems, hf, htag, -, -, he⟩ := hs
  have hth := (tag_grey hf htag).1 h.grey
  refine ⟨?_, ?_, ?_⟩
  · rw [hT.single t h1, h2]
  · rw [← hasTag_clean, he, hth]; simp [Node.hasTag]
  · have key : ∀ a b, (optAttr c!"colspan" none ++ optAttr c!"rowspan" a ++ optAttr c!"class" b).lookup aColspan = none := by
      intro a b
      cases a <;> cases b <;> simp [optAttr, List.lookup_cons, aColspan]
    rw [← attr_clean, he, Node.attr?, cellAttrs, h.span, if_neg (by simp)]
    exact key _ _

omit [Uni] in
theorem elem_tights {t : Str} {as : List (Str × Str)} {ks : List Node} (h : (Node.elem t as ks).Tight) : ∀ k ∈ ks, k.Tight := by
  rw [Node.Tight] at h
  exact (tights_iff _).1 h.2

omit [Uni] in
theorem childs_elems (n : Node) (t : Str) : n.childs t = n.elems.filter (Node.hasTag t) := by
  unfold Node.childs Node.elems
  rw [List.filter_filter]
  refine List.filter_congr (fun k _ => ?_)
  by_cases hk : k.hasTag t = true
  · rw [hk, hasTag_isElem hk]; rfl
  · rw [Bool.not_eq_true] at hk; rw [hk]; rfl

/-- the title row of a table on the page -/
theorem title_row {doc : WordDoc} {cls : Classes} {rows : List (List WCell)} {top : WCell} {n tr : Node} {ks ns : List Node} {t : Str}
    (hn : (n.childs tTr)[0]? = some tr) (htr : tr = .elem c!"tr" [] ks) (hks : cleans ks = ns) (hne : ∀ x ∈ ns, x.isElem = true)
    (hs : List.Forall₂ (ShowsCell doc cls rows 0) [top] ns) (ht : n.Tight) (hp : ParaCell doc top.tc.node) (hc : cellTexts top.tc.node = [t]) :
    tr.toText = strip t ∧ unwrapTable n = n := by
  cases hs with
  | @cons _ x _ l h1 h2 =>
    cases h2
    obtain ⟨w1, e, w2, g1, g2, g3, g4, g5⟩ := cleans_one hks (hne x List.mem_cons_self)
    have htt := childs_tight ht (List.mem_of_getElem? hn)
    have hem : e ∈ ks := (List.mem_filter.1 (g1 ▸ List.mem_singleton.2 rfl : e ∈ ks.filter Node.isElem)).1
    rw [htr] at htt
    have hT := shownCell_texts (g2 ▸ h1) (elem_tights htt e hem) hp
    rw [hc] at hT
    constructor
    · rw [htr, Node.toText, Node.flat, g3]
      rw [strip_around (fun c hc => xmlSpace_isSpace (g4 c hc)) (fun c hc => xmlSpace_isSpace (g5 c hc))]
      exact hT.single t rfl
    · unfold unwrapTable
      have e1 : n.nthChild tTr 1 = some tr := hn
      rw [e1, Option.bind_some]
      have e2 : tr.childs tTd = [e].filter (Node.hasTag tTd) := by
        rw [childs_elems, htr, ← g1]; rfl
      cases h2 : tr.nthChild tTd 1 with
      | none => rfl
      | some td =>
        have : td ∈ tr.childs tTd := List.mem_of_getElem? h2
        rw [e2] at this
        have : td = e := List.mem_singleton.1 (List.mem_filter.1 this).1
        subst this
        rw [Option.bind_some]
        cases h3 : td.elems.head? with
        | none => rfl
        | some inner =>
          have hm := List.mem_of_head? h3
          have hp := hT.only inner hm
          have : inner.hasTag tTable = false := by
            obtain ⟨as, kk, rfl⟩ := hasTag_elem.1 hp
            simp [Node.hasTag, tTable]
          simp only [this]
          rfl

omit [Uni] in
theorem FigureTitle.infix {title fid : Str} (h : FigureTitle title fid) : ∃ a b, title = a ++ c!"Figure" ++ b := by
  obtain ⟨blanks, rest, h, -⟩ := h
  exact ⟨[], blanks ++ fid ++ rest, by rw [h]; simp⟩

omit [Uni] in
theorem FigureTitle.ne {title fid : Str} (h : FigureTitle title fid) : fid ≠ [] := by
  obtain ⟨blanks, rest, -, -, -, h, -⟩ := h
  exact h

/-- the cells of the row in these columns have these texts -/
def RowTexts (row : Row) (p : List (Nat × List Str)) : Prop :=
  row.node.childs tTh = [] ∧ ∀ q ∈ p, ∃ cell, (row.node.childs tTd)[q.1]? = some cell ∧ HasTexts q.2 cell

/-- what the second stage sees of a figure -/
theorem figure_run {doc : WordDoc} {cls : Classes} {tbl : LNode} {title fid : Str} {names : List Str} {ps : List (List (Nat × List Str))}
    (h : FigureTable doc tbl title fid names ps) (hne : names ≠ []) {n : Node} (ht : n.Tight)
    (hs : ∀ rows, WordTable tbl rows → ShowsTable doc cls rows n.clean) :
    fid ≠ [] ∧ columnNames (removeFirstTr n) = names ∧
    (∃ (head : Row) (rows : List Row), rowIter (removeFirstTr n) = (head :: rows, none) ∧ containsTh head.node = true ∧
      isInfix c!"List" (extractPossibleColspan head.node) = false ∧ List.Forall₂ RowTexts rows ps) ∧
    ∀ (env : Env) (evs : List Ev), (∀ fl, parseFigure env ⟨some title, fid, none⟩ (removeFirstTr n) fl = ⟨evs, false, .ok ()⟩) →
      ∀ k, runTable env k n = ⟨evs, false, .ok ()⟩ := by
  obtain ⟨top, head, body, W, t, hW, hD, hp, hc, hti, hft, hH, hlen, hbody⟩ := h.rows
  have hs := hs _ hW
  obtain ⟨tr0, ks0, ns0, a1, a2, a3, a4, a5⟩ := shown_tr hs (i := 0) rfl
  obtain ⟨tr1, ks1, ns1, b1, b2, b3, b4, b5⟩ := shown_tr hs (i := 1) rfl
  have hown : ([top].filter (fun c => !c.cont)) = [top] := by
    rw [List.filter_cons_of_pos (by rw [hW.first _ rfl top (by simp)]; rfl)]; rfl
  rw [hown] at a5
  obtain ⟨e1, e2⟩ := title_row a1 a2 a3 a4 a5 ht hp hc
  have hown1 : head.filter (fun c => !c.cont) = head := by
    rw [List.filter_eq_self]
    intro c hc
    obtain ⟨nm, -, hh⟩ := forall2_left hH hc
    rw [hh.own]; rfl
  rw [hown1] at b5
  -- the header row
  have hm := childs_removeFirstTr n
  have hm1 : ((removeFirstTr n).childs tTr)[0]? = some tr1 := by rw [hm, List.getElem?_drop]; exact b1
  have hcells : headerCells (removeFirstTr n) = tr1.elems := by
    unfold headerCells
    have : (removeFirstTr n).nthChild tTr 1 = some tr1 := hm1
    rw [this]
  have htt := childs_tight ht (List.mem_of_getElem? b1)
  rw [b2] at htt
  have hel : tr1.elems.map Node.clean = ns1 := by rw [b2]; exact cleans_elems b3 b4
  have hFe : List.Forall₂ (fun c e => ShowsCell doc cls ([top] :: head :: body) 1 c e.clean) head tr1.elems := by
    rw [← hel, List.forall₂_map_right_iff] at b5; exact b5
  have hFn : List.Forall₂ (fun name e => standardName (headingText e.toText) = name ∧ e.hasTag tTh = true ∧ e.attr? aColspan = none) names tr1.elems := by
    rw [List.forall₂_iff_get] at hH hFe ⊢
    refine ⟨hH.1.symm.trans hFe.1, fun i h1 h2 => ?_⟩
    have hi : i < head.length := by rw [hH.1]; exact h1
    refine head_cell (hH.2 i hi h1) (hFe.2 i hi h2) (elem_tights htt _ ?_)
    have hkk : ∀ e ∈ tr1.elems, e ∈ ks1 := by
      intro e he
      rw [b2] at he
      exact (List.mem_filter.1 he).1
    exact hkk _ (List.get_mem _ _)
  have hn : columnNames (removeFirstTr n) = names := by
    unfold columnNames
    rw [hcells]
    have : List.Forall₂ (fun name (e : Node) => name = standardName (headingText e.toText)) names tr1.elems := hFn.imp (fun _ _ h => h.1.symm)
    rw [← List.forall₂_map_right_iff (f := fun e : Node => standardName (headingText e.toText)) (R := fun a b => a = b)] at this
    rw [List.forall₂_eq_eq_eq] at this
    exact this.symm
  have hth : containsTh tr1 = true := by
    obtain ⟨nm, hnm⟩ := List.exists_mem_of_ne_nil _ hne
    obtain ⟨e, he, h1, h2, -⟩ := forall2_left hFn hnm
    unfold containsTh
    have : e ∈ tr1.childs tTh := by rw [childs_elems]; exact List.mem_filter.2 ⟨he, h2⟩
    cases hq : tr1.childs tTh with
    | nil => rw [hq] at this; cases this
    | cons a b => rfl
  have hcs : isInfix c!"List" (extractPossibleColspan tr1) = false := by
    have : findColspan tr1 = [] := by
      unfold findColspan
      rw [List.filter_eq_nil_iff.2]
      · rfl
      · intro e he
        obtain ⟨nm, -, -, -, h3⟩ := forall2_right hFn he
        rw [h3]; simp
    unfold extractPossibleColspan
    rw [this]; decide
  -- the rows
  obtain ⟨g1, g2⟩ := two_stages (pre := [[top]]) (hdr := [head]) hW hD hs (childs_removeFirstTr n)
  have hTx := g2.texts (by rw [(shown_rows hs).1]; simp; omega) ht
  obtain ⟨H', B', q1, q2, q3, q4, q5⟩ := g2
  obtain ⟨H, B, r1, r2, r3, r4, r5⟩ := hTx
  have hHH : H = H' ∧ B = B' := by
    refine List.append_inj (r1.symm.trans q1) ?_
    rw [r2, q2, List.length_take, List.length_drop, (shown_rows hs).1]
    simp
  obtain ⟨rfl, rfl⟩ := hHH
  have hH1 : H = [tr1] := by
    rw [q2]
    have : ((n.childs tTr).drop [[top]].length)[0]? = some tr1 := by rw [List.getElem?_drop]; exact b1
    cases hq : (n.childs tTr).drop [[top]].length with
    | nil => rw [hq] at this; cases this
    | cons a b => rw [hq] at this; simp at this; subst this; rfl
  obtain ⟨hrow, rows, hi1, hi2, hi3⟩ : ∃ (hrow : Row) (rows : List Row), (rowIter (removeFirstTr n)).1 = hrow :: rows ∧ hrow.node = tr1 ∧ rows.map (·.node) = B := by
    rw [hH1] at r1
    cases hq : (rowIter (removeFirstTr n)).1 with
    | nil => rw [hq] at r1; cases r1
    | cons a b =>
      rw [hq, List.map_cons, List.singleton_append, List.cons.injEq] at r1
      exact ⟨a, b, rfl, r1.1, r1.2⟩
  have hit : rowIter (removeFirstTr n) = (hrow :: rows, none) := Prod.ext hi1 g1
  have hRows : List.Forall₂ RowTexts rows ps := by
    rw [List.forall₂_iff_get]
    have hl : rows.length = body.length := by rw [← r3, ← hi3, List.length_map]
    refine ⟨hl.trans hlen, fun i h1 h2 => ?_⟩
    have hb : i < body.length := hl ▸ h1
    have hB : B[i]? = some (rows.get ⟨i, h1⟩).node := by
      rw [← hi3, List.getElem?_map, List.getElem?_eq_getElem h1]; rfl
    have hF := r5 i _ _ (List.getElem?_eq_getElem hb) hB
    have pick : ∀ {q : Nat} {z : WCell}, (body[i])[q]? = some z → ∃ cell, ((rows.get ⟨i, h1⟩).node.childs tTd)[q]? = some cell ∧
        ∃ j c, Origin ([top] :: head :: body) (2 + i) z j c ∧ (ParaCell doc c.tc.node → HasTexts (cellTexts c.tc.node) cell) := by
      intro q z hz
      obtain ⟨hlt, hz'⟩ := List.getElem?_eq_some_iff.1 hz
      rw [List.forall₂_iff_get] at hF
      have hlt' := hF.1 ▸ hlt
      refine ⟨_, List.getElem?_eq_getElem hlt', ?_⟩
      have := hF.2 q hlt hlt'
      simp only [List.get_eq_getElem, hz'] at this
      exact this
    refine ⟨r4 _ (List.mem_of_getElem? hB), fun q hq => ?_⟩
    obtain ⟨x, s1, j, c, o1, o2, o3⟩ := hbody i _ _ (List.getElem?_eq_getElem hb) (List.getElem?_eq_getElem h2) q hq
    obtain ⟨cell, p1, u1, v1, p2, p3⟩ := pick s1
    have ec := o1.unique hW p2
    subst ec
    refine ⟨cell, p1, ?_⟩
    have := p3 o2
    rw [o3] at this; exact this
  refine ⟨hft.ne, hn, ⟨hrow, rows, hit, hi2 ▸ hth, hi2 ▸ hcs, hRows⟩, fun env evs y3 k => ?_⟩
  have t1 : figureTitle tr0 = some title := (C62_title tr0 title).2 ⟨by rw [← hti, ← e1]; rfl, hft.infix⟩
  have t2 : figureId title = some fid := (C62_figure_id title fid).2 hft
  unfold runTable
  rw [parseTables]
  have e3 : n.nthChild tTr 1 = some tr0 := a1
  simp only [e2, e3, t1, t2]
  rw [M.bind_run, y3]
  simp [parseTables, M.pure_run]

/-- what the second stage makes of a figure which describes a layout -/
theorem layout_run {doc : WordDoc} {cls : Classes} {tbl : LNode} {title fid : Str} {ty : StructTy} {ps : List (List Str × List Str)}
    (h : LayoutTable doc tbl title fid ty ps) {n : Node} (ht : n.Tight)
    (hs : ∀ rows, WordTable tbl rows → ShowsTable doc cls rows n.clean) {env : Env} (hov : env.overrides.lookup fid = none) :
    ∃ fs own, List.Forall₂ (fun p f => FieldOf p.1 p.2 f) ps fs ∧
      (∀ x ∈ own, ∃ l, x = .lint l ∧ l.fig = fid ∧ LayoutCode l.err) ∧
      ∀ k, runTable env k n = ⟨own ++ [.ent ⟨⟨some title, fid, none⟩, .struct ty (layoutOrder ty fs)⟩], false, .ok ()⟩ := by
  obtain ⟨names, key, k, d, hF, hnd, hattr, hL, hk, hd, hps⟩ := h
  obtain ⟨g1, g2, ⟨head, rows, g3, g4, g5, g6⟩, g7⟩ := figure_run hF (List.ne_nil_of_mem (List.mem_of_getElem? hk)) ht hs
  have hRows : List.Forall₂ (RowSays k d) rows ps := by
    rw [List.forall₂_map_right_iff, List.forall₂_iff_get] at g6
    rw [List.forall₂_iff_get]
    refine ⟨g6.1, fun i h1 h2 => ?_⟩
    obtain ⟨q1, hq⟩ := g6.2 i h1 h2
    obtain ⟨rc, q2, q4⟩ := hq _ List.mem_cons_self
    obtain ⟨cc, q3, q5⟩ := hq _ (List.mem_cons_of_mem _ List.mem_cons_self)
    obtain ⟨f, hf⟩ := hps _ (List.get_mem ps ⟨i, h2⟩)
    exact ⟨q1, rc, cc, f, q2, q3, q4, q5, hf⟩
  obtain ⟨fs, own, y1, y2, y3⟩ := struct_figure (env := env) (m := ⟨some title, fid, none⟩) (tbl := removeFirstTr n) g1 hov g2 hnd hattr hL hk hd g3 g4 g5 hRows
  exact ⟨fs, own, y1, y2, g7 env _ y3⟩

/-- the events of a table are among those of the document -/
theorem parseTables_infix {env : Env} {n : Node} {ts : List Node} (hn : n ∈ ts) (k : Nat) (ho : (parseTables env k ts false).out = .ok ()) :
    ∃ j, (runTable env j n).evs <:+: (parseTables env k ts false).evs := by
  induction ts generalizing k with
  | nil => cases hn
  | cons t ts ih =>
    obtain ⟨h1, h2⟩ := parseTables_cons env t ts k
    rw [ho] at h2
    cases hr : (runTable env k t).out with
    | error e => rw [hr] at h2; cases h2
    | ok u =>
      rw [hr] at h1 h2
      simp only at h1 h2
      by_cases he : n = t
      · subst he
        exact ⟨k, by rw [h1]; exact (List.prefix_append _ _).isInfix⟩
      · have hn' : n ∈ ts := by
          rcases List.mem_cons.1 hn with h | h
          · exact absurd h he
          · exact h
        obtain ⟨j, hj⟩ := ih hn' _ h2.symm
        exact ⟨j, hj.trans (by rw [h1]; exact (List.suffix_append _ _).isInfix)⟩

/-! ### C68 -/

/-- the tables of the page, for the tables of the Word document which are not inside another one -/
theorem outermost_page {f : WordFile} {stem : Str} {doc : WordDoc} {header : Str} {us : List HUnit} (h : Readable f stem doc header us)
    {layout : List Piece → Str} (hl : ∀ ps, Laid ps (layout ps)) {unzip : Str → WordFile} {bytes : Str} (hb : unzip bytes = f) :
    ∃ (page css : Str) (root : Node) (cls : Classes), (stageTools unzip layout).docx stem bytes = .ok (page, css) ∧
      (stageTools unzip layout).xml page = .ok root ∧
      ∀ tbl, Outermost doc tbl → ∃ n ∈ figures root, n.Tight ∧ ∀ rows, WordTable tbl rows → ShowsTable doc cls rows n.clean := by
  have hok := parseWord_ok h.text h.tables
  obtain ⟨page, css, root, g1, g2, g3⟩ := h.read hl unzip bytes hb
  have hrt : root.Tight := by
    obtain ⟨css', hs⟩ := h.stage false
    have e1 : page = layout (renderPage spexVersion (headerTitle header) (headerRevision header) stem us).1 := by
      simp only [stageTools, hb, hs] at g1
      injection g1 with g1
      exact (Prod.mk.inj g1).1.symm
    have e2 : readXml page = some root := by
      simp only [stageTools] at g2
      cases hq : readXml page with
      | none => rw [hq] at g2; cases g2
      | some n => rw [hq] at g2; injection g2 with g2; rw [g2]
    exact page_tight headText_version h.title h.revision h.name hok (e1 ▸ hl _) e2
  refine ⟨page, css, root, classesOf (renderPage spexVersion (headerTitle header) (headerRevision header) stem us).2, g1, g2, fun tbl ho => ?_⟩
  obtain ⟨v, hv, fuel, seen, seen', hp, hfr⟩ := outermost_unit h.tables ho
  have hc := (figures_clean g3).trans (unitNodes_tables (parseWord_tables h.tables))
  have hm : unitNode (classesOf (renderPage spexVersion (headerTitle header) (headerRevision header) stem us).2) v ∈ (figures root).map Node.clean := by
    rw [hc]; exact List.mem_map_of_mem hv
  obtain ⟨n, hn, hnv⟩ := List.mem_map.1 hm
  have hnt : n.Tight := by
    obtain ⟨b, hb, hnb⟩ := List.mem_flatMap.1 hn
    exact childs_tight (childs_tight hrt hb) hnb
  exact ⟨n, hn, hnt, fun rows hW => by rw [hnv]; exact table_shown _ hW hp hfr⟩

/-- **C68** A table of a Word document which describes a layout, and is not inside another table, through both stages, when the page is
parsed to the end. There is one entity for it, with its title and id, of the right type, and with one field for each row: with the range, the
label and the brief which the texts of its two Word cells say. For bits the fields are in reverse. The diagnostics about the figure are
only those about the names of columns and about the layout. It is `partial`, as it is for tables all of whose rows say what they should,
and for figures without an extractor of their own. -/
theorem C68_layout_figure_partial {f : WordFile} {stem : Str} {doc : WordDoc} {header : Str} {us : List HUnit} (h : Readable f stem doc header us)
    {layout : List Piece → Str} (hl : ∀ ps, Laid ps (layout ps)) {unzip : Str → WordFile} {bytes : Str} (hb : unzip bytes = f) :
    ∃ (page css : Str) (root : Node), (stageTools unzip layout).docx stem bytes = .ok (page, css) ∧ (stageTools unzip layout).xml page = .ok root ∧
      ∀ env tbl title fid ty ps, Outermost doc tbl → LayoutTable doc tbl title fid ty ps → env.overrides.lookup fid = none →
        (parseDoc env root).out = .ok () →
        ∃ fs own e, List.Forall₂ (fun p f => FieldOf p.1 p.2 f) ps fs ∧
          e = Entity.mk ⟨some title, fid, none⟩ (.struct ty (match ty with | .bytes => fs | .bits => fs.reverse)) ∧
          own ++ [Ev.ent e] <:+: (parseDoc env root).evs ∧ ∀ x ∈ own, ∃ l, x = .lint l ∧ l.fig = fid ∧ LayoutCode l.err := by
  obtain ⟨page, css, root, cls, g1, g2, g3⟩ := outermost_page h hl hb
  refine ⟨page, css, root, g1, g2, fun env tbl title fid ty ps ho hL hov hout => ?_⟩
  obtain ⟨n, hn, hnt, hsh⟩ := g3 tbl ho
  obtain ⟨fs, own, y1, y2, y3⟩ := layout_run hL hnt hsh hov
  obtain ⟨j, hj⟩ := parseTables_infix hn 0 hout
  rw [y3 j] at hj
  refine ⟨fs, own, _, y1, rfl, ?_, y2⟩
  cases ty <;> exact hj

/-- The figures for which the code has extractors of their own: the title and revision of the specification in lower case, and the id of the figure
(quirks/__init__.py:18-24, nvm.py, mi.py, kv.py). -/
def ownExtractors : List ((Str × Str) × Str) :=
  [((c!"nvm express® nvm command set specification", c!"1.0c"), c!"23"),
   ((c!"nvm express® management interface specification", c!"1.2c"), c!"64"),
   ((c!"nvm express® key value command set specification", c!"1.0c"), c!"41"),
   ((c!"nvm express® key value command set specification", c!"1.0"), c!"41")]

omit [Uni] in
theorem lookup_pair {α β : Type} [BEq α] [LawfulBEq α] {l : List (α × β)} {a : α} {b : β} (h : l.lookup a = some b) : (a, b) ∈ l := by
  induction l with
  | nil => cases h
  | cons x l ih =>
    obtain ⟨a', b'⟩ := x
    rw [List.lookup_cons] at h
    cases hc : a == a' with
    | true => rw [hc] at h; injection h with h; rw [eq_of_beq hc, h]; exact List.mem_cons_self
    | false => rw [hc] at h; exact List.mem_cons_of_mem _ (ih h)

omit [Uni] in
theorem no_override {key rev fid : Str} (h : ((key, rev), fid) ∉ ownExtractors) (skip : Bool) :
    (getParser key rev skip).overrides.lookup fid = none := by
  unfold getParser
  cases hl : quirksMap.lookup (key, rev) with
  | none => rfl
  | some f =>
    simp only
    have := lookup_pair hl
    unfold quirksMap at this
    unfold ownExtractors at h
    simp only [List.mem_cons, Prod.mk.injEq, List.not_mem_nil, or_false, not_or] at this h
    obtain ⟨h1, h2, h3, h4⟩ := h
    rcases this with ⟨⟨rfl, rfl⟩, rfl⟩ | ⟨⟨rfl, rfl⟩, rfl⟩ | ⟨⟨rfl, rfl⟩, rfl⟩ | ⟨⟨rfl, rfl⟩, rfl⟩ | ⟨⟨rfl, rfl⟩, rfl⟩
    · have : fid ≠ c!"23" := fun e => h1 ⟨⟨rfl, rfl⟩, e⟩
      simp [envNvm, List.lookup_cons, beq_eq_false_iff_ne.2 this]
    · rfl
    · have : fid ≠ c!"64" := fun e => h2 ⟨⟨rfl, rfl⟩, e⟩
      simp [envMi, List.lookup_cons, beq_eq_false_iff_ne.2 this]
    · have : fid ≠ c!"41" := fun e => h3 ⟨⟨rfl, rfl⟩, e⟩
      simp [envKv, List.lookup_cons, beq_eq_false_iff_ne.2 this]
    · have : fid ≠ c!"41" := fun e => h4 ⟨⟨rfl, rfl⟩, e⟩
      simp [envKv, List.lookup_cons, beq_eq_false_iff_ne.2 this]

/-- **C68** A run on a Word document which ends well leaves a JSON file. For each table of the Word document which describes a layout, and
is not inside another table, the entity with its title, id, type and fields is in that file. -/
theorem C68_in_json_partial {f : WordFile} {stem : Str} {doc : WordDoc} {header : Str} {us : List HUnit} (h : Readable f stem doc header us)
    {layout : List Piece → Str} (hl : ∀ ps, Laid ps (layout ps)) {unzip : Str → WordFile} {bytes : Str} (hb : unzip bytes = f)
    {w : Files} {s : FPath} (h1 : stem ≠ []) (h2 : s.name = stem ++ c!".docx") (h3 : w s = some bytes) (o : Opts) {out : FPath}
    (hrun : (runSpec (stageTools unzip layout) o w s).2 = .ok out) :
    ∃ text lints ents key rev, (runSpec (stageTools unzip layout) o w s).1 out = some text ∧
      readJson text = some (modelJson (openedInfo key rev ++ lints) ents) ∧
      ∀ tbl title fid ty ps, Outermost doc tbl → LayoutTable doc tbl title fid ty ps → ((key, rev), fid) ∉ ownExtractors →
        ∃ fs, List.Forall₂ (fun p f => FieldOf p.1 p.2 f) ps fs ∧
          (Entity.mk ⟨some title, fid, none⟩ (.struct ty (match ty with | .bytes => fs | .bits => fs.reverse))).toJson ∈ ents := by
  obtain ⟨page, css, root, g1, g2, g3⟩ := C68_layout_figure_partial h hl hb
  obtain ⟨k1, k2⟩ := runSpec_docx o h1 h2 h3 g1
  rw [g2] at k1 k2
  rcases run_cases o (.ok root) with ⟨root', j, c1, ⟨key, rev, -, c2, c3⟩, c4, c5⟩ | ⟨-, e, c2⟩
  · cases c1
    rw [c4] at k2
    rw [k2] at hrun
    injection hrun with hrun
    subst hrun
    refine ⟨_, _, _, key, rev, k1, by rw [c5, C61_roundtrip, c3], fun tbl title fid ty ps ho hL hf => ?_⟩
    obtain ⟨fs, own, e, y1, y2, y3, -⟩ := g3 _ tbl title fid ty ps ho hL (no_override hf o.skip) c2
    refine ⟨fs, y1, List.mem_map.2 ⟨e, ?_, by rw [y2]⟩⟩
    have : Ev.ent e ∈ (parseDoc (getParser key rev o.skip) root).evs := y3.subset (by simp)
    exact List.mem_filterMap.2 ⟨_, this, rfl⟩
  · rw [c2] at k2
    rw [k2] at hrun
    cases hrun

end

/-! ### Examples -/

/-- a figure of a Word document; the first description has two paragraphs -/
def exLayout : Node := .elem wTbl [] [
  exTr [exCell [exGridSpan "2"] [exPara " Figure 7: Command"]],
  exTr [exHead "1" "Bit", exHead "1" "Description"],
  exTr [exCell [] [exPara "15:08"], exCell [] [exPara "Kind of Name (KI): the kind.", exPara "More."]],
  exTr [exCell [] [exPara "07:00"], exCell [] [exPara "Reserved"]]]

/-- its cells -/
def exLayoutCell (i j : Nat) : LNode :=
  match (exLayout.childs wTr)[i]? with
  | some tr => match (tr.childs wTc)[j]? with
    | some tc => ⟨[0, 0, i, j], tc⟩
    | none => ⟨[], .text []⟩
  | none => ⟨[], .text []⟩

def exLayoutRows : List (List WCell) :=
  [[⟨exLayoutCell 0 0, 0, 2, false⟩],
   [⟨exLayoutCell 1 0, 0, 1, false⟩, ⟨exLayoutCell 1 1, 1, 1, false⟩],
   [⟨exLayoutCell 2 0, 0, 1, false⟩, ⟨exLayoutCell 2 1, 1, 1, false⟩],
   [⟨exLayoutCell 3 0, 0, 1, false⟩, ⟨exLayoutCell 3 1, 1, 1, false⟩]]

theorem exLayout_table : WordTable ⟨[0, 0], exLayout⟩ exLayoutRows := by
  have hn : ∀ (s : Str) (n : Nat), s = c!"1" ∧ n = 1 ∨ s = c!"2" ∧ n = 2 → Numeral s n := by
    rintro s n (⟨rfl, rfl⟩ | ⟨rfl, rfl⟩) <;> exact ⟨by decide, by decide, by decide, by decide⟩
  constructor
  · rfl
  · intro row hr c hc
    simp only [exLayoutRows, List.mem_cons, List.not_mem_nil, or_false] at hr
    rcases hr with rfl | rfl | rfl | rfl <;> simp only [List.mem_cons, List.not_mem_nil, or_false] at hc
    · subst hc
      exact ⟨by simp, .inr ⟨c!"2", rfl, hn _ _ (by simp)⟩, by simp, fun _ => .inl rfl⟩
    · rcases hc with rfl | rfl
      · exact ⟨by simp, .inr ⟨c!"1", rfl, hn _ _ (by simp)⟩, by simp, fun _ => .inl rfl⟩
      · exact ⟨by simp, .inr ⟨c!"1", rfl, hn _ _ (by simp)⟩, by simp, fun _ => .inl rfl⟩
    all_goals rcases hc with rfl | rfl <;> exact ⟨by simp, .inl ⟨rfl, rfl⟩, by simp, fun _ => .inl rfl⟩
  · intro row hr before c after h
    have h2 : widthOf before = widthOf (row.take before.length) := by rw [h, List.take_left]
    have h3 : row[before.length]? = some c := by rw [h]; simp
    simp only [exLayoutRows, List.mem_cons, List.not_mem_nil, or_false] at hr
    generalize before.length = n at h2 h3
    rcases hr with rfl | rfl | rfl | rfl <;> match n with
      | 0 => cases h3; rw [h2]; rfl
      | 1 => cases h3; try (rw [h2]; rfl)
      | n + 2 => simp at h3
  · intro row hr c hc
    cases hr
    simp only [List.mem_cons, List.not_mem_nil, or_false] at hc
    subst hc; rfl
  · intro i above row h1 h2 c hc hcc
    have hm := List.mem_of_getElem? h2
    simp only [exLayoutRows, List.mem_cons, List.not_mem_nil, or_false] at hm
    rcases hm with rfl | rfl | rfl | rfl <;> simp only [List.mem_cons, List.not_mem_nil, or_false] at hc
    · subst hc; cases hcc
    all_goals rcases hc with rfl | rfl <;> cases hcc

theorem exRange (s : Str) (h l : Str) (high low : Nat) (e : s = h ++ ':' :: l) (h1 : Numeral h high) (h2 : Numeral l low) : letI := Uni.ascii
    RangeText s low high := by
  let _ := Uni.ascii
  subst e
  have := RangeText.pair (ws₁ := []) (ws₂ := []) (trail := []) h1 h2 (by simp) (by simp) (by simp)
  simpa using this

/-- the table of the example describes a layout of bits with two fields -/
theorem exLayout_ok : letI := Uni.ascii
    LayoutTable (exDocOf [exLayout]) ⟨[0, 0], exLayout⟩ c!"Figure 7: Command" c!"7" .bits
      [([c!"15:08"], [c!"Kind of Name (KI): the kind.", c!"More."]), ([c!"07:00"], [c!"Reserved"])] := by
  let _ := Uni.ascii
  have hl : 3 < intLimit := by
    unfold intLimit
    calc 3 < 10 ^ 1 := by decide
      _ ≤ 10 ^ 4300 := Nat.pow_le_pow_right (by decide) (by decide)
  have hplain : ∀ i j, i < 4 → j < 2 → ParaCell (exDocOf [exLayout]) (exLayoutCell i j).node := by
    have : ∀ i < 4, ∀ j < 2, exPlainCell (exLayoutCell i j).node = true := by decide +kernel
    exact fun i j hi hj => exPlainCell_ok (this i hi j hj)
  have horigin : ∀ (i : Nat) row x, exLayoutRows[i]? = some row → x ∈ row → Origin exLayoutRows i x i x := by
    intro i row x hi hx
    refine ⟨Nat.le_refl _, ⟨row, hi, hx⟩, ?_, rfl, rfl, fun _ => rfl, fun d h1 h2 => absurd h1 (by omega)⟩
    have : ∀ row ∈ exLayoutRows, ∀ c ∈ row, c.cont = false := by decide +kernel
    exact this row (List.mem_of_getElem? hi) x hx
  have hgrey : ∀ a b, a = exLayoutCell 1 b → b < 2 → Grey a.node := by
    rintro a b rfl hb
    match b with
    | 0 => exact ⟨'D', '9', rfl, by decide⟩
    | 1 => exact ⟨'D', '9', rfl, by decide⟩
    | b + 2 => omega
  have hnum : ∀ (s : Str) (n : Nat), s = c!"15" ∧ n = 15 ∨ s = c!"08" ∧ n = 8 ∨ s = c!"07" ∧ n = 7 ∨ s = c!"00" ∧ n = 0 → Numeral s n := by
    rintro s n (⟨rfl, rfl⟩ | ⟨rfl, rfl⟩ | ⟨rfl, rfl⟩ | ⟨rfl, rfl⟩) <;> exact ⟨by decide, by decide, by decide, by decide⟩
  refine ⟨[c!"bits", c!"description"], c!"bits", 0, 1, ⟨⟨exLayoutCell 0 0, 0, 2, false⟩, [⟨exLayoutCell 1 0, 0, 1, false⟩, ⟨exLayoutCell 1 1, 1, 1, false⟩],
    [[⟨exLayoutCell 2 0, 0, 1, false⟩, ⟨exLayoutCell 2 1, 1, 1, false⟩], [⟨exLayoutCell 3 0, 0, 1, false⟩, ⟨exLayoutCell 3 1, 1, 1, false⟩]], 2,
    c!" Figure 7: Command", exLayout_table, ?_, hplain 0 0 (by decide) (by decide), by decide +kernel, by decide +kernel, ?_, ?_, rfl, ?_⟩,
    by decide, by decide, .bits (by decide) (by decide) (by decide) (by decide) (by decide), rfl, rfl, ?_⟩
  · constructor
    · intro row hr
      cases List.mem_singleton.1 hr
      exact ⟨_, List.mem_cons_self, rfl, hgrey _ 0 rfl (by omega)⟩
    · intro row hr c hc ho
      simp only [List.mem_cons, List.not_mem_nil, or_false] at hr
      rintro ⟨a, b, h, -⟩
      rcases hr with rfl | rfl <;> simp only [List.mem_cons, List.not_mem_nil, or_false] at hc <;>
        rcases hc with rfl | rfl <;> cases h
    · decide +kernel
    · decide +kernel
    · decide +kernel
    · exact ⟨Nat.lt_of_succ_lt hl, hl⟩
  · exact ⟨c!" ", c!": Command", rfl, by decide, by decide, by decide, by decide, fun c r h => by cases h; exact .inr (.inr rfl)⟩
  · refine .cons ⟨rfl, rfl, hgrey _ 0 rfl (by omega), hplain 1 0 (by decide) (by decide),
      c!"Bit", by decide +kernel, by decide +kernel⟩
      (.cons ⟨rfl, rfl, hgrey _ 1 rfl (by omega), hplain 1 1 (by decide) (by decide),
      c!"Description", by decide +kernel, by decide +kernel⟩ .nil)
  · intro i row p h1 h2
    match i with
    | 0 =>
      cases h1; cases h2
      intro q hq
      simp only [List.mem_cons, List.not_mem_nil, or_false] at hq
      rcases hq with rfl | rfl
      · exact ⟨_, rfl, ⟨2, _, horigin 2 _ _ rfl (by simp), hplain 2 0 (by decide) (by decide), by decide +kernel⟩⟩
      · exact ⟨_, rfl, ⟨2, _, horigin 2 _ _ rfl (by simp), hplain 2 1 (by decide) (by decide), by decide +kernel⟩⟩
    | 1 =>
      cases h1; cases h2
      intro q hq
      simp only [List.mem_cons, List.not_mem_nil, or_false] at hq
      rcases hq with rfl | rfl
      · exact ⟨_, rfl, ⟨3, _, horigin 3 _ _ rfl (by simp), hplain 3 0 (by decide) (by decide), by decide +kernel⟩⟩
      · exact ⟨_, rfl, ⟨3, _, horigin 3 _ _ rfl (by simp), hplain 3 1 (by decide) (by decide), by decide +kernel⟩⟩
    | i + 2 => simp at h1
  · intro p hp
    simp only [List.mem_cons, List.not_mem_nil, or_false] at hp
    rcases hp with rfl | rfl
    · refine ⟨_, .acronym (name := c!"Kind of Name ") (acr := c!"KI") (rest := c!": the kind.")
          (exRange _ c!"15" c!"08" 15 8 (by decide +kernel) (hnum _ _ (by simp)) (hnum _ _ (by simp))) (by decide) (by decide +kernel) ?_ ?_ ?_ ⟨_, _, rfl, by decide⟩
          ⟨_, _, .text (w := c!"\n") (by decide) _ (.text (w := c!"\n") (by decide) _ (.done (w := []) (by decide))), (C05_brief_exact _ _).1 rfl, rfl⟩⟩
      · intro c hc
        refine ⟨(by decide : ∀ c ∈ c!"Kind of Name ", c.toNat < 128) c hc, (clsStructLabel_iff c).1 ((by decide +kernel : ∀ c ∈ c!"Kind of Name ", clsStructLabel c = true) c hc)⟩
      · decide
      · intro c hc
        exact (by decide : ∀ c ∈ c!"KI", c.isAlphanum = true) c hc
    · exact ⟨_, .reserved (exRange _ c!"07" c!"00" 7 0 (by decide +kernel) (hnum _ _ (by simp)) (hnum _ _ (by simp))) (by decide) (by decide +kernel)⟩

/-- the other hypotheses of C68 -/
example : letI := Uni.ascii
    Outermost (exDocOf [exLayout]) ⟨[0, 0], exLayout⟩ ∧ ∀ key rev, ((key, rev), c!"7") ∉ ownExtractors := by
  let _ := Uni.ascii
  have hd : (docTables (exDocOf [exLayout]).root).map (·.path) = [[0, 0]] := by decide +kernel
  have hm : ∀ t ∈ docTables (exDocOf [exLayout]).root, t.path = [0, 0] := fun t ht => by
    have := List.mem_map_of_mem (f := fun t : LNode => t.path) ht
    rw [hd] at this
    exact List.mem_singleton.1 this
  refine ⟨⟨?_, fun t ht _ => hm t ht⟩, fun key rev => by simp [ownExtractors]⟩
  exact List.mem_append_left _ (List.mem_append_right _ (List.mem_append_left _ (List.mem_append_left _ (List.mem_singleton.2 rfl))))

/-- the run on the example: one entity with two ranges in ascending order, and a diagnostic for the heading `Bit` -/
example : letI := Uni.ascii
    ((parseWord (exDocOf [exLayout])).toOption.bind fun us =>
      (readXml (plainText (renderPage c!"1.0" c!"NVMe" (some c!"2.0") c!"spec" us).1)).map fun p =>
        (lintOf (parseDoc (envPlain false) p).evs).map (fun l => l.err)) = some [.tblHdrErr] ∧
    ((parseWord (exDocOf [exLayout])).toOption.bind fun us =>
      (readXml (plainText (renderPage c!"1.0" c!"NVMe" (some c!"2.0") c!"spec" us).1)).map fun p =>
        (entities (parseDoc (envPlain true) p).evs).map (fun e => match e.body with
          | .struct ty fs => (some ty, fs.map (·.range))
          | .values _ => (none, []))) =
    some [(some .bits, [.int 0 7, .int 8 15])] := by decide +kernel

end Spex
