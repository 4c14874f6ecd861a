import Verif.Props.NestedFigure
import Verif.Lemmas.Following
/-
C78, C80: the figures which have extractors of their own, through both stages.
-/
set_option autoImplicit false
namespace Spex
section
variable [Uni]

/-! ### Specification -/

/-- A bits or bytes figure with an extractor of its own: what is done about rows which lack one of the cells, the headings of its columns in lower case, the
columns of the ranges, of the labels and of the descriptions, and its rows; and for each number of rows at its end the figure which they are, if they are one. -/
structure OwnFig where
  lo : Leftover
  ty : StructTy
  heads : List Str
  k : Nat
  l : Nat
  d : Nat
  rows : List FigRow
  rests : Nat → Fig

/-- the heading of the column of the ranges -/
def keyOf : StructTy → Str
  | .bits => c!"bits"
  | .bytes => c!"bytes"

/-- the last `left` rows of the Word table, which has the rows `all`, are this figure; there is nothing left below a row which continues a cell from above -/
def RestIs (doc : WordDoc) (tbl : LNode) (all : List (List WCell)) (left : Nat) (f : Fig) : Prop :=
  ∃ i w, all[i]? = some w ∧ i + 1 + left = all.length ∧
    ((∀ c ∈ w, c.cont = false) ∧ HoldsFigure doc tbl (i + 1) f ∨ (∃ c ∈ w, c.cont = true) ∧ f = .other [])

/-- The Word table is this figure, below one row. -/
inductive HoldsOwn (doc : WordDoc) (tbl : LNode) : OwnFig → Prop
  | mk (top head : List WCell) (body : List (List WCell)) (W : Nat) (f : OwnFig) :
      WordTable tbl (top :: head :: body) → MixedTable (head :: body) W → List.Forall₂ (HeadingCell doc) head f.heads →
      ReadPos [keyOf f.ty] (f.heads.map standardName) f.k → ReadPos [c!"attribute", c!"description"] (f.heads.map standardName) f.l →
      ReadPos [c!"description"] (f.heads.map standardName) f.d →
      HoldsRows doc (top :: head :: body) 2 f.k f.l f.d body f.rows →
      (∀ cells inner below text, .mk cells inner :: below <:+ f.rows → Lacks f.k f.l f.d cells → Says (cells.flatMap (·.1)) text → f.lo.Splits text →
        RestIs doc tbl (top :: head :: body) below.length (f.rests below.length)) → HoldsOwn doc tbl f

/-- the second row of the Word table has these headings, if there is one -/
inductive HasHeads (doc : WordDoc) (tbl : LNode) : List Str → Prop
  | mk (top head : List WCell) (body : List (List WCell)) (heads : List Str) : WordTable tbl (top :: head :: body) → List.Forall₂ (Heading doc) head heads →
      HasHeads doc tbl heads
  | none (top : List WCell) : WordTable tbl [top] → HasHeads doc tbl []

/-- the title of a further figure below a row with this text -/
def FurtherTitle (text : Str) (title : Option Str) : Prop :=
  title = some text ∧ c!"Figure" <:+: text ∨ title = none ∧ ¬ c!"Figure" <:+: text

/-- What is to come out of a figure with an extractor of its own: its diagnostics and the entities, in order, and whether it can be read. -/
inductive OwnOut (ov : List ((Str × Str) × Str)) (m : EntityMeta) (f : OwnFig) : List Ev → Bool → Prop
  | layout (evs : List Ev) (fs : List StructField) : StructRowsOut ov f.lo m.figId f.k f.l f.d false f.rows evs (.fields fs) →
      OwnOut ov m f (headReports m.figId f.heads ++ evs ++ layoutReports m.figId (layoutOrder f.ty fs) ++ [.ent ⟨m, .struct f.ty (layoutOrder f.ty fs)⟩]) true
  | stuck (evs : List Ev) : StructRowsOut ov f.lo m.figId f.k f.l f.d false f.rows evs .stuck →
      OwnOut ov m f (headReports m.figId f.heads ++ evs ++ [failure m]) false
  | below (evs : List Ev) : StructRowsOut ov f.lo m.figId f.k f.l f.d false f.rows evs .below → OwnOut ov m f (headReports m.figId f.heads ++ evs) false
  /-- there is a further figure in the table -/
  | further (evs : List Ev) (fs : List StructField) (text s newId : Str) (left : Nat) (title : Option Str) (evs' : List Ev) (ok : Bool) :
      StructRowsOut ov f.lo m.figId f.k f.l f.d false f.rows evs (.further fs text left) → f.lo = .heading s newId → FurtherTitle text title →
      FigOut ov ⟨title, newId, none⟩ (f.rests left) evs' ok →
      OwnOut ov m f (headReports m.figId f.heads ++ evs ++ layoutReports m.figId (layoutOrder f.ty fs) ++
        [.ent ⟨m, .struct f.ty (layoutOrder f.ty fs)⟩] ++ evs') ok

/-- the figures with extractors of their own, for each specification and revision: their type, and what they do about rows which lack one of the cells -/
def ownRules : List (((Str × Str) × Str) × StructTy × Leftover) :=
  [(((c!"nvm express® nvm command set specification", c!"1.0c"), c!"23"), .bits, .heading c!"figure 24" c!"24"),
   (((c!"nvm express® management interface specification", c!"1.2c"), c!"64"), .bits, .heading c!"figure 65" c!"65"),
   (((c!"nvm express® key value command set specification", c!"1.0c"), c!"41"), .bytes, .ending c!"(refer to Figure 39)."),
   (((c!"nvm express® key value command set specification", c!"1.0"), c!"41"), .bytes, .ending c!"(refer to Figure 39).")]

/-! ### The rows below a row -/

/-- the rows of the page below a data row: none, if the row continues a cell from above -/
theorem row_following {doc : WordDoc} {cls : Classes} {pre rows : List (List WCell)} {tbl : LNode} {n m : Node} {W : Nat}
    (hW : WordTable tbl (pre ++ rows)) (hM : MixedTable rows W) (hs : ShowsTable doc cls (pre ++ rows) n.clean)
    (hm : m.childs tTr = (n.childs tTr).drop pre.length) {i : Nat} {w : List WCell} {r : Row} (hw : rows[i]? = some w) (hd : ¬ HeadRow w)
    (hr : (rowIter m).1[i]? = some r) :
    ((∀ c ∈ w, c.cont = false) → r.following.filter (Node.hasTag tTr) = (n.childs tTr).drop (pre.length + i + 1)) ∧
    ((∃ c ∈ w, c.cont = true) → r.following = []) := by
  obtain ⟨g1, q1, q2⟩ := mixed_stages (pre := pre) hW hM hs hm
  obtain ⟨hlen, hrow⟩ := shown_rows hs
  obtain ⟨done, todo, p1, p2, p3⟩ := C10_rows_preserved m
  rw [p3.1 g1, List.append_nil] at p1
  have hTl : (m.childs tTr).length = rows.length := by rw [hm, List.length_drop, hlen, List.length_append]; omega
  have hlen' : ((m.childs tTr).filter HasCell).length = (m.childs tTr).length := by
    rw [← filter_hasCell, p1, p2.length_eq, q1, hTl]
  have hall : ∀ x ∈ m.childs tTr, HasCell x = true := List.length_filter_eq_length_iff.1 hlen'
  have hself : (m.childs tTr).filter HasCell = m.childs tTr := List.filter_eq_self.2 hall
  have hnodes : (candidateRows m.kids).map (·.node) = m.childs tTr := by rw [candidateRows_nodes, filter_hasCell, hself]
  have hk : ∀ k ∈ m.kids, k.hasTag tTr = true → (!(k.childs tTd).isEmpty || !(k.childs tTh).isEmpty) = true := by
    intro k hk ht
    have := hall k (List.mem_filter.2 ⟨hk, ht⟩)
    unfold HasCell at this
    rw [Bool.and_eq_true] at this
    exact this.2
  have hdone : done = m.childs tTr := by rw [← p1, filter_hasCell, hself]
  rw [hdone] at p2
  have hCl : (candidateRows m.kids).length = rows.length := by rw [← hTl, ← hnodes, List.length_map]
  have hcand : ∀ {j : Nat} {s : Row}, (candidateRows m.kids)[j]? = some s → (m.childs tTr)[j]? = some s.node := by
    intro j s h
    rw [← hnodes, List.getElem?_map, h]; rfl
  have hflag : rows.map dataRow = (candidateRows m.kids).map Row.isData := by
    apply List.ext_getElem?
    intro j
    rw [List.getElem?_map, List.getElem?_map]
    by_cases hj : j < rows.length
    · have h1 := List.getElem?_eq_getElem hj
      have h2 := List.getElem?_eq_getElem (l := candidateRows m.kids) (i := j) (by omega)
      have h3 := hcand h2
      obtain ⟨o, h4⟩ : ∃ o, ((rowIter m).1.map (·.node))[j]? = some o := ⟨_, List.getElem?_eq_getElem (by omega)⟩
      obtain ⟨src, h3', h5⟩ := forall2_get p2 h4
      rw [h3] at h3'
      cases h3'
      obtain ⟨h6, h7⟩ := q2 j _ o h1 h4
      rw [h1, h2, Option.map_some, Option.map_some]
      congr 1
      unfold Row.isData
      cases hdr : dataRow rows[j] with
      | true =>
        obtain ⟨h8, -⟩ := h7 (dataRow_iff.1 hdr)
        cases hc : containsTh (candidateRows m.kids)[j].node with
        | false => rfl
        | true =>
          have := h5.2.2.2 hc
          rw [← this] at hc
          unfold containsTh at hc
          rw [h8] at hc
          cases hc
      | false =>
        obtain ⟨h8, h9⟩ := h6 (dataRow_false.1 hdr)
        rw [hm, List.getElem?_drop, h8] at h3
        injection h3 with h3
        rw [← h3, h9]; rfl
    · rw [List.getElem?_eq_none (by omega), List.getElem?_eq_none (by omega)]; rfl
  have hrank := rank_congr hflag
  have hdw := dataRow_iff.2 hd
  obtain ⟨r0, h0⟩ : ∃ r0, (candidateRows m.kids)[i]? = some r0 :=
    ⟨_, List.getElem?_eq_getElem (by rw [hCl]; exact (List.getElem?_eq_some_iff.1 hw).1)⟩
  have hout : ∀ {j : Nat} {s : Row}, (rowIter m).1[j]? = some s → ((rowIter m).1.map (·.node))[j]? = some s.node := by
    intro j s h
    rw [List.getElem?_map, h]; rfl
  have hor := rowIterGo_origin (rows := candidateRows m.kids) (alst := []) (by simp) (show (rowIterGo [] (candidateRows m.kids)).1[i]? = some r from hr) h0
  constructor
  · intro hno
    rcases hor with rfl | ⟨-, ⟨p, hp, -⟩ | ⟨k, rk, s, td, rs, b1, b2, b3, b4, b5, b6, b7⟩⟩
    · rw [candidateRows_following hk h0]
      show (m.childs tTr).drop (i + 1) = _
      rw [hm, List.drop_drop]
      rfl
    · cases hp
    · exfalso
      obtain ⟨wk, hwk⟩ : ∃ wk, rows[k]? = some wk :=
        ⟨_, List.getElem?_eq_getElem (by rw [← hCl]; exact (List.getElem?_eq_some_iff.1 b3).1)⟩
      obtain ⟨c1, c2⟩ := q2 k wk rk.node hwk (hout b2)
      have hdk : ¬ HeadRow wk := by
        intro hh
        have e1 := congrArg (·[k]?) hflag
        simp only [List.getElem?_map, hwk, b3, Option.map_some, Option.some.injEq] at e1
        rw [b4, dataRow_false.2 hh] at e1
        cases e1
      have hdk' := dataRow_iff.2 hdk
      have hlt := rank_lt (p := dataRow) hwk hdk' b1
      rw [← hrank, ← hrank] at b7
      obtain ⟨x, hx, kk, c, tr, td0, ho, -, -, hsc, he⟩ := forall2_right (c2 hdk).2 b5
      by_cases hkk : kk = pre.length + k
      · rw [if_pos hkk] at he
        subst he hkk
        obtain ⟨tag, fill, h, elems, hf, htag, hext, -, hcl⟩ := hsc
        have hext' := extends_body hext
        obtain ⟨wk', hwk', hcw⟩ := ho.row
        rw [get_body, hwk] at hwk'
        cases hwk'
        have hP := hM.placed hW
        have hr' : wk ∈ rows.filter dataRow := List.mem_filter.2 ⟨List.mem_of_getElem? hwk, hdk'⟩
        have s1 := hP.pos wk hr' c hcw
        have s2 := hP.inside hr' hcw
        have s3 := extends_le hwk hext'
        have s4 := hM.small
        have s5 := hM.width wk (List.mem_of_getElem? hwk) hdk
        have hrs := (spanAttr_cell hcl s1 hext'.pos (by omega) (by omega)).2
        rw [b6] at hrs
        injection hrs with hrs
        subst hrs
        obtain ⟨w', d1, d2, d3⟩ := hM.run hwk hdk' (h := h) (fun d h1 h2 => by
          obtain ⟨r, h3, x, h4, -, h5⟩ := hext'.below d h1 h2
          exact ⟨r, h3, x, h4, h5⟩) (rank dataRow rows i - rank dataRow rows k) (by omega)
        have hik := rank_inj d1 d2 hw hdw (by omega)
        obtain ⟨w'', e1, y, e2, -, e3⟩ := hext'.below (rank dataRow rows i - rank dataRow rows k) (by omega) (by omega)
        rw [hik, hw] at e1
        cases e1
        rw [hno y e2] at e3
        cases e3
      · rw [if_neg hkk] at he
        subst he
        have : rowspan (dropRowspan td0) = .ok 1 := by
          unfold rowspan spanAttr
          rw [dropRowspan_rowspan]
        rw [this] at b6
        injection b6 with b6
        omega
  · rintro ⟨c, hc, hcc⟩
    rcases hor with rfl | ⟨h, -⟩
    · exfalso
      have h1 := hcand h0
      rw [hm, List.getElem?_drop] at h1
      obtain ⟨ns, h2, h3⟩ := hrow _ w r.node ((get_body i).trans hw) h1
      have h4 := ((q2 i w r.node hw (hout hr)).2 hd).2.length_eq
      have h5 := congrArg List.length (h3 tTd)
      rw [List.length_map] at h5
      have h6 := List.length_filter_le (Node.hasTag tTd) ns
      have h7 := h2.length_eq
      have h8 : (w.filter (fun c => !c.cont)).length < w.length := by
        rw [List.length_filter_lt_length_iff_exists]
        exact ⟨c, hc, by simp [hcc]⟩
      omega
    · exact h

/-! ### Figures -/

/-- the row below which there is a further figure -/
theorem further_row {ov : List ((Str × Str) × Str)} {lo : Leftover} {fig : Str} {k l d : Nat} {rows : List FigRow} : ∀ {b : Bool} {evs : List Ev}
    {fs : List StructField} {text : Str} {left : Nat}, StructRowsOut ov lo fig k l d b rows evs (.further fs text left) →
    ∃ cells inner below, .mk cells inner :: below <:+ rows ∧ Lacks k l d cells ∧ Says (cells.flatMap (·.1)) text ∧ lo.Splits text ∧ below.length = left := by
  have haft : ∀ {o : Outcome StructField} {new fs : List StructField} {text : Str} {left : Nat}, o.after new = .further fs text left →
      ∃ fs', o = .further fs' text left := by
    intro o new fs text left h
    cases o with
    | further fs' t' l' => cases h; exact ⟨_, rfl⟩
    | fields => cases h
    | stuck => cases h
    | below => cases h
  induction rows with
  | nil => intro b evs fs text left h; cases h
  | cons r rows ih =>
    intro b evs fs text left h
    have deeper : ∀ {b : Bool} {evs : List Ev} {fs : List StructField}, StructRowsOut ov lo fig k l d b rows evs (.further fs text left) →
        ∃ cells inner below, .mk cells inner :: below <:+ r :: rows ∧ Lacks k l d cells ∧ Says (cells.flatMap (·.1)) text ∧ lo.Splits text ∧ below.length = left := by
      intro b evs fs h
      obtain ⟨cells, inner, below, h1, h2⟩ := ih h
      exact ⟨cells, inner, below, h1.trans (List.suffix_cons _ _), h2⟩
    generalize ho : Outcome.further fs text left = o at h
    cases h with
    | head _ _ _ _ _ _ _ _ _ _ _ _ h => subst ho; exact deeper h
    | ellipsis _ _ _ _ _ _ _ _ _ _ _ o _ _ _ h => obtain ⟨fs', rfl⟩ := haft ho.symm; exact deeper h
    | note => cases ho
    | pass _ _ _ _ _ _ _ _ _ _ _ o _ _ _ _ _ h => subst ho; exact deeper h
    | stuck => cases ho
    | split _ _ _ _ _ _ cells inner _ _ h1 h2 _ _ h3 => cases ho; exact ⟨cells, inner, rows, List.suffix_refl _, h1, h2, h3, rfl⟩
    | long => cases ho
    | mark _ _ _ _ _ _ _ _ _ _ _ _ _ _ _ _ _ _ _ _ _ o _ _ _ _ _ _ _ _ h => obtain ⟨fs', rfl⟩ := haft ho.symm; exact deeper h
    | field _ _ _ _ _ _ _ _ _ _ _ _ _ _ _ _ _ _ _ _ _ _ o _ _ _ _ _ _ _ _ _ h => obtain ⟨fs', rfl⟩ := haft ho.symm; exact deeper h
    | inside => cases ho

/-- the title of a further figure -/
theorem further_title (tr : Node) : FurtherTitle tr.toText (figureTitle tr) := by
  cases h : figureTitle tr with
  | none =>
    refine .inr ⟨rfl, fun ⟨a, b, hab⟩ => ?_⟩
    rw [(C62_title tr _).2 ⟨rfl, a, b, hab.symm⟩] at h
    cases h
  | some t =>
    obtain ⟨rfl, a, b, hab⟩ := (C62_title tr t).1 h
    exact .inl ⟨rfl, a, b, hab.symm⟩

theorem RowsShow.get {doc : WordDoc} {cls : Classes} {all : List (List WCell)} {n : Node} : ∀ {ws : List (List WCell)} {rs : List Row} {i : Nat},
    RowsShow doc cls all n i ws rs → ws.length = rs.length ∧ ∀ {j : Nat} {w : List WCell} {r : Row}, ws[j]? = some w → rs[j]? = some r → HeadRow w →
      containsTh r.node = true := by
  intro ws
  induction ws with
  | nil =>
    intro rs i h
    cases rs with
    | nil => exact ⟨rfl, fun h => by cases h⟩
    | cons r rs => exact absurd h (by simp [RowsShow])
  | cons w ws ih =>
    intro rs i h
    cases rs with
    | nil => exact absurd h (by simp [RowsShow])
    | cons r rs =>
      obtain ⟨⟨h1, -⟩, h2⟩ := h
      obtain ⟨h3, h4⟩ := ih h2
      refine ⟨by rw [List.length_cons, List.length_cons, h3], fun {j w' r'} a1 a2 a3 => ?_⟩
      cases j with
      | zero =>
        cases a1
        cases a2
        exact (h1 a3).2
      | succ j => exact h4 a1 a2 a3

/-- a figure with an extractor of its own -/
theorem own_nest {doc : WordDoc} {cls : Classes} {env : Env} (hov : ∀ p ∈ env.overrides, '_' ∉ p.1) {tbl : LNode} {title fid : Str} {f : OwnFig} {c : StructCls}
    (h : HoldsOwn doc tbl f) (hT : TitledBy doc tbl title fid) {n : Node} (ht : n.Tight) (hs : ∀ rows, WordTable tbl rows → ShowsTable doc cls rows n.clean)
    (hl : env.overrides.lookup fid = some (.struct c)) (hc : c.ty = f.ty ∧ c.rangeHdrs = [keyOf f.ty] ∧ c.labelHdrs = [c!"attribute", c!"description"] ∧
      c.contentHdrs = [c!"description"]) (hh : Handles f.lo c.handler)
    (hnew : ∀ s newId, f.lo = .heading s newId → newId ≠ [] ∧ env.overrides.lookup newId = none) :
    ∃ evs ok, OwnOut env.labelOverrides ⟨some title, fid, none⟩ f evs ok ∧ ∀ k, Ran env ⟨some title, fid, none⟩ evs ok (runTable env k n) := by
  obtain ⟨hrun0, -, hf⟩ := titled_run hT ht hs
  obtain ⟨top, head, body, W, _, hW, hD, hH, hk, hla, hd, hR, hrest⟩ := h
  obtain ⟨c1, c2, c3, c4⟩ := hc
  generalize hm' : (⟨some title, fid, none⟩ : EntityMeta) = m at hrun0 ⊢
  have hfig : m.figId = fid := by rw [← hm']
  generalize htn : removeFirstTr n = tn at hrun0
  have hm : tn.childs tTr = (n.childs tTr).drop ([top] : List (List WCell)).length := by rw [← htn]; exact childs_removeFirstTr n
  obtain ⟨N, hN⟩ : ∃ N, tn.size = N + 1 := ⟨tn.size - 1, by have := size_pos tn; omega⟩
  have hP : Parses doc cls env (parseFig env N) tn.size := by
    intro t f n' m' h1 h2 h3 h4 h5
    have hne : m'.figId ≠ [] := fun h => by rw [h] at h5; cases h5
    exact figure_nest hov N h1 h2 h3 rfl (by omega) hne (lookup_nest hov h5)
  have hne : f.heads ≠ [] := by
    obtain ⟨x, hx, -⟩ := hk.here
    intro h
    rw [h] at hx
    cases hx
  have hW' : WordTable tbl ([top] ++ [head] ++ body) := hW
  obtain ⟨a0, a1⟩ := heading_row (pre := [top]) (body := body) (hH.imp fun _ _ h => h.toHeading) ht (hs _ hW) hm
  obtain ⟨hrow, rs, a2, a3, a4, a5⟩ := table_rows hW' hD hH hne ht (hs _ hW) hm
  have happ : ((Cls.struct c).canApply (f.heads.map standardName)).isSome = true := by
    refine (struct_applies c c3 c4 _ c2 _).2 ⟨?_, ?_⟩
    · obtain ⟨x, hx, hx'⟩ := hk.here
      rw [List.mem_singleton] at hx'
      exact hx' ▸ List.mem_of_getElem? hx
    · obtain ⟨x, hx, hx'⟩ := hd.here
      rw [List.mem_singleton] at hx'
      exact hx' ▸ List.mem_of_getElem? hx
  obtain ⟨mapping, hmap⟩ := Option.isSome_iff_exists.1 happ
  obtain ⟨⟨ck, cl, cd⟩, g1, g2, g3, g4⟩ := C14_struct_exact c _ mapping hmap
  rw [c2] at g2
  rw [c3] at g3
  rw [c4] at g4
  have e1 := g2.unique hk
  have e2 := g3.unique hla
  have e3 := g4.unique hd
  simp only at e1 e2 e3
  subst e1 e2 e3
  have hf' : m.figId ≠ [] := by rw [hfig]; exact hf
  obtain ⟨evs, o, y1, y2⟩ := structRows_nest (tn := tn) hP hf' hh (all := rs) (fun r hr => by rw [a2]; exact List.mem_cons_of_mem _ hr) (rows_are hW' ht (hs _ hW)
    (fun j w hj => by rw [List.getElem?_append_right (by simp)]; simpa using hj) a5 hR) (List.suffix_refl _) false
  have hrun : ∀ k, runTable env k n = ⟨headReports m.figId f.heads ++
      (M.tryCatch (callExtractor env (parseFig env N) (.struct c) m ⟨f.k, f.l, f.d⟩ tn) (onFigError env m) false).evs,
      (M.tryCatch (callExtractor env (parseFig env N) (.struct c) m ⟨f.k, f.l, f.d⟩ tn) (onFigError env m) false).flag,
      (M.tryCatch (callExtractor env (parseFig env N) (.struct c) m ⟨f.k, f.l, f.d⟩ tn) (onFigError env m) false).out⟩ := by
    intro k
    rw [hrun0]
    unfold parseFigure
    rw [hN, parseFig]
    unfold onParseFig
    rw [M.bind_run, M.setFlag_run]
    simp only
    rw [M.bind_run, C15_headers m.figId tn hf' false, headerIssues_reports m.figId a0]
    simp only [a1, hfig, hl, hmap]
    unfold runExtractor
    simp only [g1, M.ofExcept_ok, pure_bind, List.nil_append]
  have hcall : callExtractor env (parseFig env N) (.struct c) m ⟨f.k, f.l, f.d⟩ tn =
      (structRows (parseFig env N) m.figId c.handler ⟨f.k, f.l, f.d⟩ none false rs >>= fun p => do
        validateStruct m.figId (layoutOrder c.ty p.1)
        M.yield ⟨m, .struct c.ty (layoutOrder c.ty p.1)⟩
        parseExtra (parseFig env N) p.2) := by
    unfold callExtractor structCall
    simp only [a2]
    rw [structRows, if_pos a3, a4, Bool.false_or]
  rw [hcall] at hrun
  cases o with
  | fields fs =>
    refine ⟨_, true, .layout evs fs y1, fun k => ?_⟩
    have y2' : structRows (parseFig env N) m.figId c.handler ⟨f.k, f.l, f.d⟩ none false rs false = ⟨evs, false, .ok (fs, none)⟩ := y2
    show _ = _
    rw [hrun, M.tryCatch_run, M.bind_run, y2']
    simp only
    rw [c1, M.bind_run, validateStruct_run _ hf', structEvs_reports]
    simp [M.bind_run, M.yield_run, parseExtra, M.pure_run]
  | stuck =>
    obtain ⟨e, y2⟩ := y2
    refine ⟨_, false, .stuck evs y1, fun k => ?_⟩
    rw [hrun, M.tryCatch_run, M.bind_run, y2]
    simp only
    rw [← List.append_assoc]
    exact onFigError_ran hf' rfl
  | below =>
    obtain ⟨e, y2⟩ := y2
    refine ⟨_, false, .below evs y1, fun k => ?_⟩
    rw [hrun, M.tryCatch_run, M.bind_run, y2]
    simp only
    rw [← List.append_assoc]
    have := onFigError_ran (env := env) (e := e) hf' (pre := headReports m.figId f.heads ++ evs) (evs := []) (fl := true) rfl
    rw [List.append_nil] at this
    exact this
  | further fs text left =>
    obtain ⟨x, ⟨a, r, below, s, newId, b1, b2, b3, b4, b5, rfl⟩, y2⟩ := y2
    obtain ⟨hn1, hn2⟩ := hnew s newId b5
    obtain ⟨cells, inner, below', d1, d2, d3, d4, d5⟩ := further_row y1
    obtain ⟨i, w, r1, r2, r3⟩ := hrest cells inner below' text d1 d2 d3 d4
    rw [d5] at r2 r3
    obtain ⟨l1, l2⟩ := a5.get
    have hi : i = a.length + 2 := by
      have e1 := congrArg List.length b1
      rw [List.length_append, List.length_cons, b2] at e1
      simp only [List.length_cons] at r2
      omega
    subst hi
    have hw : body[a.length]? = some w := r1
    have hr : rs[a.length]? = some r := by rw [b1]; simp
    have hnh : ¬ HeadRow w := fun hh => by
      have := l2 hw hr hh
      rw [b4] at this
      cases this
    obtain ⟨f1, f2⟩ := row_following (pre := [top]) (rows := head :: body) hW hD (hs _ hW) hm (i := a.length + 1) (w := w) (r := r) hw hnh
      (by rw [a2]; exact hr)
    have hmem : r ∈ (rowIter tn).1 := by rw [a2]; exact List.mem_cons_of_mem _ (List.mem_of_getElem? hr)
    have hsize := following_smaller hmem
    have hsub : ∃ evs' ok, FigOut env.labelOverrides ⟨figureTitle r.node, newId, none⟩ (f.rests left) evs' ok ∧
        ∀ fl, Ran env ⟨figureTitle r.node, newId, none⟩ evs' ok (parseFig env N ⟨figureTitle r.node, newId, none⟩ (.elem tTable [] r.following) fl) := by
      rcases r3 with ⟨h1, h2⟩ | ⟨h1, h2⟩
      · refine figure_nest hov N h2 ht hs ?_ (by omega) hn1 hn2
        show r.following.filter (Node.hasTag tTr) = _
        rw [f1 h1]
        congr 1
        simp only [List.length_singleton]
        omega
      · rw [h2]
        have hfo := f2 h1
        rw [hfo] at hsize ⊢
        obtain ⟨N', rfl⟩ : ∃ N', N = N' + 1 := ⟨N - 1, by have := size_pos (Node.elem tTable [] []); omega⟩
        exact ⟨_, true, .other _ [], empty_nest rfl hn1 hn2⟩
    obtain ⟨evs', ok, z1, z2⟩ := hsub
    have hft := further_title r.node
    rw [b3] at hft
    refine ⟨_, ok, .further evs fs text s newId left _ evs' ok y1 b5 hft z1, fun k => ?_⟩
    have hev : ∀ (tail : List Ev), headReports m.figId f.heads ++ (evs ++ (layoutReports m.figId (layoutOrder f.ty fs) ++
        ([.ent ⟨m, .struct f.ty (layoutOrder f.ty fs)⟩] ++ tail))) = headReports m.figId f.heads ++ evs ++ layoutReports m.figId (layoutOrder f.ty fs) ++
        [.ent ⟨m, .struct f.ty (layoutOrder f.ty fs)⟩] ++ tail := by intro tail; simp only [List.append_assoc]
    have hb : ∀ res, parseFig env N ⟨figureTitle r.node, newId, none⟩ (.elem tTable [] r.following) false = res →
        (structRows (parseFig env N) m.figId c.handler ⟨f.k, f.l, f.d⟩ none false rs >>= fun p => do
          validateStruct m.figId (layoutOrder c.ty p.1)
          M.yield ⟨m, .struct c.ty (layoutOrder c.ty p.1)⟩
          parseExtra (parseFig env N) p.2) false = ⟨evs ++ (layoutReports m.figId (layoutOrder f.ty fs) ++
            ([.ent ⟨m, .struct f.ty (layoutOrder f.ty fs)⟩] ++ res.evs)), res.flag, res.out⟩ := by
      intro res hres
      rw [M.bind_run, y2]
      simp only
      rw [c1, M.bind_run, validateStruct_run _ hf', structEvs_reports]
      simp only
      rw [M.bind_run, M.yield_run]
      simp only [parseExtra, hres]
    cases ok with
    | true =>
      have z2' : parseFig env N ⟨figureTitle r.node, newId, none⟩ (.elem tTable [] r.following) false = ⟨evs', false, .ok ()⟩ := z2 false
      show _ = _
      rw [hrun, M.tryCatch_run, hb _ z2', ← hev]
    | false =>
      rcases z2 false with ⟨hsk, e, z2⟩ | ⟨hsk, z2⟩
      · rw [hrun, M.tryCatch_run, hb _ z2]
        simp only
        rw [← List.append_assoc, ← hev]
        have := onFigError_ran (env := env) (e := e) hf' (pre := headReports m.figId f.heads ++ (evs ++ (layoutReports m.figId (layoutOrder f.ty fs) ++
            ([.ent ⟨m, .struct f.ty (layoutOrder f.ty fs)⟩] ++ evs')))) (evs := []) (fl := true) rfl
        rw [List.append_nil] at this
        exact this
      · refine .inr ⟨by rw [← hm']; exact hsk, ?_⟩
        rw [hrun, M.tryCatch_run, hb _ z2, ← hev]

/-- a figure whose extractor does not apply to its columns -/
theorem misfit_run {doc : WordDoc} {cls : Classes} {env : Env} {tbl : LNode} {title fid : Str} {heads : List Str} {c : StructCls}
    (h : HasHeads doc tbl heads) (hT : TitledBy doc tbl title fid) {n : Node} (ht : n.Tight) (hs : ∀ rows, WordTable tbl rows → ShowsTable doc cls rows n.clean)
    (hl : env.overrides.lookup fid = some (.struct c)) {key : Str} (hc : c.rangeHdrs = [key] ∧ c.labelHdrs = [c!"attribute", c!"description"] ∧
      c.contentHdrs = [c!"description"]) (hn : ¬ StructColumns key (heads.map standardName)) (k : Nat) :
    ∃ e fl, runTable env k n = ⟨headReports fid heads, fl, .error e⟩ := by
  obtain ⟨hrun0, -, hf⟩ := titled_run hT ht hs
  have hcol : (headerCells (removeFirstTr n)).map (fun c => headingText c.toText) = heads ∧ columnNames (removeFirstTr n) = heads.map standardName := by
    cases h with
    | mk top head body _ hW hH => exact heading_row (pre := [top]) (body := body) hH ht (hs _ hW) (childs_removeFirstTr n)
    | none top hW =>
      obtain ⟨hlen, -⟩ := shown_rows (hs _ hW)
      have : (removeFirstTr n).childs tTr = [] := by
        rw [childs_removeFirstTr, List.drop_eq_nil_iff, hlen]
        simp
      have hh : headerCells (removeFirstTr n) = [] := by
        unfold headerCells
        have : (removeFirstTr n).nthChild tTr 1 = none := by unfold Node.nthChild; rw [this]; rfl
        rw [this]
      constructor
      · rw [hh]; rfl
      · unfold columnNames; rw [hh]; rfl
  obtain ⟨a0, a1⟩ := hcol
  have happ : (Cls.struct c).canApply (heads.map standardName) = none := by
    cases hq : (Cls.struct c).canApply (heads.map standardName) with
    | none => rfl
    | some mp => exact absurd ((struct_applies c hc.2.1 hc.2.2 key hc.1 _).1 (by rw [hq]; rfl)) hn
  obtain ⟨N, hN⟩ : ∃ N, (removeFirstTr n).size = N + 1 := ⟨(removeFirstTr n).size - 1, by have := size_pos (removeFirstTr n); omega⟩
  refine ⟨.runtimeError, false, ?_⟩
  rw [hrun0]
  unfold parseFigure
  rw [hN, parseFig]
  unfold onParseFig
  rw [M.bind_run, M.setFlag_run]
  simp only
  rw [M.bind_run, C15_headers fid _ hf false, headerIssues_reports fid a0]
  simp only [a1, hl, happ]
  simp [M.raise_run]

/-- the extractors of their own -/
theorem ownRules_lookup {key rev fid : Str} {ty : StructTy} {lo : Leftover} (h : (((key, rev), fid), ty, lo) ∈ ownRules) (skip : Bool) :
    ∃ c, (getParser key rev skip).overrides.lookup fid = some (.struct c) ∧ c.ty = ty ∧ c.rangeHdrs = [keyOf ty] ∧
      c.labelHdrs = [c!"attribute", c!"description"] ∧ c.contentHdrs = [c!"description"] ∧ Handles lo c.handler ∧
      ∀ s newId, lo = .heading s newId → newId ≠ [] ∧ (getParser key rev skip).overrides.lookup newId = none := by
  unfold ownRules at h
  simp only [List.mem_cons, Prod.mk.injEq, List.not_mem_nil, or_false] at h
  have q1 : getParser c!"nvm express® nvm command set specification" c!"1.0c" skip = envNvm skip := rfl
  have q2 : getParser c!"nvm express® management interface specification" c!"1.2c" skip = envMi skip := rfl
  have q3 : getParser c!"nvm express® key value command set specification" c!"1.0c" skip = envKv skip := rfl
  have q4 : getParser c!"nvm express® key value command set specification" c!"1.0" skip = envKv skip := rfl
  rcases h with ⟨⟨⟨rfl, rfl⟩, rfl⟩, rfl, rfl⟩ | ⟨⟨⟨rfl, rfl⟩, rfl⟩, rfl, rfl⟩ | ⟨⟨⟨rfl, rfl⟩, rfl⟩, rfl, rfl⟩ | ⟨⟨⟨rfl, rfl⟩, rfl⟩, rfl, rfl⟩
  · rw [q1]
    exact ⟨nvmFig23, rfl, rfl, rfl, rfl, rfl, .heading _ _, fun s newId e => by cases e; exact ⟨by simp, rfl⟩⟩
  · rw [q2]
    exact ⟨miFig64, rfl, rfl, rfl, rfl, rfl, .heading _ _, fun s newId e => by cases e; exact ⟨by simp, rfl⟩⟩
  · rw [q3]
    exact ⟨kvFig41, rfl, rfl, rfl, rfl, rfl, .ending, fun s newId e => by cases e⟩
  · rw [q4]
    exact ⟨kvFig41, rfl, rfl, rfl, rfl, rfl, .ending, fun s newId e => by cases e⟩

end

/-! ### Examples -/

/-- a figure with the title of a further figure in one of its rows -/
def exOwn : Node := .elem wTbl [] [
  exTr [exCell [exGridSpan "2"] [exPara "Figure 23: One"]],
  exTr [exHead "1" "Bits", exHead "1" "Description"],
  exTr [exCell [] [exPara "7:4"], exCell [] [exPara "High (HI): the high ones."]],
  exTr [exCell [] [exPara "3:0"], exCell [] [exPara "Low (LO): the low ones."]],
  exTr [exCell [exGridSpan "2"] [exPara "Figure 24: Another"]],
  exTr [exHead "1" "Value", exHead "1" "Definition"],
  exTr [exCell [] [exPara "0h"], exCell [] [exPara "Zero: none."]]]

def exOwnDoc : WordDoc := { exNumDoc with root := .elem c!"w:document" [] [.elem c!"w:body" [] [exOwn]] }

def exOwnFig : OwnFig where
  lo := .heading c!"figure 24" c!"24"
  ty := .bits
  heads := [c!"bits", c!"description"]
  k := 0
  l := 1
  d := 1
  rows := [.mk [([c!"7:4"], [c!"7:4"]), ([c!"High (HI): the high ones."], [c!"High (HI): the high ones."])] [],
    .mk [([c!"3:0"], [c!"3:0"]), ([c!"Low (LO): the low ones."], [c!"Low (LO): the low ones."])] [],
    .mk [([c!"Figure 24: Another"], [c!"Figure 24: Another"])] [], .head [],
    .mk [([c!"0h"], [c!"0h"]), ([c!"Zero: none."], [c!"Zero: none."])] []]
  rests := fun _ => .values [c!"value", c!"definition"] 0 1 1 [.mk [([c!"0h"], [c!"0h"]), ([c!"Zero: none."], [c!"Zero: none."])] []]

/-- the hypotheses of C80: the table is a figure with an extractor of its own -/
theorem exOwn_ok : letI := Uni.ascii
    HoldsOwn exOwnDoc ⟨[0, 0], exOwn⟩ exOwnFig := by
  let _ := Uni.ascii
  have hw : WordTable ⟨[0, 0], exOwn⟩ (nestRows ⟨[0, 0], exOwn⟩) := nestRows_table (by decide +kernel)
  have h0 : nestRows ⟨[0, 0], exOwn⟩ = nestRow ⟨[0, 0], exOwn⟩ 0 :: nestRow ⟨[0, 0], exOwn⟩ 1 :: (nestRows ⟨[0, 0], exOwn⟩).drop 2 := by
    have := nest_drop (t := ⟨[0, 0], exOwn⟩) (i := 0) (by decide +kernel)
    rw [List.drop_zero, nest_drop (t := ⟨[0, 0], exOwn⟩) (i := 1) (by decide +kernel)] at this
    exact this
  have hlast : HoldsRows exOwnDoc (nestRows ⟨[0, 0], exOwn⟩) 6 0 1 1 ((nestRows ⟨[0, 0], exOwn⟩).drop 6)
      [.mk [([c!"0h"], [c!"0h"]), ([c!"Zero: none."], [c!"Zero: none."])] []] :=
    nest_rows 60 (by decide +kernel) (by decide +kernel) (nest_none (by decide +kernel)) (nest_done (by decide +kernel))
  have hrest : HoldsFigure exOwnDoc ⟨[0, 0], exOwn⟩ 5 (exOwnFig.rests 2) :=
    nest_values 5 2 (by decide +kernel) (.described _ _ _ (by decide) (readPos_of (by decide)) (readPos_of (by decide)) (readPos_of (by decide))) hlast
  refine .mk (nestRow ⟨[0, 0], exOwn⟩ 0) (nestRow ⟨[0, 0], exOwn⟩ 1) ((nestRows ⟨[0, 0], exOwn⟩).drop 2) 2 _ (h0 ▸ hw) (exMixed_ok (by decide +kernel))
    (nestHead_ok (by decide +kernel)) (readPos_of (by decide)) (readPos_of (by decide)) (readPos_of (by decide)) (h0 ▸ ?_) fun cells inner below text hsuf hl hs hsp => ?_
  · exact nest_rows 60 (by decide +kernel) (by decide +kernel) (nest_none (by decide +kernel))
      (nest_rows 60 (by decide +kernel) (by decide +kernel) (nest_none (by decide +kernel))
        (nest_rows 60 (by decide +kernel) (by decide +kernel) (nest_none (by decide +kernel)) (nest_head (by decide +kernel) (by decide +kernel) hlast)))
  · -- the third row is the only one which lacks something
    have hnot : ∀ (a b c e : List Str), e ≠ [] → ¬ Lacks 0 1 1 [(a, b), (c, e)] := by
      rintro a b c e he (h | h | h)
      · cases h
      · cases h
      · exact he (h c e rfl)
    rw [show exOwnFig.rows = [.mk [([c!"7:4"], [c!"7:4"]), ([c!"High (HI): the high ones."], [c!"High (HI): the high ones."])] [],
      .mk [([c!"3:0"], [c!"3:0"]), ([c!"Low (LO): the low ones."], [c!"Low (LO): the low ones."])] [],
      .mk [([c!"Figure 24: Another"], [c!"Figure 24: Another"])] [], .head [],
      .mk [([c!"0h"], [c!"0h"]), ([c!"Zero: none."], [c!"Zero: none."])] []] from rfl] at hsuf
    rw [List.suffix_cons_iff] at hsuf
    rcases hsuf with h | hsuf
    · injection h with h h'
      injection h with h1 h2
      subst h1
      exact absurd hl (hnot _ _ _ _ (by simp))
    rw [List.suffix_cons_iff] at hsuf
    rcases hsuf with h | hsuf
    · injection h with h h'
      injection h with h1 h2
      subst h1
      exact absurd hl (hnot _ _ _ _ (by simp))
    rw [List.suffix_cons_iff] at hsuf
    rcases hsuf with h | hsuf
    · injection h with h h'
      subst h'
      refine ⟨4, nestRow ⟨[0, 0], exOwn⟩ 4, ?_, by rw [← h0]; decide +kernel, .inl ⟨?_, hrest⟩⟩
      · rw [← h0]; exact nestRow_some (by decide +kernel)
      · have : (nestRow ⟨[0, 0], exOwn⟩ 4).all (fun c => !c.cont) = true := by decide +kernel
        intro c hc
        simpa using List.all_eq_true.1 this c hc
    rw [List.suffix_cons_iff] at hsuf
    rcases hsuf with h | hsuf
    · injection h with h h'
      cases h
    rw [List.suffix_cons_iff] at hsuf
    rcases hsuf with h | hsuf
    · injection h with h h'
      injection h with h1 h2
      subst h1
      exact absurd hl (hnot _ _ _ _ (by simp))
    · exact absurd hsuf.length_le (by simp)

/-- the first two rows are fields, and the third one is the title of a further figure -/
example : letI := Uni.ascii
    ∃ text, Says [c!"Figure 24: Another"] text ∧ exOwnFig.lo.Splits text ∧ FurtherTitle text (some text) ∧ ¬ c!"note" <+: lower text ∧ ¬ ELLIPSIS <+: lower text := by
  let _ := Uni.ascii
  have hw : Woven [c!"Figure 24: Another"] (c!"Figure 24: Another" ++ []) := .text (w := []) (by simp) _ (.done (w := []) (by simp))
  refine ⟨_, ⟨_, hw, rfl⟩, ?_, .inl ⟨rfl, ⟨[], c!" 24: Another", by decide +kernel⟩⟩, by decide +kernel, by decide +kernel⟩
  show c!"figure 24" <+: lower (strip (c!"Figure 24: Another" ++ []))
  decide +kernel

set_option synthInstance.maxHeartbeats 200000 in
set_option synthInstance.maxSize 2000 in
/-- the run on it, with the extractors of the NVM command set, and without -/
example : letI := Uni.ascii
    ((parseWord exOwnDoc).toOption.bind fun us =>
      (readXml (plainText (renderPage c!"1.0" c!"NVMe" (some c!"2.0") c!"spec" us).1)).map fun p =>
        [envNvm false, envPlain false].map fun env =>
          (entities (parseDoc env p).evs).map (fun e => (e.info.title, e.info.figId, exFields e))) =
    some [[(some c!"Figure 23: One", c!"23", 2), (some c!"Figure 24: Another", c!"24", 1)], [(some c!"Figure 23: One", c!"23", 3)]] := by decide +kernel

/-- a figure with an extractor of its own whose columns are other ones ends the run -/
example : letI := Uni.ascii
    ((parseWord { exNumDoc with root := .elem c!"w:document" [] [.elem c!"w:body" [] [.elem wTbl [] [
        exTr [exCell [exGridSpan "2"] [exPara "Figure 23: One"]], exTr [exHead "1" "Bytes", exHead "1" "Description"]], exNest]] }).toOption.bind fun us =>
      (readXml (plainText (renderPage c!"1.0" c!"NVMe" (some c!"2.0") c!"spec" us).1)).map fun p =>
        [envNvm true, envPlain true].map fun env => (exRan (parseDoc env p), (entities (parseDoc env p).evs).map (·.info.figId))) =
    some [(false, []), (true, [c!"23", c!"9_0_0h", c!"9_0", c!"9"])] := by decide +kernel

end Spex
