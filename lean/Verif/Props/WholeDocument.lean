import Verif.Props.OwnFigures
import Verif.Props.OwnTables
import Mathlib.Data.List.Infix
/-
C80: what becomes of a whole Word document.
-/
set_option autoImplicit false
namespace Spex
section
variable [Uni]

/-! ### Specification -/

/-- What a table of a Word document is for the second stage -/
inductive TableKind where
  /-- a figure -/
  | figure (title fid : Str) (fig : Fig)
  /-- a figure with an extractor of its own -/
  | own (title fid : Str) (fig : OwnFig)
  /-- a figure with an extractor of its own, which does not apply to its columns -/
  | misfit (title fid : Str) (heads : List Str)
  /-- a table below a title without an id -/
  | nameless (title : Str)
  /-- some other table -/
  | plain

/-- the text without its white space -/
def unspaced (s : Str) : Str := s.filter (fun c => !isXmlSpace c)

/-- The Word table is of this kind. A table is taken for a figure if the word `Figure` is in its first row. -/
inductive IsKind (doc : WordDoc) (tbl : LNode) : TableKind → Prop where
  | figure (title fid : Str) (fig : Fig) : TitledFigure doc tbl title fid fig → IsKind doc tbl (.figure title fid fig)
  | own (title fid : Str) (fig : OwnFig) : TitledBy doc tbl title fid → HoldsOwn doc tbl fig → IsKind doc tbl (.own title fid fig)
  | misfit (title fid : Str) (heads : List Str) : TitledBy doc tbl title fid → HasHeads doc tbl heads → IsKind doc tbl (.misfit title fid heads)
  | nameless (top : WCell) (rows : List (List WCell)) (t : Str) : WordTable tbl ([top] :: rows) → ParaCell doc top.tc.node → cellTexts top.tc.node = [t] →
      c!"Figure" <:+: strip t → (∀ fid, ¬ FigureTitle (strip t) fid) → IsKind doc tbl (.nameless (strip t))
  | plain (first : List WCell) (rows : List (List WCell)) : WordTable tbl (first :: rows) → (∀ c ∈ first, ParaCell doc c.tc.node) →
      ¬ c!"Figure" <:+: unspaced (first.flatMap fun c => cellTexts c.tc.node).flatten → IsKind doc tbl .plain

/-- The table `inner` is the first thing which shows in the first cell of the first row of `outer` without a shade of grey: only paragraphs without text which
are no items of lists come before it. -/
def Wraps (doc : WordDoc) (outer inner : LNode) : Prop :=
  ∃ (greys : List WCell) (c : WCell) (others : List WCell) (rows : List (List WCell)) (pre post : List LNode),
    WordTable outer ((greys ++ c :: others) :: rows) ∧ (∀ g ∈ greys, Grey g.tc.node) ∧ ¬ Grey c.tc.node ∧ c.tc.children = pre ++ inner :: post ∧
    inner.node.hasTag wTbl = true ∧ ∀ x ∈ pre, x.node.hasTag wTbl = false ∧ (x.node.hasTag wP = true → ¬ ListItem doc x.node ∧ keptText x.node = [])

/-- What becomes of a Word table depends on what it is, or on the table which it wraps. -/
def TakenFor (doc : WordDoc) (tbl : LNode) (k : TableKind) : Prop := IsKind doc tbl k ∨ ∃ inner, Wraps doc tbl inner ∧ IsKind doc inner k

/-- Whether a figure is read by an extractor of its own depends on its id, and on the title and revision of the document. -/
inductive Suits (key rev : Str) : TableKind → Prop where
  | figure (title fid : Str) (fig : Fig) : ((key, rev), fid) ∉ ownExtractors → Suits key rev (.figure title fid fig)
  | own (title fid : Str) (fig : OwnFig) : (((key, rev), fid), fig.ty, fig.lo) ∈ ownRules → Suits key rev (.own title fid fig)
  | misfit (title fid : Str) (heads : List Str) (ty : StructTy) (lo : Leftover) : (((key, rev), fid), ty, lo) ∈ ownRules →
      ¬ (keyOf ty ∈ heads.map standardName ∧ c!"description" ∈ heads.map standardName) → Suits key rev (.misfit title fid heads)
  | nameless (title : Str) : Suits key rev (.nameless title)
  | plain : Suits key rev .plain

/-- what is to come out of a figure, and whether it can be read -/
inductive FigureOut (ov : List ((Str × Str) × Str)) : TableKind → List Ev → Bool → Prop where
  | figure (title fid : Str) (fig : Fig) (evs : List Ev) (ok : Bool) : FigOut ov ⟨some title, fid, none⟩ fig evs ok → FigureOut ov (.figure title fid fig) evs ok
  | own (title fid : Str) (fig : OwnFig) (evs : List Ev) (ok : Bool) : OwnOut ov ⟨some title, fid, none⟩ fig evs ok → FigureOut ov (.own title fid fig) evs ok

/-- What is to come out of the tables of a Word document: the diagnostics and the entities, in order, and whether the run gets to the end. `k` titles without
an id came before. -/
inductive DocOut (ov : List ((Str × Str) × Str)) (skip : Bool) : Nat → List TableKind → List Ev → Bool → Prop where
  | nil (k : Nat) : DocOut ov skip k [] [] true
  | plain (k : Nat) (ks : List TableKind) (evs : List Ev) (ok : Bool) : DocOut ov skip k ks evs ok → DocOut ov skip k (.plain :: ks) evs ok
  | nameless (k : Nat) (title : Str) (ks : List TableKind) (evs : List Ev) (ok : Bool) : DocOut ov skip (k + 1) ks evs ok →
      DocOut ov skip k (.nameless title :: ks) (.lint (issue .tblFigIdExtractErr (placeholder k) none [(c!"title", .str title)]) :: evs) ok
  | figure (k : Nat) (kind : TableKind) (ks : List TableKind) (own evs : List Ev) (good ok : Bool) :
      FigureOut ov kind own good → (good = true ∨ skip = true) → DocOut ov skip k ks evs ok → DocOut ov skip k (kind :: ks) (own ++ evs) ok
  /-- a figure which cannot be read ends the run -/
  | stop (k : Nat) (kind : TableKind) (ks : List TableKind) (own : List Ev) :
      FigureOut ov kind own false → skip = false → DocOut ov skip k (kind :: ks) own false
  /-- a figure whose own extractor does not apply ends the run in any case -/
  | misfit (k : Nat) (title fid : Str) (heads : List Str) (ks : List TableKind) : DocOut ov skip k (.misfit title fid heads :: ks) (headReports fid heads) false

/-! ### Proof -/

omit [Uni] in
theorem Woven.unspaced {ts : List Str} {w : Str} (h : Woven ts w) : Spex.unspaced w = Spex.unspaced ts.flatten := by
  have hb : ∀ w : Str, (∀ c ∈ w, isXmlSpace c = true) → Spex.unspaced w = [] := by
    intro w hw
    unfold Spex.unspaced
    rw [List.filter_eq_nil_iff]
    intro c hc
    simp [hw c hc]
  unfold Spex.unspaced at hb ⊢
  induction h with
  | done h => rw [hb _ h]; rfl
  | text h t h' ih => rw [List.filter_append, List.filter_append, hb _ h, ih, List.flatten_cons, List.filter_append]; simp

omit [Uni] in
theorem strip_infix (s : Str) : strip s <:+: s := by
  unfold strip
  exact (rstripBy_prefix _ _).isInfix.trans (lstripBy_suffix _ _).isInfix

/-- the first row of a table on the page: its text, and that it is the first row -/
theorem first_row {doc : WordDoc} {cls : Classes} {tbl : LNode} {first : List WCell} {rows : List (List WCell)} (hW : WordTable tbl (first :: rows)) {n : Node}
    (ht : n.Tight) (hs : ShowsTable doc cls (first :: rows) n.clean) (hp : ∀ c ∈ first, ParaCell doc c.tc.node) :
    ∃ tr, n.nthChild tTr 1 = some tr ∧ Woven (first.flatMap fun c => cellTexts c.tc.node) tr.flat ∧ unwrapTable n = n := by
  obtain ⟨tr, ks, ns, a1, a2, a3, a4, a5⟩ := shown_tr hs (i := 0) rfl
  have hown : first.filter (fun c => !c.cont) = first := by
    rw [List.filter_eq_self]
    intro c hc
    rw [hW.first _ rfl c hc]; rfl
  rw [hown] at a5
  have htt := childs_tight ht (List.mem_of_getElem? a1)
  rw [a2] at htt
  have hT : List.Forall₂ (fun x ts => x.isElem = true ∧ ∀ k ∈ ks, k.clean = x → HasTexts ts k) ns (first.map fun c => cellTexts c.tc.node) := by
    rw [List.forall₂_map_right_iff]
    have : List.Forall₂ (fun (x : Node) (c : WCell) => ShowsCell doc cls (first :: rows) 0 c x ∧ x ∈ ns ∧ c ∈ first) ns first := by
      have h1 := a5.flip
      rw [List.forall₂_iff_get] at h1 ⊢
      exact ⟨h1.1, fun i h h' => ⟨h1.2 i h h', List.get_mem _ _, List.get_mem _ _⟩⟩
    refine this.imp fun x c hx => ⟨a4 x hx.2.1, fun k hk hkc => ?_⟩
    exact shownCell_texts (hkc ▸ hx.1) (elem_tights htt k hk) (hp c hx.2.2)
  have hw : Woven (first.map fun c => cellTexts c.tc.node).flatten (Node.flats ks) :=
    cleans_weave a3 (hT.imp fun x ts h => ⟨h.1, fun k hk hc => (h.2 k hk hc).whole⟩)
  refine ⟨tr, a1, by rw [a2, Node.flat, List.flatMap_def]; exact hw, ?_⟩
  unfold unwrapTable
  have e1 : n.nthChild tTr 1 = some tr := a1
  rw [e1, Option.bind_some]
  cases h2 : tr.nthChild tTd 1 with
  | none => rfl
  | some td =>
    have hm : td ∈ tr.childs tTd := List.mem_of_getElem? h2
    have hk : td ∈ ks := by rw [a2] at hm; exact (List.mem_filter.1 hm).1
    have hel : td.isElem = true := by
      obtain ⟨as, kk, rfl⟩ := hasTag_elem.1 (List.mem_filter.1 hm).2
      rfl
    have hc : td.clean ∈ ns := by
      rw [← cleans_elems a3 a4]
      exact List.mem_map_of_mem (List.mem_filter.2 ⟨hk, hel⟩)
    obtain ⟨i, hi⟩ := List.getElem?_of_mem hc
    rw [List.forall₂_iff_get] at hT
    obtain ⟨hi', hie⟩ := List.getElem?_eq_some_iff.1 hi
    have := (hT.2 i hi' (hT.1 ▸ hi')).2 td hk hie.symm
    rw [Option.bind_some]
    cases h3 : td.elems.head? with
    | none => rfl
    | some inner =>
      have hm := List.mem_of_head? h3
      have hp := this.only inner hm
      have : inner.hasTag tTable = false := by
        obtain ⟨as, kk, rfl⟩ := hasTag_elem.1 hp
        simp [Node.hasTag, tTable]
      simp only [this]
      rfl

/-- a table without a title -/
theorem plain_run {doc : WordDoc} {cls : Classes} {tbl : LNode} {first : List WCell} {rows : List (List WCell)} (hW : WordTable tbl (first :: rows))
    (hp : ∀ c ∈ first, ParaCell doc c.tc.node) (hf : ¬ c!"Figure" <:+: unspaced (first.flatMap fun c => cellTexts c.tc.node).flatten) {n : Node}
    (ht : n.Tight) (hs : ShowsTable doc cls (first :: rows) n.clean) (env : Env) (k : Nat) :
    runTable env k n = ⟨[], false, .ok ()⟩ ∧ untitledId n = none := by
  obtain ⟨tr, h1, h2, h3⟩ := first_row hW ht hs hp
  have hno : figureTitle tr = none := by
    cases hq : figureTitle tr with
    | none => rfl
    | some title =>
      obtain ⟨e1, a, b, e2⟩ := (C62_title tr title).1 hq
      refine absurd ?_ hf
      rw [← h2.unspaced]
      have hi0 : c!"Figure" <:+: strip tr.flat := ⟨a, b, by rw [← e2, e1]⟩
      have hi := hi0.trans (strip_infix _)
      obtain ⟨u, v, huv⟩ := hi
      rw [← huv]
      unfold unspaced
      rw [List.filter_append, List.filter_append]
      exact ⟨_, _, rfl⟩
  constructor
  · unfold runTable
    rw [parseTables]
    simp only [h3, h1, hno]
    rfl
  · unfold untitledId
    simp only [h3, h1, hno]

/-- a table below a title without an id -/
theorem nameless_run {doc : WordDoc} {cls : Classes} {tbl : LNode} {top : WCell} {rows : List (List WCell)} {t : Str} (hW : WordTable tbl ([top] :: rows))
    (hp : ParaCell doc top.tc.node) (hc : cellTexts top.tc.node = [t]) (hf : c!"Figure" <:+: strip t) (hn : ∀ fid, ¬ FigureTitle (strip t) fid) {n : Node}
    (ht : n.Tight) (hs : ShowsTable doc cls ([top] :: rows) n.clean) (env : Env) (k : Nat) :
    runTable env k n = ⟨[.lint (issue .tblFigIdExtractErr (placeholder k) none [(c!"title", .str (strip t))])], false, .ok ()⟩ ∧
      (untitledId n).isSome = true := by
  obtain ⟨tr0, ks0, ns0, a1, a2, a3, a4, a5⟩ := shown_tr hs (i := 0) rfl
  have hown : ([top].filter (fun c => !c.cont)) = [top] := by
    rw [List.filter_cons_of_pos (by rw [hW.first _ rfl top (by simp)]; rfl)]; rfl
  rw [hown] at a5
  obtain ⟨e1, e2⟩ := title_row a1 a2 a3 a4 a5 ht hp hc
  obtain ⟨a, b, hab⟩ := hf
  have t1 : figureTitle tr0 = some (strip t) := (C62_title tr0 _).2 ⟨by rw [← e1]; rfl, a, b, hab.symm⟩
  have t2 : figureId (strip t) = none := by
    cases hq : figureId (strip t) with
    | none => rfl
    | some fid => exact absurd ((C62_figure_id _ fid).1 hq) (hn fid)
  have e3 : n.nthChild tTr 1 = some tr0 := a1
  constructor
  · unfold runTable
    rw [parseTables]
    simp only [e2, e3, t1, t2]
    rw [addIssue_none (by simp [figIdMissing]) (by decide), M.bind_run, M.emit_run]
    simp only [parseTables, M.pure_run]
    rfl
  · unfold untitledId
    simp only [e2, e3, t1, t2]
    rfl

/-- the table which comes first in a cell -/
theorem parseAny_lead {doc : WordDoc} {inner : LNode} (hi : inner.node.hasTag wTbl = true) {post : List LNode} : ∀ {pre : List LNode}
    (_ : ∀ x ∈ pre, x.node.hasTag wTbl = false ∧ (x.node.hasTag wP = true → ¬ ListItem doc x.node ∧ keptText x.node = [])) {fuel : Nat} {seen seen' : Seen}
    {us : List HUnit} (_ : parseAny doc fuel (pre ++ inner :: post) seen = .ok (us, seen')) (_ : inner.path ∉ seen),
    ∃ fuel' v us' s1, us = v :: us' ∧ parseTable doc fuel' inner seen = .ok ([v], s1) ∧ ∃ src id rs, v = .table src id rs := by
  intro pre
  induction pre with
  | nil =>
    intro _ fuel seen seen' us hp hs
    cases fuel with
    | zero => rw [parseAny] at hp; cases hp
    | succ fuel =>
      rw [List.nil_append, parseAny, if_pos hi] at hp
      obtain ⟨⟨t, s1⟩, g1, hp⟩ := except_bind_ok hp
      obtain ⟨⟨us', s2⟩, g2, hp⟩ := except_bind_ok hp
      cases hp
      have hone : ∃ v, t = [v] ∧ ∃ src id rs, v = .table src id rs := by
        cases fuel with
        | zero => rw [parseTable] at g1; cases g1
        | succ fuel =>
          rw [parseTable, if_pos hi, if_neg hs] at g1
          obtain ⟨g, -, g1⟩ := except_bind_ok g1
          obtain ⟨r, -, g1⟩ := except_bind_ok g1
          cases g1
          exact ⟨_, rfl, _, _, _, rfl⟩
      obtain ⟨v, rfl, hv⟩ := hone
      exact ⟨fuel, v, us', s1, rfl, g1, hv⟩
  | cons x pre ih =>
    intro hpre fuel seen seen' us hp hs
    have ih := @ih (fun y hy => hpre y (List.mem_cons_of_mem _ hy))
    obtain ⟨h1, h2⟩ := hpre x List.mem_cons_self
    cases fuel with
    | zero => rw [parseAny] at hp; cases hp
    | succ fuel =>
      rw [List.cons_append, parseAny, if_neg (by rw [h1]; decide)] at hp
      by_cases hw : x.node.hasTag wP = true
      · obtain ⟨h3, h4⟩ := h2 hw
        rw [if_pos hw] at hp
        obtain ⟨b, g1, hp⟩ := except_bind_ok hp
        rw [isListPara_no g1 h3, if_neg (by decide)] at hp
        obtain ⟨ps, g2, hp⟩ := except_bind_ok hp
        obtain ⟨⟨us', s'⟩, g3, hp⟩ := except_bind_ok hp
        cases hp
        obtain ⟨spans, g4, g5, g6⟩ := C50_paragraph_kept g2
        have g7 := C50_kept_exact g4
        have hnil : spans = [] := by
          cases spans with
          | nil => rfl
          | cons s ss =>
            refine absurd ?_ (g5 s List.mem_cons_self)
            rw [h4] at g7
            unfold spansText at g7
            rw [List.flatMap_cons] at g7
            exact (List.append_eq_nil_iff.1 g7).1
        rw [if_pos hnil] at g6
        rw [g6, List.nil_append]
        exact ih g3 hs
      · rw [if_neg hw] at hp
        exact ih hp hs

/-- the table which another one wraps, on the page -/
theorem wraps_run {doc : WordDoc} {cls : Classes} {outer inner : LNode} (h : Wraps doc outer inner) {n : Node} (ht : n.Tight)
    (hs : ∀ rows, WordTable outer rows → ShowsTable doc cls rows n.clean) :
    (unwrapTable n).Tight ∧ ∀ rows, WordTable inner rows → ShowsTable doc cls rows (unwrapTable n).clean := by
  obtain ⟨greys, c, others, rows, pre, post, hW, hg, hc, hch, hi, hpre⟩ := h
  obtain ⟨tr, ks, ns, a1, a2, a3, a4, a5⟩ := shown_tr (hs _ hW) (i := 0) rfl
  have hown : (greys ++ c :: others).filter (fun c => !c.cont) = greys ++ c :: others := by
    rw [List.filter_eq_self]
    intro c hc
    rw [hW.first _ rfl c hc]; rfl
  rw [hown] at a5
  have htt := childs_tight ht (List.mem_of_getElem? a1)
  have hel := cleans_elems a3 a4
  have a6 : List.Forall₂ (fun (x : WCell) (e : Node) => ShowsCell doc cls ((greys ++ c :: others) :: rows) 0 x e.clean) (greys ++ c :: others) tr.elems := by
    rw [← hel] at a5
    rw [a2]
    exact List.forall₂_map_right_iff.1 a5
  have tag : ∀ {x : WCell} {e : Node}, ShowsCell doc cls ((greys ++ c :: others) :: rows) 0 x e.clean →
      (Grey x.tc.node → e.hasTag tTd = false) ∧ (¬ Grey x.tc.node → e.hasTag tTd = true) := by
    rintro x e ⟨tag, fill, hh, elems, hf, htag, -, -, he⟩
    obtain ⟨t1, t2⟩ := tag_grey hf htag
    rw [← hasTag_clean, he]
    exact ⟨fun h => by rw [t1 h]; simp [Node.hasTag, tTd], fun h => by rw [t2 h]; simp [Node.hasTag, tTd]⟩
  have b1 := (List.forall₂_take_append _ _ _ a6.flip).flip
  have b2 := (List.forall₂_drop_append _ _ _ a6.flip).flip
  have hsplit := List.take_append_drop greys.length tr.elems
  generalize tr.elems.take greys.length = e1 at b1 hsplit
  generalize tr.elems.drop greys.length = e2 at b2 hsplit
  cases b2 with
  | @cons _ td _ e3 hc' h3 =>
    have hnone : e1.filter (Node.hasTag tTd) = [] := by
      rw [List.filter_eq_nil_iff]
      intro e he
      obtain ⟨x, hx, hxe⟩ := forall2_right b1 he
      rw [(tag hxe).1 (hg x hx)]
      decide
    have htd : tr.childs tTd = td :: e3.filter (Node.hasTag tTd) := by
      rw [childs_elems, ← hsplit, List.filter_append, hnone, List.nil_append, List.filter_cons_of_pos ((tag hc').2 hc)]
    have hmem : td ∈ tr.childs tTd := by rw [htd]; exact List.mem_cons_self
    have htdt := childs_tight htt hmem
    obtain ⟨tg, fill, hh, elems, -, htag, -, ⟨fuel, s1, s2, hp, hfr⟩, he⟩ := hc'
    have hip : ∀ p ∈ s1, ¬ inner.path <+: p := by
      intro p hp hpre
      have hm : inner ∈ c.tc.children := by rw [hch]; simp
      obtain ⟨j, hj, -⟩ := children_path hm
      refine hfr p hp (List.IsPrefix.trans ?_ hpre)
      rw [hj]; exact List.prefix_append _ _
    rw [hch] at hp
    obtain ⟨fuel', v, us', s3, rfl, g1, src, id, rs, hv⟩ := parseAny_lead hi hpre hp (fun hs => hip _ hs (List.prefix_refl _))
    obtain ⟨kk, rfl⟩ := clean_elem he
    have hleaf : isLeafTag tg = false := by
      rcases htag with ⟨rfl, -⟩ | ⟨rfl, -⟩ <;> decide
    rw [Node.clean, hleaf, if_neg (by decide)] at he
    have hcl := (Node.elem.inj he).2.2
    rw [unitNodes] at hcl
    obtain ⟨pre', k, post', rfl, e4, e5, e6⟩ := cleans_cons_inv hcl (by rw [hv, unitNode]; rfl)
    have hkt : k.hasTag tTable = true := by
      rw [hv, unitNode] at e4
      obtain ⟨kk, rfl⟩ := clean_elem e4
      simp [Node.hasTag, tTable]
    have hun : unwrapTable n = k := by
      unfold unwrapTable
      have q1 : n.nthChild tTr 1 = some tr := a1
      have q2 : tr.nthChild tTd 1 = some (.elem tg (cellAttrs c.span hh (fill.bind cls.cell)) (pre' ++ k :: post')) := by
        unfold Node.nthChild
        rw [htd]; rfl
      have q3 : (Node.elem tg (cellAttrs c.span hh (fill.bind cls.cell)) (pre' ++ k :: post')).elems.head? = some k := by
        show ((pre' ++ k :: post').filter Node.isElem).head? = some k
        have : pre'.filter Node.isElem = [] := by
          rw [List.filter_eq_nil_iff]
          intro x hx
          obtain ⟨w, rfl, -⟩ := e6 x hx
          simp [Node.isElem]
        rw [List.filter_append, this, List.nil_append, List.filter_cons_of_pos (hasTag_isElem hkt)]
        rfl
      rw [q1, Option.bind_some, q2, Option.bind_some, q3]
      simp only [hkt, if_true]
    rw [hun]
    exact ⟨elem_tights htdt k (by simp), fun rows hW => by rw [e4]; exact table_shown cls hW g1 hip⟩

theorem run_unwrapped (env : Env) (k : Nat) {n m : Node} (h : unwrapTable n = unwrapTable m) :
    runTable env k n = runTable env k m ∧ untitledId n = untitledId m := by
  constructor
  · unfold runTable
    rw [parseTables, h]
    conv => rhs; rw [parseTables]
  · unfold untitledId
    rw [h]

/-- a table of one of the kinds does not wrap another one -/
theorem IsKind.unwrapped {doc : WordDoc} {cls : Classes} {tbl : LNode} {kind : TableKind} (h : IsKind doc tbl kind) {n : Node} (ht : n.Tight)
    (hs : ∀ rows, WordTable tbl rows → ShowsTable doc cls rows n.clean) : unwrapTable n = n := by
  have key : ∀ {title fid : Str}, TitledBy doc tbl title fid → unwrapTable n = n := by
    rintro title fid ⟨top, rows, t, hW, hp, -⟩
    obtain ⟨-, -, -, h⟩ := first_row hW ht (hs _ hW) (by intro c hc; rw [List.mem_singleton.1 hc]; exact hp)
    exact h
  cases h with
  | figure title fid fig hF => exact key hF.2
  | own title fid fig hT => exact key hT
  | misfit title fid heads hT => exact key hT
  | nameless top rows t hW hp =>
    obtain ⟨-, -, -, h⟩ := first_row hW ht (hs _ hW) (by intro c hc; rw [List.mem_singleton.1 hc]; exact hp)
    exact h
  | plain first rows hW hp =>
    obtain ⟨-, -, -, h⟩ := first_row hW ht (hs _ hW) hp
    exact h

/-- all tables of the page -/
theorem tables_run {doc : WordDoc} {cls : Classes} {env : Env} {key rev : Str} {skip : Bool} (henv : env = getParser key rev skip) {ts : List LNode}
    {kinds : List TableKind} (hk : List.Forall₂ (TakenFor doc) ts kinds) (hlk : ∀ kind ∈ kinds, Suits key rev kind) {ns : List Node}
    (hn : List.Forall₂ (fun (n : Node) (t : LNode) => n.Tight ∧ ∀ rows, WordTable t rows → ShowsTable doc cls rows n.clean) ns ts) (k : Nat) :
    ∃ evs ok, DocOut env.labelOverrides env.skip k kinds evs ok ∧ (parseTables env k ns false).evs = evs ∧
      ((parseTables env k ns false).out = .ok () ↔ ok = true) := by
  have hov : ∀ p ∈ env.overrides, '_' ∉ p.1 := by rw [henv]; exact (plain_overrides key rev skip).1
  induction hk generalizing ns k with
  | nil =>
    cases hn
    exact ⟨_, _, .nil k, rfl, by simp [parseTables, M.pure_run]⟩
  | @cons t kind ts kinds hkind hks ih =>
    cases hn with
    | @cons n _ ns _ h1 h2 =>
      obtain ⟨p1, p2⟩ := parseTables_cons env n ns k
      have ih := fun k => ih (fun kind h => hlk kind (List.mem_cons_of_mem _ h)) h2 k
      have hsu := hlk kind List.mem_cons_self
      obtain ⟨m, u, hkind, h1, r1, r2⟩ : ∃ (m : Node) (u : LNode), IsKind doc u kind ∧ (m.Tight ∧ ∀ rows, WordTable u rows → ShowsTable doc cls rows m.clean) ∧
          runTable env k n = runTable env k m ∧ untitledId n = untitledId m := by
        rcases hkind with hkind | ⟨inner, hw, hkind⟩
        · exact ⟨n, t, hkind, h1, rfl, rfl⟩
        · have hsh := wraps_run hw h1.1 h1.2
          have := run_unwrapped env k (n := n) (m := unwrapTable n) (hkind.unwrapped hsh.1 hsh.2).symm
          exact ⟨unwrapTable n, inner, hkind, hsh, this.1, this.2⟩
      rw [r1, r2] at p1 p2
      clear r1 r2
      have figs : untitledId m = none → ∀ {title fid : Str} {own : List Ev} {good : Bool}, FigureOut env.labelOverrides kind own good →
          (∀ k, Ran env ⟨some title, fid, none⟩ own good (runTable env k m)) →
          ∃ evs ok, DocOut env.labelOverrides env.skip k (kind :: kinds) evs ok ∧ (parseTables env k (n :: ns) false).evs = evs ∧
            ((parseTables env k (n :: ns) false).out = .ok () ↔ ok = true) := by
        intro hu title fid own good r1 r2
        rw [hu] at p1 p2
        have r2 := r2 k
        have goes : (good = true ∨ env.skip = true) → (runTable env k m).evs = own → (runTable env k m).out = .ok () →
            ∃ evs ok, DocOut env.labelOverrides env.skip k (kind :: kinds) evs ok ∧ (parseTables env k (n :: ns) false).evs = evs ∧
              ((parseTables env k (n :: ns) false).out = .ok () ↔ ok = true) := by
          intro hg he ho
          rw [ho] at p1 p2
          rw [he] at p1
          obtain ⟨evs, ok, q1, q2, q3⟩ := ih k
          refine ⟨_, _, .figure k _ _ _ _ _ _ r1 hg q1, ?_, ?_⟩
          · rw [p1, ← q2]; rfl
          · rw [p2, ← q3]; exact Iff.rfl
        cases good with
        | true =>
          have r2' : runTable env k m = ⟨own, false, .ok ()⟩ := r2
          exact goes (.inl rfl) (by rw [r2']) (by rw [r2'])
        | false =>
          rcases r2 with ⟨hs, e, r2⟩ | ⟨hs, r2⟩
          · rw [r2] at p1 p2
            refine ⟨_, _, .stop k _ _ _ r1 ?_, ?_, ?_⟩
            · cases hsk : env.skip with
              | false => rfl
              | true => rw [hsk] at hs; simp at hs
            · rw [p1]; simp
            · rw [p2]; simp
          · refine goes (.inr ?_) (by rw [r2]) (by rw [r2])
            cases hsk : env.skip with
            | true => rfl
            | false => rw [hsk] at hs; simp at hs
      cases hkind with
      | plain first rows hW hp hf =>
        obtain ⟨r1, r2⟩ := plain_run hW hp hf h1.1 (h1.2 _ hW) env k
        rw [r1, r2] at p1 p2
        obtain ⟨evs, ok, q1, q2, q3⟩ := ih k
        refine ⟨_, _, .plain k _ _ _ q1, ?_, ?_⟩
        · rw [p1, ← q2]; rfl
        · rw [p2, ← q3]; exact Iff.rfl
      | nameless top rows t' hW hp hc hf hno =>
        obtain ⟨r1, r2⟩ := nameless_run hW hp hc hf hno h1.1 (h1.2 _ hW) env k
        rw [r1, r2] at p1 p2
        obtain ⟨evs, ok, q1, q2, q3⟩ := ih (k + 1)
        refine ⟨_, _, .nameless k _ _ _ _ q1, ?_, ?_⟩
        · rw [p1, ← q2]; rfl
        · rw [p2, ← q3]; exact Iff.rfl
      | figure title fid fig hF =>
        cases hsu with
        | figure _ _ _ hno =>
          obtain ⟨own, good, r1, r2⟩ := titled_nest hov hF h1.1 h1.2 (by rw [henv]; exact no_override hno _)
          exact figs (titled_run hF.2 h1.1 h1.2).2.1 (.figure _ _ _ _ _ r1) r2
      | own title fid fig hT hO =>
        cases hsu with
        | own _ _ _ hin =>
          obtain ⟨c, c1, c2, c3, c4, c5, c6, c7⟩ := ownRules_lookup hin skip
          rw [← henv] at c1 c7
          obtain ⟨own, good, r1, r2⟩ := own_nest hov hO hT h1.1 h1.2 c1 ⟨c2, c3, c4, c5⟩ c6 c7
          exact figs (titled_run hT h1.1 h1.2).2.1 (.own _ _ _ _ _ r1) r2
      | misfit title fid heads hT hH =>
        cases hsu with
        | misfit _ _ _ ty lo hin hno =>
          obtain ⟨c, c1, -, c3, c4, c5, -⟩ := ownRules_lookup hin skip
          rw [← henv] at c1
          obtain ⟨e, fl, r1⟩ := misfit_run hH hT h1.1 h1.2 c1 ⟨c3, c4, c5⟩ hno k
          rw [(titled_run hT h1.1 h1.2).2.1, r1] at p1 p2
          refine ⟨_, _, .misfit k _ _ _ _, ?_, ?_⟩
          · rw [p1]; simp
          · rw [p2]; simp

/-- the tables of the page, for the tables of the Word document which are tables of their own -/
theorem own_page {f : WordFile} {stem : Str} {doc : WordDoc} {header : Str} {us : List HUnit} (h : Readable f stem doc header us)
    {layout : List Piece → Str} (hl : ∀ ps, Laid ps (layout ps)) {unzip : Str → WordFile} {bytes : Str} (hb : unzip bytes = f) (hreg : Regular doc) {ts : List LNode}
    (hts : OwnTables doc ts) :
    ∃ (page css : Str) (root : Node) (cls : Classes), (stageTools unzip layout).docx stem bytes = .ok (page, css) ∧
      (stageTools unzip layout).xml page = .ok root ∧
      (∀ r, headerRevision header = some r → Stated root (lower (headerTitle header)) (lower r)) ∧
      List.Forall₂ (fun (n : Node) (t : LNode) => n.Tight ∧ ∀ rows, WordTable t rows → ShowsTable doc cls rows n.clean) (figures root) ts := by
  have hok := parseWord_ok h.text h.tables
  obtain ⟨page, css, root, g1, g2, g3⟩ := h.read hl unzip bytes hb
  have hrt : root.Tight := by
    obtain ⟨css', hs⟩ := h.stage false
    have e1 : page = layout (renderPage spexVersion (headerTitle header) (headerRevision header) stem us).1 := by
      simp only [stageTools, hb, hs] at g1
      injection g1 with g1
      exact (Prod.mk.inj g1).1.symm
    have e2 : readXml page = some root := by
      simp only [stageTools] at g2
      cases hq : readXml page with
      | none => rw [hq] at g2; cases g2
      | some n => rw [hq] at g2; injection g2 with g2; rw [g2]
    exact page_tight headText_version h.title h.revision h.name hok (e1 ▸ hl _) e2
  refine ⟨page, css, root, classesOf (renderPage spexVersion (headerTitle header) (headerRevision header) stem us).2, g1, g2, fun r hr => ?_, ?_⟩
  · obtain ⟨m1, m2⟩ := metaAttr_page g3
    rw [hr] at m2
    refine ⟨headerTitle header, r, ?_, ?_, rfl, rfl⟩
    · unfold metaAttr at m1; split at m1
      · cases m1
      · cases m1; assumption
    · unfold metaAttr at m2; split at m2
      · cases m2
      · cases m2; assumption
  · have hc := (figures_clean g3).trans (unitNodes_tables (parseWord_tables h.tables))
    have hsrc := C80_own_tables_partial h.tables hreg hts
    have hlen : (figures root).length = us.length := by
      have := congrArg List.length hc
      simpa using this
    have hlen' : us.length = ts.length := by
      have := congrArg List.length hsrc
      simpa using this
    rw [List.forall₂_iff_get]
    refine ⟨hlen.trans hlen', fun i h1 h2 => ?_⟩
    have hnt : ((figures root).get ⟨i, h1⟩).Tight := by
      obtain ⟨b, hb, hnb⟩ := List.mem_flatMap.1 (List.get_mem (figures root) ⟨i, h1⟩)
      exact childs_tight (childs_tight hrt hb) hnb
    have hu : i < us.length := hlen ▸ h1
    have e1 : ((figures root).get ⟨i, h1⟩).clean = unitNode (classesOf (renderPage spexVersion (headerTitle header) (headerRevision header) stem us).2) us[i] := by
      have := congrArg (·[i]?) hc
      simp only [List.getElem?_map, List.getElem?_eq_getElem h1, List.getElem?_eq_getElem hu, Option.map_some, Option.some.injEq] at this
      exact this
    have e2 : us[i].src = (ts.get ⟨i, h2⟩).path := by
      have := congrArg (·[i]?) hsrc
      simp only [List.getElem?_map, List.getElem?_eq_getElem h2, List.getElem?_eq_getElem hu, Option.map_some, Option.some.injEq] at this
      exact this
    have hsh : us[i] ∈ shownUnits us := by
      obtain ⟨src, id, rows, hv⟩ := parseWord_tables h.tables _ (List.getElem_mem hu)
      obtain ⟨a, b, hab⟩ := List.append_of_mem (List.getElem_mem hu)
      rw [hv] at hab ⊢
      rw [hab, shownUnits_append, List.mem_append]
      right
      rw [shownUnits, HUnit.shown]
      simp
    obtain ⟨tbl', fuel', s1, s2, q1, q2, q3, q4⟩ := parseWord_from h.tables _ hsh
    have : tbl' = ts.get ⟨i, h2⟩ := (mem_docTables.1 q1).1.unique (mem_docTables.1 (hts.order.subset (List.get_mem ts ⟨i, h2⟩))).1 (by rw [← q2, e2])
    subst this
    exact ⟨hnt, fun rows hW => by rw [e1]; exact table_shown _ hW q3 q4⟩

/-! ### C80 -/

/-- **C80** A whole Word document through both stages: the run makes just one pass over the tables which do not stand in a cell of another one, in the order of the
document. A table which shows first in another one is taken in its place. Tables without the word `Figure` in the first row give nothing; titles without an id are reported with numbered placeholders; and of each figure comes what is to
come of it (C78), up to the first one which cannot be read, unless such figures are to be passed over. The JSON file has the title and revision of the header of the Word
document, all the entities in this order, and, if the run ends well, all the diagnostics but the ignored ones. The run ends well just if all figures can be read, or
errors in figures are to be passed over. A figure which has an extractor of its own for this specification and revision goes by
its rules instead: the row which gives the title of a further figure starts a figure of its own (`OwnOut`); with other columns it ends the run in any case.
It is `partial`, as it is for documents where all merges are rectangular and all tables on their own are of one of the kinds above or wrap such a table. -/
theorem C80_whole_document_partial {f : WordFile} {stem : Str} {doc : WordDoc} {header : Str} {us : List HUnit} (h : Readable f stem doc header us)
    {layout : List Piece → Str} (hl : ∀ ps, Laid ps (layout ps)) {unzip : Str → WordFile} {bytes : Str} (hb : unzip bytes = f)
    {w : Files} {s : FPath} (h1 : stem ≠ []) (h2 : s.name = stem ++ c!".docx") (h3 : w s = some bytes) (o : Opts)
    {r : Str} (hr : headerRevision header = some r) (hreg : Regular doc) {ts : List LNode} (hts : OwnTables doc ts) {kinds : List TableKind}
    (hk : List.Forall₂ (TakenFor doc) ts kinds) (hlk : ∀ kind ∈ kinds, Suits (lower (headerTitle header)) (lower r) kind) :
    ∃ evs ok text, DocOut (labelsFor (lower (headerTitle header)) (lower r)) o.skip 0 kinds evs ok ∧
      (runSpec (stageTools unzip layout) o w s).1 ⟨o.out, stem ++ c!".json"⟩ = some text ∧
      readJson text = some (modelJson (openedInfo (lower (headerTitle header)) (lower r) ++ (if ok then
          [(c!"lint", .arr (((allDiagnostics evs).filter (fun l => ∀ c ∈ o.ignore, l.err.code ≠ c.code)).map LintEntry.toJson))] else []))
        ((entities evs).map Entity.toJson)) ∧
      ((runSpec (stageTools unzip layout) o w s).2 = .ok ⟨o.out, stem ++ c!".json"⟩ ↔ ok = true) := by
  obtain ⟨page, css, root, cls, g1, g2, g3, g4⟩ := own_page h hl hb hreg hts
  have hst := g3 r hr
  obtain ⟨k1, k2⟩ := runSpec_docx o h1 h2 h3 g1
  rw [g2] at k1 k2
  obtain ⟨-, p2⟩ := plain_overrides (lower (headerTitle header)) (lower r) o.skip
  obtain ⟨evs, ok, q1, q2, q3⟩ := tables_run (cls := cls) rfl hk hlk g4 0
  rw [p2, labelsFor_eq] at q1
  have q2' : (runOf o.skip root (lower (headerTitle header)) (lower r)).evs = evs := q2
  have q3' : (runOf o.skip root (lower (headerTitle header)) (lower r)).out = .ok () ↔ ok = true := q3
  rcases run_cases o (.ok root) with ⟨root', j, c1, ⟨key, rev, c2, c3, c4⟩, c5, c6⟩ | ⟨c1, e, c2⟩
  · cases c1
    obtain ⟨rfl, rfl⟩ := hst.unique c2
    have hok := q3'.1 c3
    subst hok
    refine ⟨evs, true, _, q1, k1, ?_, ?_⟩
    · rw [c6, C61_roundtrip, c4, q2']; rfl
    · rw [k2, c5]; simp
  · obtain ⟨-, ⟨-, c3⟩ | ⟨root', key, rev, c3, c4, c5, c6⟩⟩ := C35_failure o.ignore o.skip false (.ok root) e c2
    · exact absurd ⟨root, _, _, rfl, hst⟩ c3
    · cases c3
      obtain ⟨rfl, rfl⟩ := hst.unique c4
      have hok : ok = false := by
        cases ok with
        | false => rfl
        | true => rw [q3'.2 rfl] at c5; cases c5
      subst hok
      refine ⟨evs, false, _, q1, k1, ?_, ?_⟩
      · rw [c6, q2']; simp
      · rw [k2, c2]; simp

end

/-! ### Examples -/

def exWholePlain : Node := .elem wTbl [] [
  exTr [exCell [] [exPara "Term"], exCell [] [exPara "Meaning"]], exTr [exCell [] [exPara "Fig"], exCell [] [exPara "Short for Figure"]]]
def exWholeNone : Node := .elem wTbl [] [
  exTr [exCell [exGridSpan "2"] [exPara "Figure: No number"]], exTr [exHead "1" "Bits", exHead "1" "Description"]]
def exWholeNone2 : Node := .elem wTbl [] [exTr [exCell [exGridSpan "2"] [exPara "Figure: None either"]]]

/-- a table which wraps another one, beside a grey cell and below a paragraph without text -/
def exWholeWrap : Node := .elem wTbl [] [exTr [exHead "1" "Beside", exCell [] [exPara "", exWholeNone2, exPara "Below"]]]

/-- a document with a figure which has others inside, a table without a title, and two tables below titles without ids, where the second one is wrapped -/
def exWholeDoc : WordDoc := { exNumDoc with root := .elem c!"w:document" [] [.elem c!"w:body" [] [
  exNest, exPara "Some text", exWholePlain, exWholeNone, exWholeWrap]] }

def exWholeOwn : List LNode := (docTables exWholeDoc.root).filter (fun t => t.path.length == 2)

def exOwned (t : LNode) : Bool :=
  (docTables exWholeDoc.root).any fun s => exUnmerged s && (nestRows s).flatten.any fun c =>
    !c.cont && c.tc.children.any fun x => x.path == t.path && x.node.hasTag wTbl

theorem exWhole_regular : letI := Uni.ascii
    Regular exWholeDoc := by
  let _ := Uni.ascii
  have h : (docTables exWholeDoc.root).all exUnmerged = true := by decide +kernel
  exact fun t ht => ⟨_, nestRows_table (List.all_eq_true.1 h t ht)⟩

theorem exWhole_own : letI := Uni.ascii
    OwnTables exWholeDoc exWholeOwn := by
  let _ := Uni.ascii
  have h : ((docTables exWholeDoc.root).filter (fun t => !(t.path.length == 2))).all exOwned = true := by decide +kernel
  have hpos : (docTables exWholeDoc.root).all (fun s => decide (2 ≤ s.path.length)) = true := by decide +kernel
  refine ⟨List.filter_sublist, fun t ht => ⟨fun hm s hs hin => ?_, fun hno => ?_⟩⟩
  · obtain ⟨⟨d, hd⟩, hne⟩ := hin.path
    have h2 := eq_of_beq (List.mem_filter.1 hm).2
    have h3 := of_decide_eq_true (List.all_eq_true.1 hpos s hs)
    rw [← hd, List.length_append] at h2
    have : d = [] := List.length_eq_zero_iff.1 (by omega)
    subst this
    exact hne (by rw [← hd, List.append_nil])
  · refine List.mem_filter.2 ⟨ht, ?_⟩
    by_cases hl : (t.path.length == 2) = true
    · exact hl
    · have := List.all_eq_true.1 h t (List.mem_filter.2 ⟨ht, by simpa using hl⟩)
      unfold exOwned at this
      simp only [List.any_eq_true, Bool.and_eq_true, Bool.not_eq_true', beq_iff_eq] at this
      obtain ⟨s, hs, hu, c, hc, hcc, x, hx, hxp, hxt⟩ := this
      have hW := nestRows_table hu
      have hxd : InDoc exWholeDoc.root x := by
        obtain ⟨row, hrow, hcr⟩ := List.mem_flatten.1 hc
        have h1 : row.map (·.tc) ∈ (s.childs wTr).map (·.childs wTc) := by rw [hW.source]; exact List.mem_map_of_mem hrow
        obtain ⟨tr, htr, he⟩ := List.mem_map.1 h1
        have h2 : c.tc ∈ tr.childs wTc := by rw [he]; exact List.mem_map_of_mem hcr
        exact (((mem_docTables.1 hs).1.child (mem_childs htr).1).child (mem_childs h2).1).child hx
      have : x = t := hxd.unique (mem_docTables.1 ht).1 hxp
      subst this
      exact absurd ⟨_, c, hW, hc, hcc, hx, hxt⟩ (hno s hs)

/-- which figures have extractors of their own depends on the specification, the revision and the id -/
example : letI := Uni.ascii
    Suits c!"nvm express® nvm command set specification" c!"1.0c" (.own c!"Figure 23: One" c!"23" exOwnFig) ∧
      Suits c!"nvm express® nvm command set specification" c!"1.0c" (.misfit c!"Figure 23: One" c!"23" [c!"bytes", c!"description"]) ∧
      Suits c!"nvm express® nvm command set specification" c!"1.0d" (.figure c!"Figure 23: One" c!"23" (.other [c!"bytes", c!"description"])) ∧
      Suits c!"nvm express® nvm command set specification" c!"1.0c" (.figure c!"Figure 24: One" c!"24" (.other [])) := by
  let _ := Uni.ascii
  refine ⟨.own _ _ _ (by unfold ownRules; exact .head _), .misfit _ _ _ .bits (.heading c!"figure 24" c!"24") (by unfold ownRules; exact .head _) (by decide +kernel), .figure _ _ _ (by decide +kernel), .figure _ _ _ (by decide +kernel)⟩

/-- the figure of the example -/
theorem exWhole_figure : letI := Uni.ascii
    TitledFigure exWholeDoc ⟨[0, 0], exNest⟩ c!"Figure 9: Nest" c!"9" exNestFig := by
  let _ := Uni.ascii
  refine ⟨nest_layout 1 2 (by decide +kernel) ⟨c!"bytes", .bytes (by decide) (by decide), readPos_of (by decide +kernel), readPos_of (by decide +kernel), readPos_of (by decide +kernel)⟩
      (nest_rows 60 (by decide +kernel) (by decide +kernel)
        (nest_one (by decide +kernel) (nest_values 0 2 (by decide +kernel) ?_ (nest_rows 60 (by decide +kernel) (by decide +kernel)
          (nest_one (by decide +kernel) (nest_layout 0 2 (by decide +kernel) ?_ (nest_rows 60 (by decide +kernel) (by decide +kernel)
            (nest_none (by decide +kernel)) (nest_rows 60 (by decide +kernel) (by decide +kernel) (nest_none (by decide +kernel)) (nest_done (by decide +kernel))))))
          (nest_done (by decide +kernel)))))
        (nest_rows 60 (by decide +kernel) (by decide +kernel)
          (nest_one (by decide +kernel) (nest_other 0 (by decide +kernel) (by decide) (by decide) (by decide)))
          (nest_rows 60 (by decide +kernel) (by decide +kernel) (nest_none (by decide +kernel))
            (nest_rows 60 (by decide +kernel) (by decide +kernel) (nest_none (by decide +kernel)) (nest_done (by decide +kernel)))))),
    ((nestRow ⟨[0, 0], exNest⟩ 0)[0]?).getD ⟨⟨[], .text []⟩, 0, 0, false⟩, (nestRows ⟨[0, 0], exNest⟩).drop 1, c!"Figure 9: Nest", ?_, exPlainCell_ok (by decide +kernel), by decide +kernel, by decide +kernel,
    ⟨c!" ", c!": Nest", rfl, by decide, by decide, by decide, by decide, fun c r h => by cases h; exact .inr (.inr rfl)⟩⟩
  · refine .described _ _ _ (by decide) (readPos_of (by decide +kernel)) (readPos_of (by decide +kernel)) (readPos_of (by decide +kernel))
  · refine ⟨c!"bits", .bits (by decide) (by decide) (by decide) (by decide) (by decide), readPos_of (by decide +kernel), readPos_of (by decide +kernel), readPos_of (by decide +kernel)⟩
  · have h0 : 0 < (nestRows ⟨[0, 0], exNest⟩).length := by decide +kernel
    have hw : WordTable ⟨[0, 0], exNest⟩ (nestRows ⟨[0, 0], exNest⟩) := nestRows_table (by decide +kernel)
    have hl : (nestRow ⟨[0, 0], exNest⟩ 0).length = 1 := by decide +kernel
    have hd := nest_drop h0
    rw [List.drop_zero] at hd
    have : nestRow ⟨[0, 0], exNest⟩ 0 = [((nestRow ⟨[0, 0], exNest⟩ 0)[0]?).getD ⟨⟨[], .text []⟩, 0, 0, false⟩] := by
      generalize nestRow ⟨[0, 0], exNest⟩ 0 = row at hl
      match row with
      | [x] => rfl
    rw [this] at hd
    rw [← hd]
    exact hw


section
variable [Uni]

/-- a decision procedure for words in a text -/
def exInfix (p s : Str) : Bool := s.tails.any (fun t => p.isPrefixOf t)

omit [Uni] in
theorem exInfix_iff (p s : Str) : exInfix p s = true ↔ p <:+: s := by
  unfold exInfix
  simp only [List.any_eq_true, List.mem_tails, List.isPrefixOf_iff_prefix]
  rw [List.infix_iff_prefix_suffix]
  constructor
  · rintro ⟨t, h1, h2⟩; exact ⟨t, h2, h1⟩
  · rintro ⟨t, h1, h2⟩; exact ⟨t, h2, h1⟩

theorem exPlain_ok {doc : WordDoc} {t : LNode} (h : (exUnmerged t && decide (0 < (nestRows t).length) && (nestRow t 0).all (fun c => exPlainCell c.tc.node) &&
    !exInfix c!"Figure" (unspaced ((nestRow t 0).flatMap fun c => cellTexts c.tc.node).flatten)) = true) : IsKind doc t .plain := by
  simp only [Bool.and_eq_true, decide_eq_true_eq, List.all_eq_true, Bool.not_eq_true'] at h
  obtain ⟨⟨⟨h1, h2⟩, h3⟩, h4⟩ := h
  have hd := nest_drop h2
  rw [List.drop_zero] at hd
  refine .plain (nestRow t 0) _ (hd ▸ nestRows_table h1) (fun c hc => exPlainCell_ok (h3 c hc)) fun hi => ?_
  rw [(exInfix_iff _ _).2 hi] at h4
  cases h4

theorem exNameless_ok {doc : WordDoc} {t : LNode} {s : Str} (h : (exUnmerged t && decide (0 < (nestRows t).length) &&
    (match nestRow t 0 with | [c] => exPlainCell c.tc.node && cellTexts c.tc.node == [s] | _ => false) &&
    exInfix c!"Figure" (strip s) && (figureId (strip s)).isNone) = true) : IsKind doc t (.nameless (strip s)) := by
  simp only [Bool.and_eq_true, decide_eq_true_eq] at h
  obtain ⟨⟨⟨⟨h1, h2⟩, h3⟩, h4⟩, h5⟩ := h
  have hd := nest_drop h2
  rw [List.drop_zero] at hd
  generalize nestRow t 0 = row at h3 hd
  match row with
  | [c] =>
    simp only [Bool.and_eq_true, beq_iff_eq] at h3
    refine .nameless c _ s (hd ▸ nestRows_table h1) (exPlainCell_ok h3.1) h3.2 ((exInfix_iff _ _).1 h4) fun fid hf => ?_
    rw [(C62_figure_id _ fid).2 hf] at h5
    cases h5

end

def exWrapper : LNode := ⟨[0, 4], exWholeWrap⟩

theorem exWhole_wraps : letI := Uni.ascii
    Wraps exWholeDoc exWrapper (nestInner exWrapper 0 1 0) := by
  let _ := Uni.ascii
  have hd := nest_drop (t := exWrapper) (i := 0) (by decide +kernel)
  rw [List.drop_zero] at hd
  have hr : nestRow exWrapper 0 = (nestRow exWrapper 0).take 1 ++ (((nestRow exWrapper 0)[1]?).getD ⟨⟨[], .text []⟩, 0, 0, false⟩) :: [] := by
    rfl
  rw [hr] at hd
  have hk : (((nestRow exWrapper 0)[1]?).getD (⟨⟨[], .text []⟩, 0, 0, false⟩ : WCell)).tc.children =
      (nestKids exWrapper 0 1).take 2 ++ nestInner exWrapper 0 1 0 :: (nestKids exWrapper 0 1).drop 3 := by rfl
  refine ⟨_, _, _, _, _, _, hd ▸ nestRows_table (by decide +kernel), ?_, ?_, hk, by decide +kernel, ?_⟩
  · have : ((nestRow exWrapper 0).take 1).all (fun c => nestGrey c.tc.node) = true := by decide +kernel
    exact fun g hg => (nestGrey_iff _).1 (List.all_eq_true.1 this g hg)
  · rw [← nestGrey_iff]
    decide +kernel
  · have : ((nestKids exWrapper 0 1).take 2).all (fun x => !x.node.hasTag wTbl &&
        (x.node.attrFirst [wPPr, c!"w:numPr", c!"w:numId"] aVal).isNone && keptText x.node == []) = true := by decide +kernel
    intro x hx
    have := List.all_eq_true.1 this x hx
    simp only [Bool.and_eq_true, Bool.not_eq_true', Option.isNone_iff_eq_none, beq_iff_eq] at this
    refine ⟨this.1.1, fun _ => ⟨?_, this.2⟩⟩
    rintro ⟨id, n, i, a, h, -⟩
    rw [this.1.2] at h
    cases h

/-- the hypotheses of C80: the tables of the example which are tables of their own, and their kinds -/
theorem exWhole_kinds : letI := Uni.ascii
    List.Forall₂ (TakenFor exWholeDoc) exWholeOwn
      [.figure c!"Figure 9: Nest" c!"9" exNestFig, .plain, .nameless c!"Figure: No number", .nameless c!"Figure: None either"] := by
  let _ := Uni.ascii
  have h0 : exWholeOwn = [⟨[0, 0], exNest⟩, ⟨[0, 2], exWholePlain⟩, ⟨[0, 3], exWholeNone⟩, ⟨[0, 4], exWholeWrap⟩] := by rfl
  rw [h0]
  refine .cons (.inl (.figure _ _ _ exWhole_figure)) (.cons (.inl ?_) (.cons (.inl ?_) (.cons (.inr ⟨nestInner exWrapper 0 1 0, ?_, ?_⟩) .nil)))
  · exact exPlain_ok (by decide +kernel)
  · have := exNameless_ok (doc := exWholeDoc) (t := ⟨[0, 3], exWholeNone⟩) (s := c!"Figure: No number") (by decide +kernel)
    exact this
  · exact exWhole_wraps
  · have := exNameless_ok (doc := exWholeDoc) (t := nestInner exWrapper 0 1 0) (s := c!"Figure: None either") (by decide +kernel)
    exact this

/-- what is to come of it, as C80 says -/
example : letI := Uni.ascii
    ∀ own, FigOut [] ⟨some c!"Figure 9: Nest", c!"9", none⟩ exNestFig own true → DocOut [] false 0
      [.figure c!"Figure 9: Nest" c!"9" exNestFig, .plain, .nameless c!"Figure: No number", .nameless c!"Figure: None either"]
      (own ++ [.lint (issue .tblFigIdExtractErr c!"FIG_ID_MISSING[0]" none [(c!"title", .str c!"Figure: No number")]),
        .lint (issue .tblFigIdExtractErr c!"FIG_ID_MISSING[1]" none [(c!"title", .str c!"Figure: None either")])]) true := by
  let _ := Uni.ascii
  have h0 : c!"FIG_ID_MISSING[0]" = placeholder 0 := by decide +kernel
  have h1 : c!"FIG_ID_MISSING[1]" = placeholder 1 := by decide +kernel
  rw [h0, h1]
  exact fun own h => .figure _ _ _ _ _ _ _ (.figure _ _ _ _ _ h) (.inl rfl) (.plain _ _ _ _ (.nameless 0 _ _ _ _ (.nameless 1 _ _ _ _ (.nil _))))

set_option synthInstance.maxHeartbeats 200000 in
set_option synthInstance.maxSize 2000 in
/-- the run on it -/
example : letI := Uni.ascii
    ((parseWord exWholeDoc).toOption.bind fun us =>
      (readXml (plainText (renderPage c!"1.0" c!"NVMe" (some c!"2.0") c!"spec" us).1)).map fun p =>
        ((entities (parseDoc (envPlain false) p).evs).map (fun e => (e.info.figId, e.info.parent, exFields e)),
         (allDiagnostics (parseDoc (envPlain false) p).evs).map (fun (l : LintEntry) => (l.err.code, l.fig)))) =
    some ([(c!"9_0_0h", some c!"9_0", 2), (c!"9_0", some c!"9", 1), (c!"9", none, 2)],
      [(c!"T1007", c!"9_1"), (c!"T1008", placeholder 0), (c!"T1008", placeholder 1)]) := by decide +kernel

end Spex
