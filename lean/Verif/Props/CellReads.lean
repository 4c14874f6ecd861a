import Verif.Props.WordFigure
import Verif.Props.WordFuel
import Verif.Lemmas.Fresh
/-
C77: the text of a Word cell with lists and tables in it, after both stages.
-/
set_option autoImplicit false
namespace Spex

section
variable [Uni]

/-! ### Specification -/

/-- the text of a paragraph as it is read back, if it has one (C67) -/
def textsOf (p : Node) : List Str := if readText p = [] then [] else [readText p]

/-- The elements `cs` of a Word cell read as the texts `ts`, in order: the paragraphs which have a text, the items of lists among them, and the
cells of the tables in it, row by row. Cells which continue others are left out. `own` are the texts of the paragraphs which are in the cell
itself and are not items of lists. The merges in the tables are rectangular. -/
inductive CellReads (doc : WordDoc) : List LNode → List Str → List Str → Prop where
  | nil : CellReads doc [] [] []
  | para {p : LNode} {cs : List LNode} {ts own : List Str} : p.node.hasTag wP = true → ¬ ListItem doc p.node →
      CellReads doc cs ts own → CellReads doc (p :: cs) (textsOf p.node ++ ts) (textsOf p.node ++ own)
  | item {p : LNode} {cs : List LNode} {ts own : List Str} : p.node.hasTag wP = true → ListItem doc p.node →
      CellReads doc cs ts own → CellReads doc (p :: cs) (textsOf p.node ++ ts) own
  | table {t : LNode} {rows : List (List WCell)} {cs : List LNode} {inner ts own own' : List Str} : t.node.hasTag wTbl = true → WordTable t rows →
      CellReads doc ((rows.flatten.filter (fun c => !c.cont)).flatMap (·.tc.children)) inner own' → CellReads doc cs ts own →
      CellReads doc (t :: cs) (inner ++ ts) own
  | other {c : LNode} {cs : List LNode} {ts own : List Str} : c.node.hasTag wP = false → c.node.hasTag wTbl = false → CellReads doc cs ts own →
      CellReads doc (c :: cs) ts own

/-- The elements `ks` on the page show the elements `cs` of a Word cell: the paragraphs are those which are in the cell itself and have a text,
all the text is that of the paragraphs and items in order, and the tables are those in the cell. -/
structure ShowsAll (doc : WordDoc) (cls : Classes) (cs : List LNode) (ts own : List Str) (ks : List Node) : Prop where
  paras : (ks.filter (Node.hasTag c!"p")).map Node.toText = own.map strip
  whole : Woven ts (Node.flats ks)
  tables : List.Forall₂ (fun t n => n.Tight ∧ ∀ rows, WordTable t rows → ShowsTable doc cls rows n.clean) (cs.filter (fun c => c.node.hasTag wTbl))
    (ks.filter (Node.hasTag tTable))

/-! ### Texts -/

omit [Uni] in
theorem Woven.append {a b : List Str} {s t : Str} (h : Woven a s) (h' : Woven b t) : Woven (a ++ b) (s ++ t) := by
  induction h with
  | done hw => exact h'.blank hw
  | text hw t _ ih =>
    rw [List.append_assoc]
    exact .text hw t ih

omit [Uni] in
theorem Woven.ofText {w t : Str} (hw : ∀ c ∈ w, isXmlSpace c = true) : Woven (if t = [] then [] else [t]) (w ++ t) := by
  by_cases ht : t = []
  · rw [if_pos ht, ht, List.append_nil]; exact .done hw
  · rw [if_neg ht]
    have := Woven.text hw t (.done (w := []) (by simp))
    rwa [List.append_nil] at this

omit [Uni] in
theorem Woven.trail {a : List Str} {s w : Str} (h : Woven a s) (hw : ∀ c ∈ w, isXmlSpace c = true) : Woven a (s ++ w) := by
  have := h.append (.done hw)
  rwa [List.append_nil] at this

omit [Uni] in
/-- the elements of a page with blanks between them -/
theorem cleans_weave {ks ns : List Node} {tss : List (List Str)} (h : cleans ks = ns)
    (hf : List.Forall₂ (fun n ts => n.isElem = true ∧ ∀ k ∈ ks, k.clean = n → Woven ts k.flat) ns tss) : Woven tss.flatten (Node.flats ks) := by
  induction ks generalizing ns tss with
  | nil =>
    rw [cleans] at h
    subst h
    cases hf
    rw [Node.flats]; exact .done (by simp)
  | cons k ks ih =>
    rw [cleans] at h
    have hf' : List.Forall₂ (fun n ts => n.isElem = true ∧ ∀ k ∈ ks, k.clean = n → Woven ts k.flat) ns tss :=
      hf.imp (fun n ts h => ⟨h.1, fun k hk => h.2 k (List.mem_cons_of_mem _ hk)⟩)
    by_cases hb : k.isBlank = true
    · rw [if_pos hb] at h
      cases k with
      | elem t as kk => cases hb
      | text w =>
        rw [Node.flats, Node.flat]
        exact (ih h hf').blank (List.all_eq_true.1 hb)
    · rw [if_neg hb] at h
      subst h
      cases hf with
      | cons h1 h2 =>
        cases hf' with
        | cons _ h3 =>
          rw [Node.flats, List.flatten_cons]
          exact (h1.2 k List.mem_cons_self rfl).append (ih rfl h3)

/-- the texts of the items of a list -/
def itemTexts (ss : List HSpan) : List Str := if spansRead ss = [] then [] else [spansRead ss]

omit [Uni] in
theorem li_woven {cls : Classes} {k : Node} {ss : List HSpan} {xs : List Node} {tss : List Str} (h : k.clean = liNode (ss.map (spanNode cls) ++ xs))
    (ht : k.Tight) (hx : ∀ x ∈ xs, x.isElem = true)
    (hf : ∀ es : List Node, es.map Node.clean = xs → (∀ e ∈ es, e.Tight ∧ e.isElem = true) → Woven tss (Node.flats es)) :
    Woven (itemTexts ss ++ tss) k.flat := by
  unfold liNode at h
  obtain ⟨ks, rfl⟩ := clean_elem h
  rw [Node.clean, if_neg (by decide)] at h
  have h' : cleans ks = ss.map (spanNode cls) ++ xs := (Node.elem.inj h).2.2
  obtain ⟨w, es, w', g1, g2, g3, g4, g5, g6⟩ := frame_parts (by rw [Node.Tight] at ht; exact ht.1 (.inr rfl)) h' (by
    intro n hn
    rcases List.mem_append.1 hn with hn | hn
    · obtain ⟨s, -, rfl⟩ := List.mem_map.1 hn; rfl
    · exact hx n hn)
  obtain ⟨e1, e2, rfl, k1, k2⟩ := List.map_eq_append_iff.1 g5
  rw [Node.flat, g1, flats_append']
  have m1 : Node.flats e1 = spansRead ss := by
    have hel : ∀ e ∈ e1, e.isElem = true := fun e he => g4 e (List.mem_append_left _ he)
    exact spans_flat (cls := cls) (by rw [cleans_elem_list hel, k1]) hel
  have m2 := hf e2 k2 (fun e he => ⟨elem_tights ht e (g6 e (List.mem_append_right _ he)), g4 e (List.mem_append_right _ he)⟩)
  rw [m1, ← List.append_assoc w]
  exact ((Woven.ofText g2).append m2).trail g3

omit [Uni] in
theorem cleans_cons_inv {ks : List Node} {n : Node} {ns : List Node} (h : cleans ks = n :: ns) (hn : n.isElem = true) :
    ∃ pre k post, ks = pre ++ k :: post ∧ k.clean = n ∧ cleans post = ns ∧ ∀ x ∈ pre, ∃ w, x = .text w ∧ ∀ c ∈ w, isXmlSpace c = true := by
  induction ks with
  | nil => rw [cleans] at h; cases h
  | cons k ks ih =>
    rw [cleans] at h
    by_cases hb : k.isBlank = true
    · rw [if_pos hb] at h
      obtain ⟨pre, k', post, g1, g2, g3, g4⟩ := ih h
      cases k with
      | elem t as kk => cases hb
      | text w =>
        refine ⟨.text w :: pre, k', post, by rw [g1]; rfl, g2, g3, ?_⟩
        intro x hx
        rcases List.mem_cons.1 hx with rfl | hx
        · exact ⟨w, rfl, List.all_eq_true.1 hb⟩
        · exact g4 x hx
    · rw [if_neg hb, List.cons.injEq] at h
      exact ⟨[], k, ks, rfl, h.1, h.2, by simp⟩

omit [Uni] in
theorem flats_blanks {pre : List Node} (h : ∀ x ∈ pre, ∃ w, x = .text w ∧ ∀ c ∈ w, isXmlSpace c = true) : ∀ c ∈ Node.flats pre, isXmlSpace c = true := by
  induction pre with
  | nil => intro c hc; cases hc
  | cons x pre ih =>
    obtain ⟨w, rfl, hw⟩ := h x List.mem_cons_self
    intro c hc
    rw [Node.flats, Node.flat] at hc
    rcases List.mem_append.1 hc with hc | hc
    · exact hw c hc
    · exact ih (fun y hy => h y (List.mem_cons_of_mem _ hy)) c hc

omit [Uni] in
/-- the items of a list as they are read -/
theorem items_woven (cls : Classes) : (es : List HItem) → (pending : Option (List HSpan)) → (ks : List Node) →
    cleans ks = itemNodes cls (pending.map (·.map (spanNode cls))) es → Tights ks →
    Woven ((pending.toList ++ leavesAll es).flatMap itemTexts) (Node.flats ks)
  | [], pending, ks, h, ht => by
    rw [itemNodes] at h
    cases pending with
    | none => simpa [leavesAll] using Woven.done (cleans_nil h)
    | some ss =>
      obtain ⟨pre, k, post, rfl, g2, g3, g4⟩ := cleans_cons_inv h rfl
      rw [flats_append', Node.flats]
      have hk : k.Tight := (tights_iff _).1 ht k (by simp)
      have := li_woven (tss := []) (xs := []) (by rw [List.append_nil]; exact g2) hk (by simp)
        (fun es he _ => by rw [List.map_eq_nil_iff.1 he, Node.flats]; exact .done (by simp))
      simpa [leavesAll] using (this.trail (cleans_nil g3)).blank (flats_blanks g4)
  | .item spans :: es, pending, ks, h, ht => by
    rw [itemNodes, itemNode] at h
    rw [leavesAll, HItem.leaves]
    cases pending with
    | none =>
      have := items_woven cls es (some spans) ks h ht
      simpa using this
    | some ss =>
      obtain ⟨pre, k, post, rfl, g2, g3, g4⟩ := cleans_cons_inv h rfl
      rw [flats_append', Node.flats]
      have hk : k.Tight := (tights_iff _).1 ht k (by simp)
      have h1 := li_woven (tss := []) (xs := []) (by rw [List.append_nil]; exact g2) hk (by simp)
        (fun es he _ => by rw [List.map_eq_nil_iff.1 he, Node.flats]; exact .done (by simp))
      have h2 := items_woven cls es (some spans) post g3 ((tights_iff _).2 fun x hx => (tights_iff _).1 ht x (by simp [hx]))
      simpa using (h1.append h2).blank (flats_blanks g4)
  | .list props elems :: es, pending, ks, h, ht => by
    rw [itemNodes, itemNode] at h
    rw [leavesAll, HItem.leaves]
    obtain ⟨pre, k, post, rfl, g2, g3, g4⟩ := cleans_cons_inv h rfl
    rw [flats_append', Node.flats]
    have hk : k.Tight := (tights_iff _).1 ht k (by simp)
    have h2 := items_woven cls es none post g3 ((tights_iff _).2 fun x hx => (tights_iff _).1 ht x (by simp [hx]))
    have hg : (Option.map (fun x => List.map (spanNode cls) x) pending).getD [] = (pending.getD []).map (spanNode cls) := by
      cases pending <;> rfl
    rw [hg] at g2
    have h1 := li_woven (tss := (leavesAll elems).flatMap itemTexts) g2 hk (by intro x hx; rw [List.mem_singleton.1 hx]; rfl) (fun es' he hes => by
      obtain ⟨e, rfl⟩ : ∃ e, es' = [e] := by
        cases es' with
        | nil => cases he
        | cons e r =>
          cases r with
          | nil => exact ⟨e, rfl⟩
          | cons a b => simp at he
      have he' : e.clean = .elem props.tag [(c!"class", props.clsname)] (itemNodes cls none elems) := by simpa using he
      obtain ⟨kk, rfl⟩ := clean_elem he'
      rw [Node.clean, if_neg (by unfold NumLvl.tag; split <;> decide)] at he'
      have := items_woven cls elems none kk (Node.elem.inj he').2.2 ((tights_iff _).2 (elem_tights (hes _ List.mem_cons_self).1))
      simpa [Node.flats, Node.flat] using this)
    have h3 := (h1.append h2).blank (flats_blanks g4)
    have hp : itemTexts (pending.getD []) = pending.toList.flatMap itemTexts := by
      cases pending <;> simp [itemTexts, spansRead]
    rw [hp] at h3
    simpa using h3

/-! ### Cells -/

theorem CellReads.split {doc : WordDoc} {a b : List LNode} {ts own : List Str} (h : CellReads doc (a ++ b) ts own) :
    ∃ ts1 own1 ts2 own2, CellReads doc a ts1 own1 ∧ CellReads doc b ts2 own2 ∧ ts = ts1 ++ ts2 ∧ own = own1 ++ own2 := by
  induction a generalizing ts own with
  | nil => exact ⟨[], [], ts, own, .nil, h, rfl, rfl⟩
  | cons c a ih =>
    rw [List.cons_append] at h
    cases h with
    | para h1 h2 h5 =>
      obtain ⟨ts1, own1, ts2, own2, g1, g2, rfl, rfl⟩ := ih h5
      exact ⟨_, _, _, _, .para h1 h2 g1, g2, by simp, by simp⟩
    | item h1 h2 h5 =>
      obtain ⟨ts1, own1, ts2, own2, g1, g2, rfl, rfl⟩ := ih h5
      exact ⟨_, _, _, _, .item h1 h2 g1, g2, by simp, rfl⟩
    | table h1 h2 h3 h4 =>
      obtain ⟨ts1, own1, ts2, own2, g1, g2, rfl, rfl⟩ := ih h4
      exact ⟨_, _, _, _, .table h1 h2 h3 g1, g2, by simp, rfl⟩
    | other h1 h2 h3 =>
      obtain ⟨ts1, own1, ts2, own2, g1, g2, rfl, rfl⟩ := ih h3
      exact ⟨_, _, _, _, .other h1 h2 g1, g2, rfl, rfl⟩

theorem CellReads.groups {doc : WordDoc} {cells : List WCell} {ts own : List Str} (h : CellReads doc (cells.flatMap (·.tc.children)) ts own) :
    ∃ tss, tss.flatten = ts ∧ List.Forall₂ (fun c t => ∃ o, CellReads doc c.tc.children t o) cells tss := by
  induction cells generalizing ts own with
  | nil =>
    cases h
    exact ⟨[], rfl, .nil⟩
  | cons c cells ih =>
    rw [List.flatMap_cons] at h
    obtain ⟨ts1, own1, ts2, own2, g1, g2, rfl, rfl⟩ := h.split
    obtain ⟨tss, h1, h2⟩ := ih g2
    exact ⟨ts1 :: tss, by rw [List.flatten_cons, h1], .cons ⟨_, g1⟩ h2⟩

theorem InList.item {doc : WordDoc} {p : LNode} {a l : Int} (h : InList doc p a l) : ListItem doc p.node := by
  obtain ⟨n, s, i, h1, h2, h3, h4⟩ := h.num
  refine ⟨s, n, i, a, h2, h1, h3, ?_⟩
  obtain ⟨x, y, he, -⟩ := h4
  rw [he]; simp

theorem isListPara_item {doc : WordDoc} {p : Node} {b : Bool} (h : isListPara doc p = .ok b) (hn : ListItem doc p) : b = true := by
  obtain ⟨id, n, i, a, h1, h2, h3, h4⟩ := hn
  rw [← C96_number] at h3
  unfold isListPara numIdOf at h
  rw [h1, h2] at h
  simp only [Numbering.hasNumId, h3, Except.map] at h
  injection h with h
  rw [← h]
  unfold intDict
  have hm : (i, a) ∈ n.nums.reverse := List.mem_reverse.2 h4
  cases hl : n.nums.reverse.lookup i with
  | some x => rfl
  | none =>
    have := List.lookup_eq_none_iff.1 hl _ hm
    simp at this

theorem CellReads.items {doc : WordDoc} {ps : List LNode} {ts own : List Str} (h : CellReads doc ps ts own)
    (hi : ∀ q ∈ ps, q.node.hasTag wP = true ∧ ListItem doc q.node) :
    own = [] ∧ ts = ps.flatMap (fun q => textsOf q.node) := by
  have two : ∀ {n : Node}, n.hasTag wP = true → n.hasTag wTbl = true → False := by
    intro n h1 h2
    obtain ⟨as, ks, rfl⟩ := hasTag_elem.1 h1
    simp [Node.hasTag, wP, wTbl] at h2
  induction h with
  | nil => exact ⟨rfl, rfl⟩
  | para h1 h2 => exact absurd (hi _ List.mem_cons_self).2 h2
  | item h1 h2 h5 ih =>
    obtain ⟨g1, g2⟩ := ih (fun q hq => hi q (List.mem_cons_of_mem _ hq))
    exact ⟨g1, by rw [List.flatMap_cons, g2]⟩
  | table h1 => exact (two (hi _ List.mem_cons_self).1 h1).elim
  | other h1 => rw [(hi _ List.mem_cons_self).1] at h1; cases h1

/-- siblings in a document -/
structure Sibs (cs : List LNode) : Prop where
  depth : ∃ n, ∀ c ∈ cs, c.path.length = n
  apart : cs.Pairwise (fun a b => a.path ≠ b.path)

omit [Uni] in
theorem Sibs.children (l : LNode) : Sibs l.children := by
  refine ⟨⟨l.path.length + 1, fun c hc => ?_⟩, kidsFrom_order _ _ _⟩
  obtain ⟨j, h1, -⟩ := children_path hc
  rw [h1]; simp

omit [Uni] in
theorem Sibs.suffix {a b : List LNode} (h : Sibs (a ++ b)) : Sibs b := by
  obtain ⟨⟨n, h1⟩, h2⟩ := h
  exact ⟨⟨n, fun c hc => h1 c (List.mem_append_right _ hc)⟩, (List.pairwise_append.1 h2).2.1⟩

omit [Uni] in
theorem cleans_filter_hasTag {pre : List Node} (h : ∀ x ∈ pre, ∃ w, x = .text w ∧ ∀ c ∈ w, isXmlSpace c = true) (t : Str) :
    pre.filter (Node.hasTag t) = [] := by
  rw [List.filter_eq_nil_iff]
  intro x hx
  obtain ⟨w, rfl, -⟩ := h x hx
  simp [Node.hasTag]

/-- the rows of a table as they are read, given how its cells are read -/
theorem table_woven {doc : WordDoc} {cls : Classes} {rows : List (List WCell)} {tss : List (List Str)} {k : Node} (hs : ShowsTable doc cls rows k.clean)
    (ht : k.Tight) (hf : List.Forall₂ (fun c t => ∃ o, CellReads doc c.tc.children t o) (rows.flatten.filter (fun c => !c.cont)) tss)
    (hcell : ∀ (c : WCell) (t : List Str) (i : Nat) (e : Node), c ∈ rows.flatten → (∃ o, CellReads doc c.tc.children t o) → ShowsCell doc cls rows i c e.clean → e.Tight → Woven t e.flat) :
    Woven tss.flatten k.flat := by
  obtain ⟨id, trs, hn, hl, hc⟩ := hs
  obtain ⟨ks, rfl⟩ := clean_elem hn
  rw [Node.clean, if_neg (by decide)] at hn
  have hcl : cleans ks = trs.map (Node.elem c!"tr" []) := (Node.elem.inj hn).2.2
  rw [Node.flat]
  have htk := elem_tights ht
  -- the texts, by row
  have key : ∀ (rs : List (List WCell)) (ts : List (List Node)) (tss : List (List Str)), rs.length = ts.length →
      (∀ r ∈ rs, ∀ c ∈ r, c ∈ rows.flatten) →
      (∀ (i : Nat) row ns, rs[i]? = some row → ts[i]? = some ns → ∃ j, List.Forall₂ (ShowsCell doc cls rows j) (row.filter (fun c => !c.cont)) ns) →
      List.Forall₂ (fun c t => ∃ o, CellReads doc c.tc.children t o) (rs.flatten.filter (fun c => !c.cont)) tss →
      ∃ tsss, tsss.flatten = tss.flatten ∧
        List.Forall₂ (fun n ts => n.isElem = true ∧ ∀ k ∈ ks, k.clean = n → Woven ts k.flat) (ts.map (Node.elem c!"tr" [])) tsss := by
    intro rs
    induction rs with
    | nil =>
      intro ts tss hlen _ _ hf
      cases ts with
      | nil => cases hf; exact ⟨[], rfl, .nil⟩
      | cons a b => cases hlen
    | cons row rs ih =>
      intro ts tss hlen hin hcc hf
      cases ts with
      | nil => cases hlen
      | cons ns ts =>
        rw [List.flatten_cons, List.filter_append] at hf
        have hsp : ∃ t1 t2, tss = t1 ++ t2 ∧ List.Forall₂ (fun c t => ∃ o, CellReads doc c.tc.children t o) (row.filter (fun c => !c.cont)) t1 ∧
            List.Forall₂ (fun c t => ∃ o, CellReads doc c.tc.children t o) (rs.flatten.filter (fun c => !c.cont)) t2 := by
          have h1 := List.forall₂_take_append _ _ _ hf.flip
          have h2 := List.forall₂_drop_append _ _ _ hf.flip
          exact ⟨_, _, (List.take_append_drop _ _).symm, h1.flip, h2.flip⟩
        obtain ⟨t1, t2, rfl, hf1, hf2⟩ := hsp
        obtain ⟨tsss, h1, h2⟩ := ih ts t2 (by simpa using hlen) (fun r hr => hin r (List.mem_cons_of_mem _ hr))
          (fun i row ns h1 h2 => hcc (i + 1) row ns h1 h2) hf2
        refine ⟨t1.flatten :: tsss, by rw [List.flatten_cons, h1, List.flatten_append], .cons ⟨rfl, fun k hk hkc => ?_⟩ h2⟩
        obtain ⟨kk, rfl⟩ := clean_elem hkc
        rw [Node.clean, if_neg (by decide)] at hkc
        have hkk : cleans kk = ns := (Node.elem.inj hkc).2.2
        rw [Node.flat]
        obtain ⟨j, hj⟩ := hcc 0 row ns rfl rfl
        refine cleans_weave hkk ?_
        have hkt := elem_tights (htk _ hk)
        rw [List.forall₂_iff_get] at hj hf1 ⊢
        refine ⟨hj.1.symm.trans hf1.1, fun i a b => ?_⟩
        have hi := hj.2 i (hj.1 ▸ a) a
        have hi' := hf1.2 i (hj.1 ▸ a) b
        have hmem : (row.filter (fun c => !c.cont)).get ⟨i, hj.1 ▸ a⟩ ∈ rows.flatten :=
          hin row List.mem_cons_self _ (List.mem_filter.1 (List.get_mem _ _)).1
        generalize (row.filter (fun c => !c.cont)).get ⟨i, hj.1 ▸ a⟩ = c at hi hi' hmem
        generalize ns.get ⟨i, a⟩ = x at hi
        refine ⟨?_, fun k hk hkx => ?_⟩
        · obtain ⟨tag, fill, hh, elems, -, -, -, -, he⟩ := hi
          rw [he]; rfl
        · exact hcell c _ j k hmem hi' (hkx ▸ hi) (hkt k hk)
  obtain ⟨tsss, h1, h2⟩ := key rows trs tss hl.symm (fun r hr c hc => List.mem_flatten.2 ⟨r, hr, hc⟩)
    (fun i row ns h1 h2 => ⟨i, hc i row ns h1 h2⟩) hf
  rw [← h1]
  exact cleans_weave hcl h2

omit [Uni] in
theorem two_tags {n : Node} {a b : Str} (h1 : n.hasTag a = true) (h2 : n.hasTag b = true) : a = b := by
  obtain ⟨as, ks, rfl⟩ := hasTag_elem.1 h1
  simpa [Node.hasTag] using h2

omit [Uni] in
theorem WordTable.cell_mem {t : LNode} {rows : List (List WCell)} (h : WordTable t rows) {c : WCell} (hc : c ∈ rows.flatten) :
    ∃ tr ∈ t.childs wTr, c.tc ∈ tr.childs wTc := by
  obtain ⟨row, hr, hc⟩ := List.mem_flatten.1 hc
  have : row.map (·.tc) ∈ (t.childs wTr).map (·.childs wTc) := by
    rw [h.source]; exact List.mem_map_of_mem hr
  obtain ⟨tr, h1, h2⟩ := List.mem_map.1 this
  exact ⟨tr, h1, by rw [h2]; exact List.mem_map_of_mem hc⟩

/-- the content of a cell, on the page -/
theorem parseAny_shows {doc : WordDoc} {cls : Classes} (N : Nat) : ∀ {cs : List LNode} {ts own : List Str} {fuel : Nat} {seen seen' : Seen} {us : List HUnit} {ks : List Node},
    streamSize cs ≤ N → CellReads doc cs ts own → parseAny doc fuel cs seen = .ok (us, seen') → Sibs cs → (∀ c ∈ cs, ∀ p ∈ seen, ¬ c.path <+: p) →
    cleans ks = unitNodes cls us → Tights ks → ShowsAll doc cls cs ts own ks := by
  induction N with
  | zero =>
    intro cs ts own fuel seen seen' us ks hN hr hp hsib hfr hcl ht
    cases cs with
    | cons c cs =>
      rw [streamSize] at hN
      have := size_pos c.node
      omega
    | nil =>
      cases hr
      cases fuel with
      | zero => rw [parseAny] at hp; cases hp
      | succ fuel =>
        rw [parseAny] at hp
        cases hp
        rw [unitNodes] at hcl
        have he := cleans_elems hcl (by simp)
        rw [List.map_eq_nil_iff] at he
        have hno : ∀ t, ks.filter (Node.hasTag t) = [] := by
          intro t
          rw [List.filter_eq_nil_iff]
          intro k hk h
          have : k ∈ ks.filter Node.isElem := List.mem_filter.2 ⟨hk, hasTag_isElem h⟩
          rw [he] at this
          cases this
        exact ⟨by rw [hno]; rfl, .done (cleans_nil hcl), by rw [hno]; exact .nil⟩
  | succ N IH =>
    intro cs ts own fuel seen seen' us ks hN hr hp hsib hfr hcl ht
    cases fuel with
    | zero => rw [parseAny] at hp; cases hp
    | succ fuel =>
      cases cs with
      | nil => exact IH (by simp [streamSize]) hr hp hsib hfr hcl ht
      | cons c rest =>
        rw [streamSize] at hN
        have hpos := size_pos c.node
        have hsib' : Sibs rest := Sibs.suffix (a := [c]) hsib
        have hfr' : ∀ d ∈ rest, ∀ p ∈ seen, ¬ d.path <+: p := fun d hd => hfr d (List.mem_cons_of_mem _ hd)
        have tight : ∀ {pre : List Node} {k : Node} {post : List Node}, ks = pre ++ k :: post → k.Tight ∧ Tights post := by
          rintro pre k post rfl
          exact ⟨(tights_iff _).1 ht k (by simp), (tights_iff _).2 fun x hx => (tights_iff _).1 ht x (by simp [hx])⟩
        rw [parseAny] at hp
        -- paragraphs
        have para : ∀ {ts own : List Str}, c.node.hasTag wP = true → ¬ ListItem doc c.node →
            CellReads doc rest ts own → ShowsAll doc cls (c :: rest) (textsOf c.node ++ ts) (textsOf c.node ++ own) ks := by
          intro ts own h1 h2 h5
          have hnt : c.node.hasTag wTbl = false := by
            cases hq : c.node.hasTag wTbl with
            | false => rfl
            | true => exact absurd (two_tags h1 hq) (by decide)
          rw [if_neg (by rw [hnt]; decide), if_pos h1] at hp
          obtain ⟨b, g1, hp⟩ := except_bind_ok hp
          rw [isListPara_no g1 h2, if_neg (by decide)] at hp
          obtain ⟨ps, g2, hp⟩ := except_bind_ok hp
          obtain ⟨⟨us', s'⟩, g3, hp⟩ := except_bind_ok hp
          cases hp
          obtain ⟨spans, g4, g5, g6⟩ := C50_paragraph_kept g2
          have g7 := read_exact g4
          have hfil : (c :: rest).filter (fun c => c.node.hasTag wTbl) = rest.filter (fun c => c.node.hasTag wTbl) :=
            List.filter_cons_of_neg (by rw [hnt]; decide)
          have hte : textsOf c.node = itemTexts spans := by unfold textsOf itemTexts; rw [g7]
          by_cases hnil : spans = []
          · rw [if_pos hnil] at g6
            have : textsOf c.node = [] := by rw [hte, hnil]; rfl
            rw [this]
            rw [g6] at hcl
            obtain ⟨a1, a2, a3⟩ := IH (by omega) h5 g3 hsib' hfr' hcl ht
            exact ⟨a1, a2, by rw [hfil]; exact a3⟩
          · rw [if_neg hnil] at g6
            rw [g6, List.singleton_append, unitNodes] at hcl
            obtain ⟨pre, k, post, rfl, e1, e2, e3⟩ := cleans_cons_inv hcl (by rw [unitNode]; rfl)
            obtain ⟨t1, t2⟩ := tight rfl
            obtain ⟨a1, a2, a3⟩ := IH (by omega) h5 g3 hsib' hfr' e2 t2
            obtain ⟨b1, w, w', b2, b2', b3⟩ := para_flat e1 t1
            have hkt : k.hasTag tTable = false := by
              cases hq : k.hasTag tTable with
              | false => rfl
              | true => exact absurd (two_tags b1 hq) (by decide)
            have hne : spansRead spans ≠ [] := by
              cases spans with
              | nil => exact absurd rfl hnil
              | cons s ss =>
                have := g5 s List.mem_cons_self
                unfold spansRead
                rw [List.flatMap_cons]
                intro h
                exact this (eolNorm_nil.1 (List.append_eq_nil_iff.1 h).1)
            have hte' : textsOf c.node = [spansRead spans] := by rw [hte]; exact if_neg hne
            refine ⟨?_, ?_, ?_⟩
            · rw [List.filter_append, cleans_filter_hasTag e3, List.nil_append, List.filter_cons_of_pos b1, List.map_cons, a1, hte', List.singleton_append,
                List.map_cons]
              congr 1
              unfold Node.toText
              rw [b3]
              exact strip_around (fun c hc => xmlSpace_isSpace (b2 c hc)) (fun c hc => xmlSpace_isSpace (b2' c hc))
            · rw [flats_append', Node.flats, b3, hte', List.append_assoc]
              refine Woven.blank (flats_blanks e3) ?_
              exact .text b2 _ (a2.blank b2')
            · have hk : (pre ++ k :: post).filter (Node.hasTag tTable) = post.filter (Node.hasTag tTable) := by
                rw [List.filter_append, cleans_filter_hasTag e3, List.nil_append, List.filter_cons_of_neg (by rw [hkt]; decide)]
              rw [hk, hfil]
              exact a3
        have item : ∀ {ts own : List Str}, c.node.hasTag wP = true → ListItem doc c.node →
            CellReads doc (c :: rest) ts own → ShowsAll doc cls (c :: rest) ts own ks := by
          intro ts own h1 h2 h5
          have hnt : ∀ {d : LNode}, d.node.hasTag wP = true → d.node.hasTag wTbl = false := by
            intro d h1
            cases hq : d.node.hasTag wTbl with
            | false => rfl
            | true => exact absurd (two_tags h1 hq) (by decide)
          rw [if_neg (by rw [hnt h1]; decide), if_pos h1] at hp
          obtain ⟨b, g1, hp⟩ := except_bind_ok hp
          have hb := isListPara_item g1 h2
          subst hb
          simp only [if_true] at hp
          obtain ⟨⟨it, rest'⟩, g2, hp⟩ := except_bind_ok hp
          obtain ⟨⟨us', s2⟩, g3, hp⟩ := except_bind_ok hp
          obtain ⟨absId, lvl, props, items, ps, k1, k2, k3, k4, k5, k6, -⟩ := C42_list g2 g1
          obtain ⟨ps', k7, k8⟩ := C42_items_in_order g2 g1
          have hps : ps' = ps := by
            rw [k2] at k7
            exact (List.cons.inj (List.append_cancel_right k7)).2.symm
          subst hps
          simp only [k1] at hp g2 k8
          cases hp
          rw [k2] at h5
          obtain ⟨ts1, own1, ts2, own2, r1, r2, rfl, rfl⟩ := h5.split
          obtain ⟨q1, q2⟩ := r1.items (fun q hq => by
            obtain ⟨l, -, hl⟩ := k6 q hq
            exact ⟨hl.para, hl.item⟩)
          subst q1 q2
          rw [unitNodes] at hcl
          obtain ⟨pre, k, post, rfl, e1, e2, e3⟩ := cleans_cons_inv hcl (by rw [unitNode]; rfl)
          obtain ⟨t1, t2⟩ := tight rfl
          have hrest : ∀ d ∈ rest', d ∈ rest := by
            intro d hd
            have : d ∈ ps' ++ rest' := List.mem_append_right _ hd
            have e : rest = ps' ++ rest' := (List.cons.inj k2).2
            rw [e]; exact this
          have hsz : streamSize rest' ≤ N := by
            have e : rest = ps' ++ rest' := (List.cons.inj k2).2
            rw [e, streamSize_append] at hN
            omega
          obtain ⟨a1, a2, a3⟩ := IH hsz r2 g3 (Sibs.suffix (a := c :: ps') (by rw [k2] at hsib; exact hsib)) (fun d hd => hfr' d (hrest d hd)) e2 t2
          have hkt : ∀ t, t = c!"p" ∨ t = tTable → k.hasTag t = false := by
            intro t htt
            cases hq : k.hasTag t with
            | false => rfl
            | true =>
              exfalso
              rw [unitNode] at e1
              obtain ⟨kk, rfl⟩ := clean_elem e1
              have : t = props.tag := by
                refine two_tags hq ?_
                simp [Node.hasTag]
              rw [this] at htt
              unfold NumLvl.tag at htt
              rcases htt with htt | htt <;> split at htt <;> revert htt <;> decide
          have hlv : (HItem.list props items).leaves = leavesAll items := by rw [HItem.leaves]
          rw [hlv] at k8
          have htx : (c :: ps').flatMap (fun q => textsOf q.node) = (leavesAll items).flatMap itemTexts := by
            clear k2 k3 k4 k5 k6 k7 r1 hfr hfr' hsib g2 hcl
            generalize leavesAll items = L at k8
            generalize c :: ps' = P at k8
            induction k8 with
            | nil => rfl
            | @cons q ss P L hq _ ih =>
              have g7 := read_exact hq
              rw [List.flatMap_cons, List.flatMap_cons, ih]
              congr 1
              unfold textsOf itemTexts
              rw [g7]
          have hw : Woven ((leavesAll items).flatMap itemTexts) k.flat := by
            rw [unitNode] at e1
            obtain ⟨kk, rfl⟩ := clean_elem e1
            rw [Node.clean, if_neg (by unfold NumLvl.tag; split <;> decide)] at e1
            have := items_woven cls items none kk (Node.elem.inj e1).2.2 ((tights_iff _).2 (elem_tights t1))
            simpa [Node.flat] using this
          refine ⟨?_, ?_, ?_⟩
          · rw [List.filter_append, cleans_filter_hasTag e3, List.nil_append, List.filter_cons_of_neg (by rw [hkt _ (.inl rfl)]; decide), a1]; rfl
          · rw [flats_append', Node.flats, htx]
            exact Woven.blank (flats_blanks e3) (hw.append a2)
          · have hk : (pre ++ k :: post).filter (Node.hasTag tTable) = post.filter (Node.hasTag tTable) := by
              rw [List.filter_append, cleans_filter_hasTag e3, List.nil_append, List.filter_cons_of_neg (by rw [hkt _ (.inr rfl)]; decide)]
            have : (c :: rest).filter (fun c => c.node.hasTag wTbl) = rest'.filter (fun c => c.node.hasTag wTbl) := by
              rw [k2, List.filter_append]
              have : (c :: ps').filter (fun c => c.node.hasTag wTbl) = [] := by
                rw [List.filter_eq_nil_iff]
                intro q hq
                obtain ⟨l, -, hl⟩ := k6 q hq
                rw [hnt hl.para]; decide
              rw [this]; rfl
            rw [hk, this]
            exact a3
        cases hr with
        | para h1 h2 h5 => exact para h1 h2 h5
        | item h1 h2 h5 => exact item h1 h2 (.item h1 h2 h5)
        | other h1 h2 h3 =>
          rw [if_neg (by rw [h2]; decide), if_neg (by rw [h1]; decide)] at hp
          obtain ⟨a1, a2, a3⟩ := IH (by omega) h3 hp hsib' hfr' hcl ht
          exact ⟨a1, a2, by rw [List.filter_cons_of_neg (by rw [h2]; decide)]; exact a3⟩
        | @table _ rows _ inner ts own own' h1 h2 h3 h4 =>
          rw [if_pos h1] at hp
          obtain ⟨⟨t, s1⟩, g1, hp⟩ := except_bind_ok hp
          obtain ⟨⟨us', s2⟩, g2, hp⟩ := except_bind_ok hp
          cases hp
          have hcf : ∀ p ∈ seen, ¬ c.path <+: p := hfr c List.mem_cons_self
          have hone : ∃ v, t = [v] ∧ ∃ id rs, v = .table c.path id rs := by
            cases fuel with
            | zero => rw [parseTable] at g1; cases g1
            | succ fuel =>
              rw [parseTable, if_pos h1, if_neg (fun hs => hcf _ hs (List.prefix_refl _))] at g1
              obtain ⟨g, -, g1⟩ := except_bind_ok g1
              obtain ⟨r, -, g1⟩ := except_bind_ok g1
              cases g1
              exact ⟨_, rfl, _, _, rfl⟩
          obtain ⟨v, rfl, id, rs, hv⟩ := hone
          rw [List.singleton_append, unitNodes] at hcl
          obtain ⟨pre, k, post, rfl, e1, e2, e3⟩ := cleans_cons_inv hcl (by rw [hv, unitNode]; rfl)
          obtain ⟨t1, t2⟩ := tight rfl
          have hfr2 : ∀ d ∈ rest, ∀ p ∈ s1, ¬ d.path <+: p := by
            intro d hd p hp hpre
            rcases (parse_seen fuel).1 _ _ _ _ g1 p hp with h | h
            · exact hfr' d hd p h hpre
            · obtain ⟨n, hn⟩ := hsib.depth
              have : c.path = d.path := by
                have hl : c.path.length = d.path.length := by rw [hn c List.mem_cons_self, hn d (List.mem_cons_of_mem _ hd)]
                rw [List.prefix_iff_eq_take.1 h, List.prefix_iff_eq_take.1 hpre, hl]
              exact List.rel_of_pairwise_cons hsib.apart hd this
          obtain ⟨a1, a2, a3⟩ := IH (by omega) h4 g2 hsib' hfr2 e2 t2
          have hsh : ∀ rows, WordTable c rows → ShowsTable doc cls rows k.clean := fun rows hW => by rw [e1]; exact table_shown cls hW g1 hcf
          obtain ⟨tss, hts, hgr⟩ := h3.groups
          have hw : Woven inner k.flat := by
            rw [← hts]
            refine table_woven (hsh rows h2) t1 hgr ?_
            rintro cell t i e hc ⟨o, hr⟩ hs het
            obtain ⟨tag, fill, hh, elems, -, htag, -, ⟨fuel', seen1, seen2, ha, hfr3⟩, he⟩ := hs
            obtain ⟨kk, rfl⟩ := clean_elem he
            have hleaf : isLeafTag tag = false := by
              rcases htag with ⟨rfl, -⟩ | ⟨rfl, -⟩ <;> decide
            rw [Node.clean, hleaf, if_neg (by decide)] at he
            have hsz : streamSize cell.tc.children ≤ N := by
              obtain ⟨tr, m1, m2⟩ := h2.cell_mem hc
              have z1 := streamSize_children c
              have z2 := streamSize_mem (mem_childs m1).1
              have z3 := streamSize_children tr
              have z4 := streamSize_mem (mem_childs m2).1
              have z5 := streamSize_children cell.tc
              omega
            have := IH hsz hr ha (Sibs.children _) (fun d hd p hp hpre => by
              obtain ⟨j, hj, -⟩ := children_path hd
              refine hfr3 p hp (List.IsPrefix.trans ?_ hpre)
              rw [hj]; exact List.prefix_append _ _) (Node.elem.inj he).2.2 ((tights_iff _).2 (elem_tights het))
            rw [Node.flat]; exact this.whole
          have hkt : k.hasTag tTable = true ∧ k.hasTag c!"p" = false := by
            rw [hv, unitNode] at e1
            obtain ⟨kk, rfl⟩ := clean_elem e1
            exact ⟨by simp [Node.hasTag, tTable], by simp [Node.hasTag]⟩
          refine ⟨?_, ?_, ?_⟩
          · rw [List.filter_append, cleans_filter_hasTag e3, List.nil_append, List.filter_cons_of_neg (by rw [hkt.2]; decide), a1]
          · rw [flats_append', Node.flats]
            exact Woven.blank (flats_blanks e3) (hw.append a2)
          · have hk : (pre ++ k :: post).filter (Node.hasTag tTable) = k :: post.filter (Node.hasTag tTable) := by
              rw [List.filter_append, cleans_filter_hasTag e3, List.nil_append, List.filter_cons_of_pos hkt.1]
            rw [hk, List.filter_cons_of_pos (p := fun c : LNode => c.node.hasTag wTbl) h1]
            exact .cons ⟨t1, hsh⟩ a3

/-- **C77** (helper) a cell of the page shows all of the Word cell -/
theorem shownCell_all {doc : WordDoc} {cls : Classes} {rows : List (List WCell)} {i : Nat} {c : WCell} {td : Node} {ts own : List Str}
    (h : ShowsCell doc cls rows i c td.clean) (ht : td.Tight) (hr : CellReads doc c.tc.children ts own) :
    ShowsAll doc cls c.tc.children ts own td.kids := by
  obtain ⟨tag, fill, hh, elems, -, htag, -, ⟨fuel', seen1, seen2, ha, hfr3⟩, he⟩ := h
  obtain ⟨kk, rfl⟩ := clean_elem he
  have hleaf : isLeafTag tag = false := by
    rcases htag with ⟨rfl, -⟩ | ⟨rfl, -⟩ <;> decide
  rw [Node.clean, hleaf, if_neg (by decide)] at he
  exact parseAny_shows _ (Nat.le_refl _) hr ha (Sibs.children _) (fun d hd p hp hpre => by
    obtain ⟨j, hj, -⟩ := children_path hd
    refine hfr3 p hp (List.IsPrefix.trans ?_ hpre)
    rw [hj]; exact List.prefix_append _ _) (Node.elem.inj he).2.2 ((tights_iff _).2 (elem_tights ht))

/-- The cell `y` of an expanded row has these texts: `own` are those of its paragraphs, and all its text is `ts`, with white space around them. -/
structure HasAll (ts own : List Str) (y : Node) : Prop where
  paras : (y.childs tP).map Node.toText = own.map strip
  whole : ∃ w, Woven ts w ∧ y.toText = strip w

/-- The rows `out`, after the header rows, are the data rows of the Word table: they have no header cells, and each cell has all texts of the Word cell
it belongs to. `k` is the number of rows above the header rows. -/
def AllTextsOf (doc : WordDoc) (rows : List (List WCell)) (k : Nat) (hdr body : List (List WCell)) (out : List Node) : Prop :=
  ∃ H B, out = H ++ B ∧ H.length = hdr.length ∧ B.length = body.length ∧
    (∀ r ∈ B, r.childs tTh = []) ∧ ∀ (i : Nat) row r, body[i]? = some row → B[i]? = some r →
      List.Forall₂ (fun x y => ∃ j c, Origin rows (k + hdr.length + i) x j c ∧
        ∀ ts own, CellReads doc c.tc.children ts own → HasAll ts own y) row (r.childs tTd)

omit [Uni] in
theorem kids_dropRowspan (y : Node) : (dropRowspan y).kids = y.kids := by cases y <;> rfl

/-- a cell of an expanded row shows the Word cell it stands for -/
theorem StandsFor.all {doc : WordDoc} {cls : Classes} {rows : List (List WCell)} {n : Node} {i : Nat} {x : WCell} {y : Node} (ht : n.Tight)
    (h : StandsFor doc cls rows n i x y) : ∃ j c, Origin rows i x j c ∧ y.isElem = true ∧
      ∀ ts own, CellReads doc c.tc.children ts own → ShowsAll doc cls c.tc.children ts own y.kids := by
  obtain ⟨j, c, tr, td, ho, htr, htd, hs, hy⟩ := h
  have he := hasTag_isElem (List.mem_filter.1 htd).2
  refine ⟨j, c, ho, ?_, fun ts own hr => ?_⟩
  · rw [hy]
    split
    · exact he
    · cases td with
      | text s => exact he
      | elem t as ks => rfl
  have := shownCell_all hs (childs_tight (childs_tight ht (List.mem_of_getElem? htr)) htd) hr
  rw [hy]
  split
  · exact this
  · rw [kids_dropRowspan]; exact this

theorem ShowsAll.has {doc : WordDoc} {cls : Classes} {cs : List LNode} {ts own : List Str} {y : Node} (hy : y.isElem = true)
    (h : ShowsAll doc cls cs ts own y.kids) : HasAll ts own y := by
  cases y with
  | text s => cases hy
  | elem t as ks => exact ⟨h.paras, _, h.whole, rfl⟩

theorem RowsOf.allTexts {doc : WordDoc} {cls : Classes} {rows : List (List WCell)} {n : Node} {k : Nat} {hdr body : List (List WCell)}
    {out : List Node} (hl : (n.childs tTr).length = k + hdr.length + body.length) (h : RowsOf doc cls rows n k hdr body out) (ht : n.Tight) :
    AllTextsOf doc rows k hdr body out := by
  obtain ⟨H, B, h1, h2, h3, h0, h4⟩ := h
  refine ⟨H, B, h1, ?_, h3, h0, fun i row r hi hr => (h4 i row r hi hr).imp ?_⟩
  · rw [h2, List.length_take, List.length_drop]
    omega
  · rintro x y hs
    obtain ⟨j, c, ho, he, ha⟩ := hs.all ht
    exact ⟨j, c, ho, fun ts own hr => (ha ts own hr).has he⟩

/-! ### C77 -/

/-- **C77** The page of a Word document is read, and the rows of a figure are expanded. In each data row, each cell has all texts of the Word cell
it belongs to, in order, with white space between and around them: of its paragraphs, of the items of its lists, and of the cells of the tables in it, however
deep they are. Its paragraphs are those of the Word cell itself. It is `partial` because of the assumptions on the table, see
C41_two_stages_partial. What is a text of a paragraph is stated in `C50_kept_exact`, and in `C67_line_breaks` for its line breaks. -/
theorem C77_cell_reads_partial (doc : WordDoc) (hx : XmlText doc.root.flat) (us : List HUnit) (h : parseWord doc = .ok us)
    (version title fname : Str) (revision : Option Str) (h1 : HeadText version) (h2 : HeadText title)
    (h3 : ∀ r, revision = some r → HeadText r) (h4 : HeadText fname) (t : Str)
    (ht : Laid (renderPage version title revision fname us).1 t) :
    ∃ p, readXml t = some p ∧ ∀ n ∈ figures p, ∃ tbl ∈ docTables doc.root,
      ∀ hdr body W, DataTable hdr body W →
        (WordTable tbl (hdr ++ body) →
          (rowIter n).2 = none ∧ AllTextsOf doc (hdr ++ body) 0 hdr body ((rowIter n).1.map (·.node))) ∧
        (∀ first, WordTable tbl (first :: hdr ++ body) →
          (rowIter (removeFirstTr n)).2 = none ∧
            AllTextsOf doc (first :: hdr ++ body) 1 hdr body ((rowIter (removeFirstTr n)).1.map (·.node))) := by
  have hok := parseWord_ok hx h
  obtain ⟨p, hr, hp⟩ := page_read h1 h2 h3 h4 hok ht
  have hpt := page_tight h1 h2 h3 h4 hok ht hr
  refine ⟨p, hr, fun n hn => ?_⟩
  obtain ⟨v, hv, hvs, hnv⟩ := figures_shown hp hn
  obtain ⟨tbl, fuel, seen, seen', hd, hsrc, hpar, hfr⟩ := parseWord_from h v hvs
  have hnt : n.Tight := by
    obtain ⟨b, hb, hnb⟩ := List.mem_flatMap.1 hn
    exact childs_tight (childs_tight hpt hb) hnb
  refine ⟨tbl, hd, fun hdr body W hD => ⟨fun hW => ?_, fun first hW => ?_⟩⟩
  · have hs : ShowsTable doc (classesOf (renderPage version title revision fname us).2) (hdr ++ body) n.clean := by rw [hnv]; exact table_shown _ hW hpar hfr
    obtain ⟨g1, g2⟩ := two_stages (pre := []) hW hD hs rfl
    exact ⟨g1, g2.allTexts (by rw [(shown_rows hs).1]; simp) hnt⟩
  · have hs : ShowsTable doc (classesOf (renderPage version title revision fname us).2) (first :: hdr ++ body) n.clean := by rw [hnv]; exact table_shown _ hW hpar hfr
    obtain ⟨g1, g2⟩ := two_stages (pre := [first]) hW hD hs (childs_removeFirstTr n)
    exact ⟨g1, g2.allTexts (by rw [(shown_rows hs).1]; simp; omega) hnt⟩

end

/-! ### Example -/

section
variable [Uni]

/-- the cells of the rows of a Word table without vertical merges, by their markup -/
def exCells : Nat → List LNode → List WCell
  | _, [] => []
  | col, c :: cs =>
    let span := match c.node.attrFirst [wTcPr, c!"w:gridSpan"] aVal with
      | none => 1
      | some v => Nat.ofDigitChars 10 v 0
    ⟨c, col, span, false⟩ :: exCells (col + span) cs

def nestRows (t : LNode) : List (List WCell) := (t.childs wTr).map fun tr => exCells 0 (tr.childs wTc)

/-- the table has no vertical merges, and spans are numbers from one on -/
def exUnmerged (t : LNode) : Bool :=
  (t.childs wTr).all fun tr => (tr.childs wTc).all fun c =>
    (c.node.first [wTcPr, c!"w:vMerge"]).isNone && match c.node.attrFirst [wTcPr, c!"w:gridSpan"] aVal with
      | none => true
      | some v => v != [] && v.all Char.isDigit && decide (v.length ≤ 4300) && decide (1 ≤ Nat.ofDigitChars 10 v 0)

omit [Uni] in
theorem exCells_tc (col : Nat) (cs : List LNode) : (exCells col cs).map (·.tc) = cs := by
  induction cs generalizing col with
  | nil => rfl
  | cons c cs ih => rw [exCells]; simp [ih]

omit [Uni] in
theorem exCells_cont {col : Nat} {cs : List LNode} {c : WCell} (h : c ∈ exCells col cs) : c.cont = false := by
  induction cs generalizing col with
  | nil => cases h
  | cons d cs ih =>
    rw [exCells] at h
    rcases List.mem_cons.1 h with rfl | h
    · rfl
    · exact ih h

omit [Uni] in
theorem exCells_cols (cs : List LNode) : ∀ (col : Nat) (before : List WCell) (c : WCell) (after : List WCell), exCells col cs = before ++ c :: after →
    c.col = col + widthOf before := by
  induction cs with
  | nil => intro col before c after h; rw [exCells] at h; cases before <;> cases h
  | cons d cs ih =>
    intro col before c after h
    rw [exCells] at h
    cases before with
    | nil => cases h; rfl
    | cons b before =>
      rw [List.cons_append, List.cons.injEq] at h
      have := ih _ before c after h.2
      rw [this, ← h.1, widthOf_cons]
      simp only
      omega

omit [Uni] in
theorem exCells_span {col : Nat} {cs : List LNode} {c : WCell} (h : c ∈ exCells col cs) : c.tc ∈ cs ∧
    c.span = match c.tc.node.attrFirst [wTcPr, c!"w:gridSpan"] aVal with | none => 1 | some v => Nat.ofDigitChars 10 v 0 := by
  induction cs generalizing col with
  | nil => cases h
  | cons d cs ih =>
    rw [exCells] at h
    rcases List.mem_cons.1 h with rfl | h
    · exact ⟨List.mem_cons_self, rfl⟩
    · exact ⟨List.mem_cons_of_mem _ (ih h).1, (ih h).2⟩

omit [Uni] in
theorem nestRows_table {t : LNode} (h : exUnmerged t = true) : WordTable t (nestRows t) := by
  unfold exUnmerged at h
  simp only [List.all_eq_true] at h
  have hrow : ∀ row ∈ nestRows t, ∃ tr ∈ t.childs wTr, row = exCells 0 (tr.childs wTc) := by
    intro row hr
    obtain ⟨tr, h1, h2⟩ := List.mem_map.1 hr
    exact ⟨tr, h1, h2.symm⟩
  constructor
  · unfold nestRows
    rw [List.map_map]
    refine List.map_congr_left fun tr _ => ?_
    exact (exCells_tc _ _).symm
  · intro row hr c hc
    obtain ⟨tr, h1, rfl⟩ := hrow row hr
    obtain ⟨h2, h3⟩ := exCells_span hc
    have hcc := exCells_cont hc
    have h4 := h tr h1 c.tc h2
    rw [Bool.and_eq_true, Option.isNone_iff_eq_none] at h4
    cases hq : c.tc.node.attrFirst [wTcPr, c!"w:gridSpan"] aVal with
    | none =>
      rw [hq] at h3
      exact ⟨by rw [h3], .inl ⟨hq, h3⟩, (fun h => by rw [hcc] at h; cases h), fun _ => .inl h4.1⟩
    | some v =>
      rw [hq] at h3 h4
      simp only [Bool.and_eq_true, decide_eq_true_eq, bne_iff_ne, List.all_eq_true] at h3 h4
      refine ⟨by rw [h3]; exact h4.2.2, .inr ⟨v, hq, h4.2.1.1.1, h4.2.1.1.2, h4.2.1.2, h3.symm⟩, (fun h => by rw [hcc] at h; cases h), fun _ => .inl h4.1⟩
  · intro row hr before c after he
    obtain ⟨tr, h1, rfl⟩ := hrow row hr
    have := exCells_cols _ _ _ _ _ he
    omega
  · intro row hr c hc
    obtain ⟨tr, h1, rfl⟩ := hrow row (List.mem_of_getElem? hr)
    exact exCells_cont hc
  · intro i above row _ hr c hc hcc
    obtain ⟨tr, h1, rfl⟩ := hrow row (List.mem_of_getElem? hr)
    rw [exCells_cont hc] at hcc
    cases hcc

/-- a decision procedure for items of lists -/
def nestItem (doc : WordDoc) (p : Node) : Bool :=
  match p.attrFirst [wPPr, c!"w:numPr", c!"w:numId"] aVal, doc.numbering with
  | some id, some n => match pyInt id with
    | .ok i => n.nums.any (fun q => q.1 == i)
    | .error _ => false
  | _, _ => false

theorem nestItem_iff (doc : WordDoc) (p : Node) : nestItem doc p = true ↔ ListItem doc p := by
  unfold nestItem ListItem
  constructor
  · intro h
    split at h
    · rename_i id n h1 h2
      split at h
      · rename_i i h3
        rw [List.any_eq_true] at h
        obtain ⟨⟨i', a⟩, h4, h5⟩ := h
        simp only [beq_iff_eq] at h5
        subst h5
        exact ⟨id, n, _, a, h1, h2, (C96_number _ _).1 h3, h4⟩
      · cases h
    · cases h
  · rintro ⟨id, n, i, a, h1, h2, h3, h4⟩
    rw [← C96_number] at h3
    rw [h1, h2]
    simp only [h3]
    rw [List.any_eq_true]
    exact ⟨_, h4, by simp⟩

/-- the texts of a cell -/
def nestReads (doc : WordDoc) : Nat → List LNode → Option (List Str × List Str)
  | 0, _ => none
  | _ + 1, [] => some ([], [])
  | fuel + 1, c :: cs =>
    match nestReads doc fuel cs with
    | none => none
    | some (ts, own) =>
      if c.node.hasTag wP then
        if nestItem doc c.node then some (textsOf c.node ++ ts, own)
        else some (textsOf c.node ++ ts, textsOf c.node ++ own)
      else if c.node.hasTag wTbl then
        if !exUnmerged c then none
        else match nestReads doc fuel (((nestRows c).flatten.filter (fun c => !c.cont)).flatMap (·.tc.children)) with
          | none => none
          | some (inner, _) => some (inner ++ ts, own)
      else some (ts, own)

theorem nestReads_ok (doc : WordDoc) (fuel : Nat) : ∀ {cs : List LNode} {ts own : List Str}, nestReads doc fuel cs = some (ts, own) →
    CellReads doc cs ts own := by
  induction fuel with
  | zero => intro cs ts own h; rw [nestReads] at h; cases h
  | succ fuel ih =>
    intro cs ts own h
    cases cs with
    | nil => rw [nestReads] at h; cases h; exact .nil
    | cons c cs =>
      rw [nestReads] at h
      cases hq : nestReads doc fuel cs with
      | none => rw [hq] at h; cases h
      | some r =>
        obtain ⟨ts', own'⟩ := r
        have hr := ih hq
        rw [hq] at h
        simp only at h
        by_cases h1 : c.node.hasTag wP = true
        · rw [if_pos h1] at h
          by_cases h3 : nestItem doc c.node = true
          · rw [if_pos h3] at h
            cases h
            exact .item h1 ((nestItem_iff _ _).1 h3) hr
          · rw [if_neg h3] at h
            cases h
            exact .para h1 (fun hi => h3 ((nestItem_iff _ _).2 hi)) hr
        · rw [if_neg h1] at h
          by_cases h2 : c.node.hasTag wTbl = true
          · rw [if_pos h2] at h
            by_cases h3 : exUnmerged c = true
            · rw [if_neg (by rw [h3]; decide)] at h
              cases hi : nestReads doc fuel (((nestRows c).flatten.filter (fun c => !c.cont)).flatMap (·.tc.children)) with
              | none => rw [hi] at h; cases h
              | some r =>
                obtain ⟨inner, o⟩ := r
                rw [hi] at h
                cases h
                exact .table h2 (nestRows_table h3) (ih hi) hr
            · rw [if_pos (by simpa using h3)] at h; cases h
          · rw [if_neg h2] at h
            cases h
            exact .other (by simpa using h1) (by simpa using h2) hr

end

/-- a cell with a paragraph, two items of a list, a table with a table inside, and a paragraph -/
def exDeepCell : LNode := ⟨[0], exCell [] [exPara "The mode is", exItem "0" "first", exItem "1" "second",
  .elem wTbl [] [exTr [exCell [] [exPara "a"], exCell [] [exInner "b", exPara "c"]]], exPara "end."]⟩

example : letI := Uni.ascii
    CellReads exNumDoc exDeepCell.children [c!"The mode is", c!"first", c!"second", c!"a", c!"b", c!"c", c!"end."] [c!"The mode is", c!"end."] := by
  let _ := Uni.ascii
  exact nestReads_ok exNumDoc 30 (by decide +kernel)

end Spex
