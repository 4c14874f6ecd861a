import Verif.Lemmas.Tight
import Verif.Props.Identity
import Verif.Props.Numbers
import Verif.Props.Paragraph
/-
C67: the text of a Word cell, after both stages.
-/
set_option autoImplicit false
namespace Spex

/-! ### Specification -/

/-- the paragraph is an item of a list: it refers to a numbering of the document -/
def ListItem [Uni] (doc : WordDoc) (p : Node) : Prop :=
  ∃ id n i a, p.attrFirst [wPPr, c!"w:numPr", c!"w:numId"] aVal = some id ∧ doc.numbering = some n ∧ WholeNumber id i ∧ (i, a) ∈ n.nums

/-- the Word cell holds no tables and no list items -/
structure ParaCell [Uni] (doc : WordDoc) (tc : Node) : Prop where
  tables : tc.childs wTbl = []
  items : ∀ p ∈ tc.childs wP, ¬ ListItem doc p

/-- What is read back of a paragraph: what is kept of each of its runs (C50), with the line breaks of XML. A carriage return, with or without a
line feed after it, is read as a line feed; see `C67_line_breaks` for paragraphs without. -/
def readText (p : Node) : Str := p.elems.flatMap (fun c => eolNorm (keptChild c))

/-- the texts of the paragraphs of a Word cell which have a text -/
def cellTexts (tc : Node) : List Str := ((tc.childs wP).map readText).filter (fun s => !s.isEmpty)

/-- the texts in order, with white space before, between and after them -/
inductive Woven : List Str → Str → Prop where
  | done {w : Str} (hw : ∀ c ∈ w, isXmlSpace c = true) : Woven [] w
  | text {w : Str} (hw : ∀ c ∈ w, isXmlSpace c = true) (t : Str) {ts : List Str} {s : Str} (h : Woven ts s) : Woven (t :: ts) (w ++ t ++ s)

/-- the cell `y` of a row has these texts: a paragraph for each of them and nothing else but white space -/
structure HasTexts (ts : List Str) (y : Node) : Prop where
  only : ∀ k ∈ y.elems, k.hasTag c!"p" = true
  paras : (y.childs c!"p").map Node.toText = ts.map strip
  whole : Woven ts y.flat
  empty : ts = [] → y.toText = []
  single : ∀ t, ts = [t] → y.toText = strip t

/-- The rows `out`, after the header rows, are the data rows of the Word table: they have no header cells, and each cell has the texts of the Word cell it belongs
to. `k` is the number of rows above the header rows. -/
def TextsOf [Uni] (doc : WordDoc) (rows : List (List WCell)) (k : Nat) (hdr body : List (List WCell)) (out : List Node) : Prop :=
  ∃ H B, out = H ++ B ∧ H.length = hdr.length ∧ B.length = body.length ∧
    (∀ r ∈ B, r.childs tTh = []) ∧ ∀ (i : Nat) row r, body[i]? = some row → B[i]? = some r →
      List.Forall₂ (fun x y => ∃ j c, Origin rows (k + hdr.length + i) x j c ∧
        (ParaCell doc c.tc.node → HasTexts (cellTexts c.tc.node) y)) row (r.childs tTd)

/-! ### Proof -/

/-- the text of spans as it is read back -/
def spansRead (spans : List HSpan) : Str := spans.flatMap (fun s => eolNorm s.text)

theorem eolNorm_nil {s : Str} : eolNorm s = [] ↔ s = [] := by
  constructor
  · intro h
    unfold eolNorm at h
    split at h
    · rfl
    · cases h
    · cases h
    · cases h
  · rintro rfl; rfl

theorem spansRead_append (a b : List HSpan) : spansRead (a ++ b) = spansRead a ++ spansRead b := by
  simp [spansRead]

theorem spansRead_nil {ss : List HSpan} : spansRead ss = [] ↔ spansText ss = [] := by
  unfold spansRead spansText
  simp only [List.flatMap_eq_nil_iff, eolNorm_nil]

theorem readText_nil {p : Node} : readText p = [] ↔ keptText p = [] := by
  unfold readText keptText
  simp only [List.flatMap_eq_nil_iff, eolNorm_nil]

theorem parseRun_read [Uni] {doc : WordDoc} {r : Node} {spans : List HSpan} (h : parseRun doc r = .ok spans) : spansRead spans = eolNorm (spansText spans) := by
  unfold parseRun at h
  cases ht : (r.first [wT]).bind Node.text? with
  | none => rw [ht] at h; cases h; rfl
  | some s =>
    rw [ht] at h
    obtain ⟨st, -, h⟩ := except_bind_ok h
    cases h
    simp [spansRead, spansText]

/-- what is read back of the spans of a paragraph -/
theorem read_exact [Uni] {doc : WordDoc} {p : Node} {spans : List HSpan} (h : parseSpans doc p = .ok spans) : spansRead spans = readText p := by
  unfold parseSpans at h
  unfold readText
  generalize p.elems = cs at h ⊢
  induction cs generalizing spans with
  | nil => rw [parseChildren] at h; cases h; rfl
  | cons c cs ih =>
    rw [parseChildren] at h
    obtain ⟨s, h1, h⟩ := except_bind_ok h
    obtain ⟨ss, h2, h⟩ := except_bind_ok h
    cases h
    rw [spansRead_append, List.flatMap_cons, ih h2]
    congr 1
    unfold keptChild
    rcases parseChild_cases h1 with ⟨hr, hp⟩ | ⟨hr, hh, r, rs, hc, hp⟩ | ⟨hr, hh, hs⟩
    · rw [if_pos hr, parseRun_read hp, parseRun_kept hp]
    · rw [if_neg (by rw [hr]; decide), if_pos hh, hc, parseRun_read hp, parseRun_kept hp]; rfl
    · rw [if_neg (by rw [hr]; decide), if_neg (by rw [hh]; decide), hs]; rfl

theorem xmlSpace_isSpace {c : Char} (h : isXmlSpace c = true) : isSpace c = true := by
  unfold isXmlSpace at h
  simp only [Bool.or_eq_true, beq_iff_eq] at h
  rcases h with ((h | h) | h) | h <;> subst h <;> decide

theorem strip_around {a t b : Str} (ha : ∀ c ∈ a, isSpace c = true) (hb : ∀ c ∈ b, isSpace c = true) : strip (a ++ t ++ b) = strip t := by
  obtain ⟨s1, s2, h1, h2, h3⟩ := strip_parts t
  obtain ⟨h4, h5⟩ := strip_ends t
  have e : a ++ t ++ b = (a ++ s1) ++ strip t ++ (s2 ++ b) := by
    conv => lhs; rw [h1]
    simp
  rw [e]
  exact strip_of (fun c hc => (List.mem_append.1 hc).elim (ha c) (h2 c)) (fun c hc => (List.mem_append.1 hc).elim (h3 c) (hb c)) h4 h5

theorem Woven.blank {ts : List Str} {s w : Str} (hw : ∀ c ∈ w, isXmlSpace c = true) (h : Woven ts s) : Woven ts (w ++ s) := by
  cases h with
  | done h' => exact .done (fun c hc => (List.mem_append.1 hc).elim (hw c) (h' c))
  | @text w' h' t ts s h =>
    rw [← List.append_assoc, ← List.append_assoc]
    exact .text (fun c hc => (List.mem_append.1 hc).elim (hw c) (h' c)) t h

theorem Woven.strip_nil {s : Str} (h : Woven [] s) : strip s = [] := by
  cases h with
  | done hw =>
    have := strip_of (s1 := s) (t := []) (s2 := []) (fun c hc => xmlSpace_isSpace (hw c hc)) (by simp) (by simp) (by simp)
    simpa using this

theorem Woven.strip_one {s t : Str} (h : Woven [t] s) : strip s = strip t := by
  cases h with
  | text hw t h =>
    cases h with
    | done hw' => exact strip_around (fun c hc => xmlSpace_isSpace (hw c hc)) (fun c hc => xmlSpace_isSpace (hw' c hc))

/-- a span as it is read -/
theorem span_flat {cls : Classes} {e : Node} {s : HSpan} (h : e.clean = spanNode cls s) : e.flat = eolNorm s.text := by
  obtain ⟨ks, rfl⟩ := clean_elem h
  rw [Node.clean, spanNode, if_pos (by decide)] at h
  cases h
  rw [Node.flat]
  unfold textKids
  cases eolNorm s.text with
  | nil => rfl
  | cons c t => simp [Node.flats, Node.flat]

theorem spans_flat {cls : Classes} {ks : List Node} {ss : List HSpan} (h : cleans ks = ss.map (spanNode cls))
    (hk : ∀ k ∈ ks, k.isElem = true) : Node.flats ks = spansRead ss := by
  induction ks generalizing ss with
  | nil =>
    rw [cleans] at h
    cases ss with
    | nil => rfl
    | cons s ss => cases h
  | cons k ks ih =>
    have he := hk k List.mem_cons_self
    rw [cleans, if_neg (by cases k <;> simp [Node.isBlank, Node.isElem] at he ⊢)] at h
    cases ss with
    | nil => cases h
    | cons s ss =>
      rw [List.map_cons, List.cons.injEq] at h
      unfold spansRead
      rw [Node.flats, List.flatMap_cons, span_flat h.1]
      exact congrArg _ (ih h.2 (fun k hk' => hk k (List.mem_cons_of_mem _ hk')))

theorem cleans_elem_list {es : List Node} (h : ∀ e ∈ es, e.isElem = true) : cleans es = es.map Node.clean := by
  induction es with
  | nil => rfl
  | cons e es ih =>
    have he := h e List.mem_cons_self
    rw [cleans, if_neg (by cases e <;> simp [Node.isBlank, Node.isElem] at he ⊢), List.map_cons, ih (fun x hx => h x (List.mem_cons_of_mem _ hx))]

theorem flats_append' (a b : List Node) : Node.flats (a ++ b) = Node.flats a ++ Node.flats b := by
  induction a with
  | nil => rfl
  | cons k a ih => rw [List.cons_append, Node.flats, Node.flats, ih, List.append_assoc]

/-- the elements in a paragraph or an item of a list -/
theorem frame_parts {ks ns : List Node} (ht : Framed ks) (h : cleans ks = ns) (hn : ∀ n ∈ ns, n.isElem = true) :
    ∃ w es w', Node.flats ks = w ++ Node.flats es ++ w' ∧ (∀ c ∈ w, isXmlSpace c = true) ∧ (∀ c ∈ w', isXmlSpace c = true) ∧
      (∀ e ∈ es, e.isElem = true) ∧ es.map Node.clean = ns ∧ ∀ e ∈ es, e ∈ ks := by
  obtain ⟨a, ls, b, rfl, ha, hl, hb⟩ := ht
  have blank : ∀ {x : List Node}, TextOpt x → (∀ n ∈ cleans x, n.isElem = true) →
      cleans x = [] ∧ ∀ c ∈ Node.flats x, isXmlSpace c = true := by
    rintro x (rfl | ⟨w, rfl⟩) hx
    · exact ⟨rfl, fun c hc => by cases hc⟩
    · rw [cleans] at hx ⊢
      by_cases hw : (Node.text w).isBlank = true
      · rw [if_pos hw]
        refine ⟨rfl, fun c hc => ?_⟩
        rw [Node.flats, Node.flat, Node.flats, List.append_nil] at hc
        exact List.all_eq_true.1 hw c hc
      · rw [if_neg hw] at hx
        exact absurd (hx _ List.mem_cons_self) (by simp [Node.clean, Node.isElem])
  rw [cleans_append, cleans_append] at h
  obtain ⟨a1, a2⟩ := blank ha (fun n hm => hn n (by rw [← h]; simp [hm]))
  obtain ⟨b1, b2⟩ := blank hb (fun n hm => hn n (by rw [← h]; simp [hm]))
  rw [a1, b1, List.nil_append, List.append_nil, cleans_elem_list hl] at h
  exact ⟨Node.flats a, ls, Node.flats b, by rw [flats_append', flats_append'], a2, b2, hl, h, fun e he => by simp [he]⟩

/-- a paragraph as it is read -/
theorem para_flat {cls : Classes} {n : Node} {ss : List HSpan} (h : n.clean = unitNode cls (.para ss)) (ht : n.Tight) : n.hasTag c!"p" = true ∧
    ∃ w w', (∀ c ∈ w, isXmlSpace c = true) ∧ (∀ c ∈ w', isXmlSpace c = true) ∧ n.flat = w ++ spansRead ss ++ w' := by
  rw [unitNode] at h
  obtain ⟨ks, rfl⟩ := clean_elem h
  rw [Node.clean, if_neg (by decide)] at h
  rw [Node.Tight] at ht
  refine ⟨by simp [Node.hasTag], ?_⟩
  rw [Node.flat]
  have h' : cleans ks = ss.map (spanNode cls) := (Node.elem.inj h).2.2
  obtain ⟨w, es, w', g1, g2, g3, g4, g5, -⟩ := frame_parts (ht.1 (.inl rfl)) h' (by
    intro n hn
    obtain ⟨s, -, rfl⟩ := List.mem_map.1 hn; rfl)
  refine ⟨w, w', g2, g3, ?_⟩
  rw [g1, spans_flat (cls := cls) (by rw [cleans_elem_list g4, g5]) g4]

section
variable [Uni]

omit [Uni] in
/-- the paragraphs in a cell as they are read -/
theorem paras_flat {cls : Classes} {ks : List Node} {sss : List (List HSpan)} (h : cleans ks = unitNodes cls (sss.map HUnit.para))
    (ht : Tights ks) :
    (∀ k ∈ ks, k.isElem = true → k.hasTag c!"p" = true) ∧
    (ks.filter (Node.hasTag c!"p")).map Node.toText = (sss.map spansRead).map strip ∧ Woven (sss.map spansRead) (Node.flats ks) := by
  induction ks generalizing sss with
  | nil =>
    rw [cleans] at h
    cases sss with
    | nil => exact ⟨fun k hk => (by cases hk), rfl, by rw [Node.flats]; exact .done (by simp)⟩
    | cons ss sss => rw [List.map_cons, unitNodes] at h; cases h
  | cons k ks ih =>
    rw [Tights] at ht
    rw [cleans] at h
    by_cases hb : k.isBlank = true
    · rw [if_pos hb] at h
      obtain ⟨h1, h2, h3⟩ := ih h ht.2
      cases k with
      | elem t as kk => cases hb
      | text w =>
        refine ⟨?_, ?_, ?_⟩
        · intro k hk he
          rcases List.mem_cons.1 hk with rfl | hk
          · cases he
          · exact h1 k hk he
        · rw [List.filter_cons_of_neg (by simp [Node.hasTag])]; exact h2
        · rw [Node.flats, Node.flat]; exact h3.blank (List.all_eq_true.1 hb)
    · rw [if_neg hb] at h
      cases sss with
      | nil => cases h
      | cons ss sss =>
        rw [List.map_cons, unitNodes, List.cons.injEq] at h
        obtain ⟨h1, h2, h3⟩ := ih h.2 ht.2
        obtain ⟨g1, w, w', g2, g2', g3⟩ := para_flat h.1 ht.1
        refine ⟨?_, ?_, ?_⟩
        · intro k' hk he
          rcases List.mem_cons.1 hk with rfl | hk
          · exact g1
          · exact h1 k' hk he
        · rw [List.filter_cons_of_pos g1, List.map_cons, List.map_cons, List.map_cons, h2]
          congr 1
          unfold Node.toText
          rw [g3]
          exact strip_around (fun c hc => xmlSpace_isSpace (g2 c hc)) (fun c hc => xmlSpace_isSpace (g2' c hc))
        · rw [Node.flats, g3, List.map_cons, List.append_assoc]
          exact .text g2 _ (h3.blank g2')

omit [Uni] in
theorem kidsFrom_nodes (path : List Nat) (i : Nat) (ks : List Node) : (kidsFrom path i ks).map (·.node) = ks.filter Node.isElem := by
  induction ks generalizing i with
  | nil => rfl
  | cons k ks ih =>
    rw [kidsFrom]
    by_cases h : k.isElem = true
    · rw [if_pos h, List.map_cons, ih, List.filter_cons_of_pos h]
    · rw [if_neg h, ih, List.filter_cons_of_neg h]

theorem isListPara_no {doc : WordDoc} {p : Node} {b : Bool} (h : isListPara doc p = .ok b) (hn : ¬ ListItem doc p) : b = false := by
  unfold isListPara numIdOf at h
  split at h
  · cases h; rfl
  · cases h; rfl
  · rename_i id n h1 h2
    unfold Numbering.hasNumId at h
    cases hi : pyInt id with
    | error e => rw [hi] at h; cases h
    | ok i =>
      rw [hi] at h
      cases hd : intDict n.nums i with
      | none =>
        have : (intDict n.nums i).isSome = b := by simpa [Except.map] using h
        rw [← this, hd]; rfl
      | some a =>
        refine absurd ⟨id, n, i, a, h1, h2, (C96_number _ _).1 hi, ?_⟩ hn
        unfold intDict at hd
        have : (i, a) ∈ n.nums.reverse := by
          obtain ⟨x, y, he, -⟩ := List.lookup_eq_some_iff.1 hd
          rw [he]; simp
        exact List.mem_reverse.1 this

/-- the content of a plain cell -/
theorem parseAny_plain {doc : WordDoc} : ∀ {fuel : Nat} {cs : List LNode} {seen seen' : Seen} {us : List HUnit},
    parseAny doc fuel cs seen = .ok (us, seen') → (∀ c ∈ cs, c.node.hasTag wTbl = false) →
    (∀ c ∈ cs, c.node.hasTag wP = true → ¬ ListItem doc c.node) →
    ∃ sss : List (List HSpan), us = sss.map HUnit.para ∧
      sss.map spansText = (((cs.map (·.node)).filter (Node.hasTag wP)).map keptText).filter (fun s => !s.isEmpty) ∧
      sss.map spansRead = (((cs.map (·.node)).filter (Node.hasTag wP)).map readText).filter (fun s => !s.isEmpty) := by
  intro fuel
  induction fuel with
  | zero => intro cs seen seen' us h; rw [parseAny] at h; cases h
  | succ fuel ih =>
    intro cs seen seen' us h htb hp
    cases cs with
    | nil => rw [parseAny] at h; cases h; exact ⟨[], rfl, rfl, rfl⟩
    | cons c rest =>
      rw [parseAny, if_neg (by rw [htb c List.mem_cons_self]; decide)] at h
      have htb' : ∀ c ∈ rest, c.node.hasTag wTbl = false := fun x hx => htb x (List.mem_cons_of_mem _ hx)
      have hp' : ∀ c ∈ rest, c.node.hasTag wP = true → ¬ ListItem doc c.node :=
        fun x hx => hp x (List.mem_cons_of_mem _ hx)
      by_cases hw : c.node.hasTag wP = true
      · rw [if_pos hw] at h
        obtain ⟨b, h1, h⟩ := except_bind_ok h
        have hn := hp c List.mem_cons_self hw
        rw [isListPara_no h1 hn] at h
        rw [if_neg (by decide)] at h
        obtain ⟨ps, h2, h⟩ := except_bind_ok h
        obtain ⟨⟨us', s'⟩, h3, h⟩ := except_bind_ok h
        cases h
        obtain ⟨sss, e1, e2, e3⟩ := ih h3 htb' hp'
        obtain ⟨spans, h4, h5, h6⟩ := C50_paragraph_kept h2
        have h7 := C50_kept_exact h4
        have h8 := read_exact h4
        rw [List.map_cons, List.filter_cons_of_pos hw, List.map_cons, List.map_cons]
        by_cases hnil : spans = []
        · rw [if_pos hnil] at h6
          rw [List.filter_cons_of_neg (by rw [← h7, hnil]; decide), List.filter_cons_of_neg (by rw [← h8, hnil]; decide)]
          exact ⟨sss, by rw [h6, e1]; rfl, e2, e3⟩
        · rw [if_neg hnil] at h6
          have hne : (!(keptText c.node).isEmpty) = true := by
            rw [← h7]
            cases spans with
            | nil => exact absurd rfl hnil
            | cons s ss =>
              have := h5 s List.mem_cons_self
              unfold spansText
              rw [List.flatMap_cons]
              cases ht : s.text with
              | nil => exact absurd ht this
              | cons a b => rfl
          have hne' : (!(readText c.node).isEmpty) = true := by
            cases hq : readText c.node with
            | nil => rw [readText_nil.1 hq] at hne; exact hne
            | cons a b => rfl
          rw [List.filter_cons_of_pos (p := fun s : Str => !s.isEmpty) hne, List.filter_cons_of_pos (p := fun s : Str => !s.isEmpty) hne']
          exact ⟨spans :: sss, by rw [h6, e1]; rfl, by rw [List.map_cons, e2, h7], by rw [List.map_cons, e3, h8]⟩
      · rw [if_neg hw] at h
        obtain ⟨sss, e1, e2⟩ := ih h htb' hp'
        refine ⟨sss, e1, ?_⟩
        rw [List.map_cons, List.filter_cons_of_neg hw]
        exact e2

theorem shownCell_texts {doc : WordDoc} {cls : Classes} {rows : List (List WCell)} {i : Nat} {c : WCell} {td : Node}
    (h : ShowsCell doc cls rows i c td.clean) (ht : td.Tight) (hp : ParaCell doc c.tc.node) :
    HasTexts (cellTexts c.tc.node) td := by
  obtain ⟨tag, fill, hh, elems, hf, htag, -, ⟨fuel, seen, seen', ha, -⟩, he⟩ := h
  have hnodes : c.tc.children.map (·.node) = c.tc.node.kids.filter Node.isElem := kidsFrom_nodes _ _ _
  have hmem : ∀ x ∈ c.tc.children, x.node ∈ c.tc.node.kids := by
    intro x hx
    have := List.mem_map_of_mem (f := fun l : LNode => l.node) hx
    rw [hnodes] at this
    exact (List.mem_filter.1 this).1
  obtain ⟨sss, e1, -, e2⟩ := parseAny_plain ha (fun x hx => by
    cases hq : x.node.hasTag wTbl with
    | false => rfl
    | true =>
      have : x.node ∈ c.tc.node.childs wTbl := List.mem_filter.2 ⟨hmem x hx, hq⟩
      rw [hp.tables] at this
      cases this) (fun x hx hw => by
    have : x.node ∈ c.tc.node.childs wP := List.mem_filter.2 ⟨hmem x hx, hw⟩
    exact hp.items _ this)
  have hfil : (c.tc.children.map (·.node)).filter (Node.hasTag wP) = c.tc.node.childs wP := by
    rw [hnodes, List.filter_filter]
    refine List.filter_congr (fun k _ => ?_)
    by_cases hk : k.hasTag wP = true
    · rw [hk, hasTag_isElem hk]; rfl
    · rw [Bool.not_eq_true] at hk; rw [hk]; rfl
  rw [hfil] at e2
  have e2' : sss.map spansRead = cellTexts c.tc.node := e2
  have hleaf : isLeafTag tag = false := by
    rcases htag with ⟨rfl, -⟩ | ⟨rfl, -⟩ <;> decide
  obtain ⟨ks, rfl⟩ := clean_elem he
  rw [Node.clean, hleaf, if_neg (by decide)] at he
  rw [Node.Tight] at ht
  have hcl : cleans ks = unitNodes cls (sss.map HUnit.para) := by
    rw [← e1]; exact (Node.elem.inj he).2.2
  obtain ⟨h1, h2, h3⟩ := paras_flat hcl ht.2
  rw [e2'] at h2 h3
  refine ⟨?_, h2, h3, ?_, ?_⟩
  · intro k hk
    obtain ⟨a, b⟩ := List.mem_filter.1 hk
    exact h1 k a b
  · intro hn; rw [hn] at h3; exact h3.strip_nil
  · intro t hn; rw [hn] at h3; exact h3.strip_one

omit [Uni] in
theorem HasTexts.drop {ts : List Str} {y : Node} (h : HasTexts ts y) : HasTexts ts (dropRowspan y) := by
  cases y with
  | text s => exact h
  | elem t as ks => exact ⟨h.only, h.paras, h.whole, h.empty, h.single⟩

omit [Uni] in
theorem childs_tight {n k : Node} {t : Str} (h : n.Tight) (hk : k ∈ n.childs t) : k.Tight := by
  cases n with
  | text s => cases (List.mem_filter.1 hk).1
  | elem tag as ks =>
    rw [Node.Tight] at h
    exact (tights_iff _).1 h.2 k (List.mem_filter.1 hk).1

theorem RowsOf.texts {doc : WordDoc} {cls : Classes} {rows : List (List WCell)} {n : Node} {k : Nat} {hdr body : List (List WCell)}
    {out : List Node} (hl : (n.childs tTr).length = k + hdr.length + body.length) (h : RowsOf doc cls rows n k hdr body out) (ht : n.Tight) :
    TextsOf doc rows k hdr body out := by
  obtain ⟨H, B, h1, h2, h3, h0, h4⟩ := h
  refine ⟨H, B, h1, ?_, h3, h0, fun i row r hi hr => (h4 i row r hi hr).imp ?_⟩
  · rw [h2, List.length_take, List.length_drop]
    omega
  · rintro x y ⟨j, c, tr, td, ho, htr, htd, hs, hy⟩
    refine ⟨j, c, ho, fun hp => ?_⟩
    have := shownCell_texts hs (childs_tight (childs_tight ht (List.mem_of_getElem? htr)) htd) hp
    rw [hy]
    split
    · exact this
    · exact this.drop

/-! ### C67 -/

omit [Uni] in
/-- C67 (line breaks): what is read back of a paragraph without carriage returns is what is kept of it (C50). -/
theorem C67_line_breaks {p : Node} (h : '\r' ∉ keptText p) : readText p = keptText p := by
  unfold readText
  unfold keptText at h ⊢
  refine List.flatMap_congr fun c hc => eolNorm_noCR fun x hx e => h ?_
  rw [← e]
  exact List.mem_flatMap.2 ⟨c, hc, hx⟩

/-- C67: The page of a Word document is read, and the rows of a figure are expanded. In each data row, each cell has the texts of
the Word cell it belongs to: a paragraph for each paragraph with a text, and nothing else but white space. A cell with one such
paragraph has its text, without the white space around it. It is `partial` because of the assumptions on the table, see
C41_two_stages_partial, and because the cell must be plain: see `C50_second_text_false` for runs with several texts. -/
theorem C67_cell_texts_partial (doc : WordDoc) (hx : XmlText doc.root.flat) (us : List HUnit) (h : parseWord doc = .ok us)
    (version title fname : Str) (revision : Option Str) (h1 : HeadText version) (h2 : HeadText title)
    (h3 : ∀ r, revision = some r → HeadText r) (h4 : HeadText fname) (t : Str)
    (ht : Laid (renderPage version title revision fname us).1 t) :
    ∃ p, readXml t = some p ∧ ∀ n ∈ figures p, ∃ tbl ∈ docTables doc.root,
      ∀ hdr body W, DataTable hdr body W →
        (WordTable tbl (hdr ++ body) →
          (rowIter n).2 = none ∧ TextsOf doc (hdr ++ body) 0 hdr body ((rowIter n).1.map (·.node))) ∧
        (∀ first, WordTable tbl (first :: hdr ++ body) →
          (rowIter (removeFirstTr n)).2 = none ∧
            TextsOf doc (first :: hdr ++ body) 1 hdr body ((rowIter (removeFirstTr n)).1.map (·.node))) := by
  have hok := parseWord_ok hx h
  obtain ⟨p, hr, hp⟩ := page_read h1 h2 h3 h4 hok ht
  have hpt := page_tight h1 h2 h3 h4 hok ht hr
  refine ⟨p, hr, fun n hn => ?_⟩
  obtain ⟨v, hv, hvs, hnv⟩ := figures_shown hp hn
  obtain ⟨tbl, fuel, seen, seen', hd, hsrc, hpar, hfr⟩ := parseWord_from h v hvs
  have hnt : n.Tight := by
    obtain ⟨b, hb, hnb⟩ := List.mem_flatMap.1 hn
    exact childs_tight (childs_tight hpt hb) hnb
  refine ⟨tbl, hd, fun hdr body W hD => ⟨fun hW => ?_, fun first hW => ?_⟩⟩
  · have hs : ShowsTable doc (classesOf (renderPage version title revision fname us).2) (hdr ++ body) n.clean := by rw [hnv]; exact table_shown _ hW hpar hfr
    obtain ⟨g1, g2⟩ := two_stages (pre := []) hW hD hs rfl
    exact ⟨g1, g2.texts (by rw [(shown_rows hs).1]; simp) hnt⟩
  · have hs : ShowsTable doc (classesOf (renderPage version title revision fname us).2) (first :: hdr ++ body) n.clean := by rw [hnv]; exact table_shown _ hW hpar hfr
    obtain ⟨g1, g2⟩ := two_stages (pre := [first]) hW hD hs (childs_removeFirstTr n)
    exact ⟨g1, g2.texts (by rw [(shown_rows hs).1]; simp; omega) hnt⟩

end

/-! ### Examples -/

/-- a decision procedure for plain cells, for the examples -/
def exPlainPara (p : Node) : Bool := (p.attrFirst [wPPr, c!"w:numPr", c!"w:numId"] aVal).isNone

def exPlainCell (tc : Node) : Bool := (tc.childs wTbl).isEmpty && (tc.childs wP).all exPlainPara

theorem exPlainCell_ok [Uni] {doc : WordDoc} {tc : Node} (h : exPlainCell tc = true) : ParaCell doc tc := by
  unfold exPlainCell at h
  rw [Bool.and_eq_true, List.isEmpty_iff, List.all_eq_true] at h
  have hp : ∀ p ∈ tc.childs wP, exPlainPara p = true := h.2
  unfold exPlainPara at hp
  simp only [Option.isNone_iff_eq_none] at hp
  refine ⟨h.1, ?_⟩
  rintro p hm ⟨id, n, i, a, h', -⟩
  rw [hp p hm] at h'
  cases h'

/-- a Word cell with two paragraphs with a text, the first of two runs, and an empty one between them -/
def exTwoParas : Node :=
  .elem wTc [] [
    .elem wP [] [.elem wR [] [.elem wT [] [.text c!" Host "]], .elem wR [] [.elem wT [] [.text c!"Identifier (HOSTID)"]]],
    .elem wP [] [],
    .elem wP [] [.elem wR [] [.elem wT [] [.text c!"as set by the host"]]]]

example : letI := Uni.ascii
    ParaCell exGridDoc exTwoParas ∧ cellTexts exTwoParas = [c!" Host Identifier (HOSTID)", c!"as set by the host"] := by
  let _ := Uni.ascii
  exact ⟨exPlainCell_ok (by decide +kernel), by decide +kernel⟩

/-- line breaks are read run by run: the carriage return at the end of the first run and the line feed of the second are two -/
example : readText (.elem wP [] [.elem wR [] [.elem wT [] [.text c!"a\r\nb\r"]], .elem wR [] [.elem wT [] [.text c!"\nc"]]]) = c!"a\nb\n\nc" ∧
    readText (.elem wP [] [.elem wR [] [.elem wT [] [.text c!"a\nb"]]]) = c!"a\nb" := by decide +kernel

/-- the cells of the table of C40 are plain, so that the theorem gives the text of each of them; the cell A in both rows it covers -/
example : letI := Uni.ascii
    ∀ row ∈ exWordRows [0, 0], ∀ c ∈ row, c.cont = false → ParaCell exGridDoc c.tc.node := by
  let _ := Uni.ascii
  have : ∀ row ∈ exWordRows [0, 0], ∀ c ∈ row, c.cont = false → exPlainCell c.tc.node = true := by decide +kernel
  exact fun row hr c hc ho => exPlainCell_ok (this row hr c hc ho)

end Spex
