import Verif.Lemmas.Sheet
import Verif.Props.FirstStage
import Verif.Props.Lists
import Verif.Props.Style
/-
C69: the page together with its style sheet shows texts and cells as they are in the Word document.
-/
set_option autoImplicit false
namespace Spex

/-! ### Specification: what is shown -/

/-- formatting of a text; `none` where the style sheet has nothing to say -/
structure Format where
  weight : Option Str
  slant : Option Str
  line : Option Str
  vert : Option Str
  color : Option Str
  deriving DecidableEq, Repr

/-- the formatting which the style sheet gives to an element -/
def seenFormat (rules : List CssRule) (els : List El) : Format where
  weight := cascade rules els c!"font-weight"
  slant := cascade rules els c!"font-style"
  line := cascade rules els c!"text-decoration-line"
  vert := cascade rules els c!"vertical-align"
  color := cascade rules els c!"color"

/-- what is seen on a page: a text with its formatting, a cell with its tag and its colour -/
inductive Shown where
  | text (format : Format) (s : Str)
  | cell (tag : Str) (color : Option Str)
  deriving DecidableEq, Repr

/-- one element; only texts and cells count -/
def seenElement (rules : List CssRule) (e : Node × List El) : Option Shown :=
  if e.1.hasTag c!"span" then some (.text (seenFormat rules e.2) e.1.flat)
  else if e.1.hasTag c!"td" then some (.cell c!"td" (cascade rules e.2 c!"background-color"))
  else if e.1.hasTag c!"th" then some (.cell c!"th" (cascade rules e.2 c!"background-color")) else none

/-- the texts and cells on a page from top to bottom -/
def seenOnPage (rules : List CssRule) (root : Node) : List Shown := (pageElements root).filterMap (seenElement rules)

/-- how formatting is expressed in CSS -/
def formatOf (p : RunProps) : Format where
  weight := p.bold.map fun b => if b then c!"bold" else c!"normal"
  slant := p.italics.map fun b => if b then c!"italic" else c!"normal"
  line := if p.underline = some true ∧ p.strike = some true then some c!"underline line-through"
    else if p.underline = some true then some c!"underline"
    else if p.strike = some true then some c!"line-through" else none
  vert := p.vert.map fun v => match v with
    | .baseline => c!"baseline"
    | .subscript => c!"sub"
    | .superscript => c!"super"
  color := p.color.map fun c => '#' :: c

/-- a part of the parsed document: a text, or the begin of a cell with its tag and its fill colour -/
inductive Part where
  | text (s : HSpan)
  | cell (tag : Str) (fill : Option Str)

mutual
/-- the texts and cells of the parsed document from top to bottom; of a table the cells which begin at their place -/
def unitParts : HUnit → List Part
  | .para spans => spans.map .text
  | .list _ elems => (leavesAll elems).flatten.map .text
  | .table _ _ rows => rowsParts 0 rows
def unitsParts : List HUnit → List Part
  | [] => []
  | u :: us => unitParts u ++ unitsParts us
def rowsParts (r : Nat) : List (List HCell) → List Part
  | [] => []
  | row :: rows => cellsParts r 0 row ++ rowsParts (r + 1) rows
def cellsParts (r c : Nat) : List HCell → List Part
  | [] => []
  | .mk tag elems _ _ left top fill :: cells =>
    if left = (c : Int) ∧ top = (r : Int) then .cell tag fill :: unitsParts elems ++ cellsParts r (c + 1) cells
    else cellsParts r (c + 1) cells
end

/-- what is to be seen of it; ends of lines are those of XML -/
def Part.shown : Part → Shown
  | .text s => .text ((s.style.map formatOf).getD ⟨none, none, none, none, none⟩) (eolNorm s.text)
  | .cell tag fill => .cell tag (fill.map fun f => '#' :: f)

/-- digits and letters; more than is allowed in a colour -/
def ColorText (s : Str) : Prop := ∀ c ∈ s, c.isAlphanum = true

/-! ### the caches of class names -/

/-- the requests to both caches -/
def Part.txt : Part → Option Attrs
  | .text s => s.style.map RunProps.cssAttrs
  | .cell .. => none

def Part.tcell : Part → Option Attrs
  | .text _ => none
  | .cell _ fill => fill.map tcAttrs

theorem requests_append (c : CssCache) (as bs : List Attrs) : (c.requests (as ++ bs)).2 = ((c.requests as).2.requests bs).2 := by
  induction as generalizing c with
  | nil => rfl
  | cons a as ih => exact ih _

/-- the state after rendering -/
def after (st : RSt) (ps : List Part) : RSt :=
  ⟨(st.txt.requests (ps.filterMap Part.txt)).2, (st.tcell.requests (ps.filterMap Part.tcell)).2⟩

theorem after_append (st : RSt) (ps qs : List Part) : after (after st ps) qs = after st (ps ++ qs) := by
  simp only [after, List.filterMap_append, requests_append]

theorem spans_after (st : RSt) (ss : List HSpan) : (renderSpans st ss).2 = after st (ss.map .text) := by
  induction ss generalizing st with
  | nil => rfl
  | cons s ss ih =>
    show (renderSpans (renderSpan st s).2 ss).2 = _
    rw [ih, List.map_cons, ← List.singleton_append, ← after_append]
    congr 1
    obtain ⟨style, text⟩ := s
    cases style <;> rfl

mutual
theorem item_after (e : HItem) (st : RSt) (o : Bool) : (renderItem st o e).2.1 = after st (e.leaves.flatten.map .text) := by
  cases e with
  | item spans =>
    rw [renderItem, HItem.leaves]
    simpa using spans_after st spans
  | list props elems =>
    rw [renderItem, HItem.leaves]
    exact items_after elems st false
theorem items_after (es : List HItem) (st : RSt) (o : Bool) : (renderItems st o es).2 = after st ((leavesAll es).flatten.map .text) := by
  cases es with
  | nil => rw [renderItems, leavesAll]; rfl
  | cons e es =>
    rw [renderItems, leavesAll]
    simp only [List.flatten_append, List.map_append]
    rw [items_after es, item_after e, after_append]
end

mutual
theorem any_after (u : HUnit) (st : RSt) : (renderAny st u).2 = after st (unitParts u) := by
  cases u with
  | para spans => rw [renderAny, unitParts]; exact spans_after st spans
  | list props elems => rw [renderAny, unitParts]; exact items_after elems st false
  | table src id rows => rw [renderAny, unitParts]; exact rows_after rows st 0
theorem units_after (us : List HUnit) (st : RSt) : (renderUnits st us).2 = after st (unitsParts us) := by
  cases us with
  | nil => rw [renderUnits, unitsParts]; rfl
  | cons u us =>
    rw [renderUnits, unitsParts]
    show (renderUnits (renderAny st u).2 us).2 = _
    rw [units_after us, any_after u, after_append]
theorem rows_after (rows : List (List HCell)) (st : RSt) (r : Nat) : (renderRows st r rows).2 = after st (rowsParts r rows) := by
  cases rows with
  | nil => rw [renderRows, rowsParts]; rfl
  | cons row rows =>
    rw [renderRows, rowsParts]
    show (renderRows (renderCells st r 0 row).2 (r + 1) rows).2 = _
    rw [rows_after rows, cells_after row, after_append]
theorem cells_after (cells : List HCell) (st : RSt) (r c : Nat) : (renderCells st r c cells).2 = after st (cellsParts r c cells) := by
  match cells with
  | [] => rw [renderCells, cellsParts]; rfl
  | .mk tag elems colspan rowspan left top fill :: cells =>
    rw [renderCells, cellsParts]
    by_cases hp : left = (c : Int) ∧ top = (r : Int)
    · rw [if_pos hp, if_pos hp]
      show (renderCells (renderUnits (cellClass st fill).2 elems).2 r (c + 1) cells).2 = _
      have : (cellClass st fill).2 = after st [.cell tag fill] := by cases fill <;> rfl
      rw [cells_after cells, units_after elems, this, after_append, after_append]
      rfl
    · rw [if_neg hp, if_neg hp]
      exact cells_after cells st r (c + 1)
end

/-! ### elements of a page -/

/-- whatever is around it, the node contributes `out` -/
def Gives {β : Type} (F : Node × List El → Option β) (k : Node) (out : List β) : Prop :=
  ∀ anc first last, (chains anc first last k).filterMap F = out

/-- the same for several nodes, one after another -/
def GivesAll {β : Type} (F : Node × List El → Option β) (ks : List Node) (out : List β) : Prop :=
  ∃ outs, List.Forall₂ (Gives F) ks outs ∧ out = outs.flatten

section gives
variable {β : Type} {F : Node × List El → Option β}

theorem GivesAll.nil : GivesAll F [] [] := ⟨[], .nil, rfl⟩

theorem Gives.one {k : Node} {o : List β} (h : Gives F k o) : GivesAll F [k] o := ⟨[o], .cons h .nil, by simp⟩

theorem GivesAll.append {a b : List Node} {o o' : List β} (h : GivesAll F a o) (h' : GivesAll F b o') : GivesAll F (a ++ b) (o ++ o') := by
  obtain ⟨x, h1, rfl⟩ := h
  obtain ⟨y, h2, rfl⟩ := h'
  exact ⟨x ++ y, List.rel_append h1 h2, by simp⟩

theorem GivesAll.cons {k : Node} {ks : List Node} {o os : List β} (h : Gives F k o) (hs : GivesAll F ks os) : GivesAll F (k :: ks) (o ++ os) :=
  h.one.append hs

theorem GivesAll.kids {ks : List Node} {o : List β} (h : GivesAll F ks o) (anc : List El) (first : Bool) :
    (chainsKids anc first ks).filterMap F = o := by
  obtain ⟨outs, h1, rfl⟩ := h
  induction h1 generalizing first with
  | nil => rw [chainsKids]; rfl
  | cons hk _ ih => rw [chainsKids, List.filterMap_append, hk, ih, List.flatten_cons]

/-- an element which does not count itself -/
theorem GivesAll.elem {tag : Str} {attrs : List (Str × Str)} {ks : List Node} {o : List β} (h : GivesAll F ks o)
    (hn : ∀ els, F (.elem tag attrs ks, els) = none) : Gives F (.elem tag attrs ks) o := by
  intro anc first last
  rw [chains, List.filterMap_cons, hn]
  exact h.kids _ _

/-- an element which counts -/
theorem GivesAll.elem_some {tag : Str} {attrs : List (Str × Str)} {ks : List Node} {o : List β} {b : β} (h : GivesAll F ks o)
    (hn : ∀ anc first last, F (.elem tag attrs ks, elOf tag attrs first last :: anc) = some b) : Gives F (.elem tag attrs ks) (b :: o) := by
  intro anc first last
  rw [chains, List.filterMap_cons, hn]
  simp only
  rw [h.kids]

theorem Gives.text (s : Str) : Gives F (.text s) [] := fun _ _ _ => by rw [chains]; rfl

theorem GivesAll.texts (s : Str) : GivesAll F (textKids s) [] := by
  unfold textKids
  split
  · exact .nil
  · exact (Gives.text s).one

end gives

section page
variable {β : Type} {F : Node × List El → Option β} {cls : Classes} {G : Part → List β}

theorem GivesAll.spans (ss : List HSpan) (hs : ∀ s ∈ ss, Gives F (spanNode cls s) (G (.text s))) :
    GivesAll F (ss.map (spanNode cls)) ((ss.map Part.text).flatMap G) := by
  induction ss with
  | nil => exact .nil
  | cons s ss ih =>
    rw [List.map_cons, List.map_cons, List.flatMap_cons]
    exact .cons (hs s (by simp)) (ih (fun x hx => hs x (by simp [hx])))

/-- elements which do not count -/
def Silent (F : Node × List El → Option β) : Prop :=
  ∀ tag attrs ks els, tag ≠ c!"span" → tag ≠ c!"td" → tag ≠ c!"th" → F (.elem tag attrs ks, els) = none

theorem tag_silent (props : NumLvl) : props.tag ≠ c!"span" ∧ props.tag ≠ c!"td" ∧ props.tag ≠ c!"th" := by
  unfold NumLvl.tag
  split <;> decide

theorem GivesAll.pending (hF : Silent F) {p : Option (List Node)} {o : List β} (h : GivesAll F (p.getD []) o) :
    GivesAll F ((p.map liNode).toList) o := by
  cases p with
  | none => exact h
  | some ns => exact (GivesAll.elem h (fun els => hF _ _ _ _ (by decide) (by decide) (by decide))).one

mutual
theorem item_gives (hF : Silent F) (e : HItem) (p : Option (List Node)) (o : List β) (hp : GivesAll F (p.getD []) o)
    (hs : ∀ s ∈ e.leaves.flatten, Gives F (spanNode cls s) (G (.text s))) :
    ∃ o1 o2, GivesAll F (itemNode cls p e).1 o1 ∧ GivesAll F ((itemNode cls p e).2.getD []) o2 ∧
      o1 ++ o2 = o ++ (e.leaves.flatten.map Part.text).flatMap G := by
  cases e with
  | item spans =>
    rw [itemNode, HItem.leaves]
    rw [HItem.leaves] at hs
    simp only [List.flatten_cons, List.flatten_nil, List.append_nil] at hs ⊢
    exact ⟨o, _, GivesAll.pending hF hp, GivesAll.spans spans hs, rfl⟩
  | list props elems =>
    rw [itemNode, HItem.leaves]
    rw [HItem.leaves] at hs
    have h := items_gives hF elems none [] GivesAll.nil hs
    obtain ⟨t1, t2, t3⟩ := tag_silent props
    have h1 := GivesAll.elem (attrs := [(c!"class", props.clsname)]) h (fun els => hF props.tag _ _ els t1 t2 t3)
    refine ⟨_, [], (GivesAll.elem (hp.append h1.one) (fun els => hF _ _ _ els (by decide) (by decide) (by decide))).one, .nil, ?_⟩
    simp
theorem items_gives (hF : Silent F) (es : List HItem) (p : Option (List Node)) (o : List β) (hp : GivesAll F (p.getD []) o)
    (hs : ∀ s ∈ (leavesAll es).flatten, Gives F (spanNode cls s) (G (.text s))) :
    GivesAll F (itemNodes cls p es) (o ++ ((leavesAll es).flatten.map Part.text).flatMap G) := by
  cases es with
  | nil =>
    rw [itemNodes, leavesAll]
    simpa using GivesAll.pending hF hp
  | cons e es =>
    rw [leavesAll, List.flatten_append] at hs ⊢
    obtain ⟨o1, o2, h1, h2, h3⟩ := item_gives hF e p o hp (fun s h => hs s (List.mem_append_left _ h))
    have h := items_gives hF es (itemNode cls p e).2 o2 h2 (fun s h => hs s (List.mem_append_right _ h))
    rw [itemNodes, List.map_append, List.flatMap_append, ← List.append_assoc, ← h3, List.append_assoc]
    exact h1.append h
end

/-- what a part of the document needs to contribute -/
def PartGives (F : Node × List El → Option β) (cls : Classes) (G : Part → List β) : Part → Prop
  | .text s => Gives F (spanNode cls s) (G (.text s))
  | .cell tag fill => ∀ colspan rowspan ks o, GivesAll F ks o →
      Gives F (.elem tag (cellAttrs colspan rowspan (fill.bind cls.cell)) ks) (G (.cell tag fill) ++ o)

mutual
theorem unit_gives (hF : Silent F) (u : HUnit) (h : ∀ p ∈ unitParts u, PartGives F cls G p) : Gives F (unitNode cls u) ((unitParts u).flatMap G) := by
  cases u with
  | para spans =>
    rw [unitParts] at h ⊢
    rw [unitNode]
    exact GivesAll.elem (GivesAll.spans spans (fun s hs => h (.text s) (List.mem_map.2 ⟨s, hs, rfl⟩)))
      (fun els => hF _ _ _ els (by decide) (by decide) (by decide))
  | list props elems =>
    rw [unitParts] at h ⊢
    rw [unitNode]
    obtain ⟨t1, t2, t3⟩ := tag_silent props
    have := items_gives hF elems none [] GivesAll.nil (fun s hs => h (.text s) (List.mem_map.2 ⟨s, hs, rfl⟩))
    exact GivesAll.elem this (fun els => hF _ _ _ els t1 t2 t3)
  | table src id rows =>
    rw [unitParts] at h ⊢
    rw [unitNode]
    exact GivesAll.elem (rows_gives hF rows 0 h) (fun els => hF _ _ _ els (by decide) (by decide) (by decide))
theorem units_gives (hF : Silent F) (us : List HUnit) (h : ∀ p ∈ unitsParts us, PartGives F cls G p) :
    GivesAll F (unitNodes cls us) ((unitsParts us).flatMap G) := by
  cases us with
  | nil => rw [unitNodes, unitsParts]; exact .nil
  | cons u us =>
    rw [unitsParts] at h ⊢
    rw [unitNodes, List.flatMap_append]
    exact .cons (unit_gives hF u (fun p hp => h p (List.mem_append_left _ hp))) (units_gives hF us (fun p hp => h p (List.mem_append_right _ hp)))
theorem rows_gives (hF : Silent F) (rows : List (List HCell)) (r : Nat) (h : ∀ p ∈ rowsParts r rows, PartGives F cls G p) :
    GivesAll F (rowNodes cls r rows) ((rowsParts r rows).flatMap G) := by
  cases rows with
  | nil => rw [rowNodes, rowsParts]; exact .nil
  | cons row rows =>
    rw [rowsParts] at h ⊢
    rw [rowNodes, List.flatMap_append]
    exact .cons (GivesAll.elem (cells_gives hF row r 0 (fun p hp => h p (List.mem_append_left _ hp)))
      (fun els => hF _ _ _ els (by decide) (by decide) (by decide))) (rows_gives hF rows (r + 1) (fun p hp => h p (List.mem_append_right _ hp)))
theorem cells_gives (hF : Silent F) (cells : List HCell) (r c : Nat) (h : ∀ p ∈ cellsParts r c cells, PartGives F cls G p) :
    GivesAll F (cellNodes cls r c cells) ((cellsParts r c cells).flatMap G) := by
  match cells with
  | [] => rw [cellNodes, cellsParts]; exact .nil
  | .mk tag elems colspan rowspan left top fill :: cells =>
    rw [cellsParts] at h ⊢
    rw [cellNodes]
    by_cases hp : left = (c : Int) ∧ top = (r : Int)
    · rw [if_pos hp] at h ⊢
      rw [if_pos hp, List.flatMap_append, List.flatMap_cons]
      have h1 := units_gives hF elems (fun p hm => h p (by simp [hm]))
      exact .cons (h (.cell tag fill) (by simp) colspan rowspan _ _ h1) (cells_gives hF cells r (c + 1) (fun p hm => h p (by simp [hm])))
    · rw [if_neg hp] at h ⊢
      rw [if_neg hp]
      exact cells_gives hF cells r (c + 1) h
end

end page

/-! ### white space between elements does not matter -/

theorem isElem_clean (n : Node) : n.clean.isElem = n.isElem := by
  cases n <;> rfl

theorem any_elem_cleans (ks : List Node) : (cleans ks).any Node.isElem = ks.any Node.isElem := by
  induction ks with
  | nil => rfl
  | cons k ks ih =>
    rw [cleans]
    by_cases h : k.isBlank = true
    · rw [if_pos h, ih, List.any_cons]
      cases k with
      | text t => rfl
      | elem => cases h
    · rw [if_neg h, List.any_cons, List.any_cons, ih, isElem_clean]

section clean
variable {β : Type} {F : Node × List El → Option β}

mutual
theorem chains_clean (hF : ∀ n els, F (Node.clean n, els) = F (n, els)) (n : Node) (anc : List El) (first last : Bool) :
    (chains anc first last n.clean).filterMap F = (chains anc first last n).filterMap F := by
  cases n with
  | text t => rfl
  | elem tag attrs ks =>
    have h0 := hF (.elem tag attrs ks)
    rw [Node.clean] at h0 ⊢
    rw [chains, chains, List.filterMap_cons, List.filterMap_cons, h0]
    have : (chainsKids (elOf tag attrs first last :: anc) true (if isLeafTag tag then ks else cleans ks)).filterMap F =
        (chainsKids (elOf tag attrs first last :: anc) true ks).filterMap F := by
      split
      · rfl
      · exact kids_clean hF ks _ _
    rw [this]
theorem kids_clean (hF : ∀ n els, F (Node.clean n, els) = F (n, els)) (ks : List Node) (anc : List El) (first : Bool) :
    (chainsKids anc first (cleans ks)).filterMap F = (chainsKids anc first ks).filterMap F := by
  cases ks with
  | nil => rfl
  | cons k ks =>
    rw [cleans]
    by_cases h : k.isBlank = true
    · rw [if_pos h, kids_clean hF ks, chainsKids]
      cases k with
      | text t => simp [chains, Node.isElem]
      | elem => cases h
    · rw [if_neg h, chainsKids, chainsKids, List.filterMap_append, List.filterMap_append, any_elem_cleans, isElem_clean,
        chains_clean hF k, kids_clean hF ks]
end

end clean

theorem seen_clean (rules : List CssRule) (n : Node) (els : List El) : seenElement rules (n.clean, els) = seenElement rules (n, els) := by
  unfold seenElement
  simp only [hasTag_clean]
  by_cases h : n.hasTag c!"span" = true
  · rw [if_pos h, if_pos h]
    cases n with
    | text t => rfl
    | elem tag attrs ks =>
      have : tag = c!"span" := by simpa [Node.hasTag] using h
      rw [Node.clean, if_pos (by rw [this]; rfl)]
  · rw [if_neg h, if_neg h]

/-! ### the cascade -/

/-- what one rule has to say -/
def ruleSays (els : List El) (prop : Str) (r : CssRule) : List ((Nat × Nat) × Str) :=
  (r.selectors.filter (selMatches · els)).flatMap fun sel => (r.decls.filter (fun d => d.1 == prop)).map fun d => (specificity sel, d.2)

theorem applying_eq (rules : List CssRule) (els : List El) (prop : Str) : applying rules els prop = rules.flatMap (ruleSays els prop) := rfl

theorem says_nothing {r : CssRule} {prop : Str} (h : ∀ d ∈ r.decls, d.1 ≠ prop) (els : List El) : ruleSays els prop r = [] := by
  have : r.decls.filter (fun d => d.1 == prop) = [] := by
    rw [List.filter_eq_nil_iff]
    intro d hd
    simpa using h d hd
  unfold ruleSays
  rw [this]
  simp

theorem flatMap_nil' {α γ : Type} {l : List α} {f : α → List γ} (h : ∀ a ∈ l, f a = []) : l.flatMap f = [] := by
  rw [List.flatMap_eq_nil_iff]; exact h

/-- the properties looked at -/
def lookedAt : List Str := [c!"font-weight", c!"font-style", c!"text-decoration-line", c!"vertical-align", c!"color", c!"background-color"]

theorem prelude_silent (els : List El) {prop : Str} (hp : prop ∈ lookedAt) : (preludeRules.map ruleOf).flatMap (ruleSays els prop) = [] := by
  apply flatMap_nil'
  intro r hr
  apply says_nothing
  have : (preludeRules.map ruleOf).all (fun r => r.decls.all (fun d => !lookedAt.contains d.1)) = true := by decide +kernel
  have := List.all_eq_true.1 this r hr
  intro d hd he
  have := List.all_eq_true.1 this d hd
  rw [he] at this
  simp [hp] at this

theorem listStyle_chars (l : NumLvl) : Ident l.listStyle := by
  unfold NumLvl.listStyle
  split
  · split
    · exact ident_lit (by decide)
    · split <;> exact ident_lit (by decide)
  · split <;> exact ident_lit (by decide)

theorem level_decls (l : NumLvl) : (ruleOf (l.selector, [(c!"list-style-type", l.listStyle)])).decls = [(c!"list-style-type", l.listStyle)] := by
  apply clean_decls
  intro a ha
  rw [List.mem_singleton] at ha
  subst ha
  exact clean_word _ _ (ident_lit (by decide)) (fun c hc => ⟨(identChar_not (listStyle_chars l c hc)).1, (identChar_not (listStyle_chars l c hc)).2.2.2.2.1⟩)

theorem lists_silent (num : Option Numbering) (els : List El) {prop : Str} (hp : prop ∈ lookedAt) :
    ((listRules num).map ruleOf).flatMap (ruleSays els prop) = [] := by
  apply flatMap_nil'
  intro r hr
  obtain ⟨x, hx, rfl⟩ := List.mem_map.1 hr
  cases num with
  | none => cases hx
  | some n =>
    obtain ⟨l, _, rfl⟩ := List.mem_map.1 hx
    apply says_nothing
    rw [level_decls]
    intro d hd
    rw [List.mem_singleton] at hd
    subst hd
    rintro rfl
    exact absurd hp (show c!"list-style-type" ∉ lookedAt by decide)

/-- what can be said of the entries of a cache -/
def CleanEntry (e : Attrs × Str) : Prop := Ident e.2 ∧ (∀ a ∈ e.1, CleanDecl a ∧ NoBrace a.1 ∧ NoBrace a.2) ∧ (e.1.map (·.1)).Nodup

theorem entry_says {e : Attrs × Str} (he : CleanEntry e) (el : El) (anc : List El) (prop : Str) :
    ruleSays (el :: anc) prop (ruleOf ('.' :: e.2, e.1)) =
      if e.2 ∈ el.classes then (e.1.filter (fun d => d.1 == prop)).map (fun d => ((1, 0), d.2)) else [] := by
  unfold ruleSays
  rw [class_selectors _ _ he.1, clean_decls _ _ (fun a ha => (he.2.1 a ha).1)]
  have hm : selMatches [⟨none, [e.2], []⟩] (el :: anc) = decide (e.2 ∈ el.classes) := by
    simp [selMatches, Compound.matches, matchAncestors]
  by_cases h : e.2 ∈ el.classes
  · rw [List.filter_cons_of_pos (p := fun s => selMatches s (el :: anc)) (by rw [hm]; simpa using h), if_pos h]
    simp [specificity]
  · rw [List.filter_cons_of_neg (p := fun s => selMatches s (el :: anc)) (by rw [hm]; simpa using h), if_neg h]
    simp

theorem filter_lookup (a : Attrs) (prop : Str) (h : (a.map (·.1)).Nodup) :
    (a.filter (fun d => d.1 == prop)).map (·.2) = (a.lookup prop).toList := by
  induction a with
  | nil => rfl
  | cons d a ih =>
    rw [List.map_cons, List.nodup_cons] at h
    rw [List.lookup_cons]
    by_cases he : d.1 = prop
    · rw [List.filter_cons_of_pos (by simpa using he), show (prop == d.1) = true by simp [he]]
      have : a.filter (fun d => d.1 == prop) = [] := by
        rw [List.filter_eq_nil_iff]
        intro x hx hxe
        apply h.1
        rw [he, ← (by simpa using hxe : x.1 = prop)]
        exact List.mem_map.2 ⟨x, hx, rfl⟩
      rw [List.map_cons, this]
      rfl
    · rw [List.filter_cons_of_neg (by simpa using he), show (prop == d.1) = false by simpa using Ne.symm he]
      exact ih h.2

/-- the entries of a cache when the element has one class -/
theorem entries_say {es : List (Attrs × Str)} (hc : ∀ e ∈ es, CleanEntry e) (hn : (es.map (·.2)).Nodup) (el : El) (anc : List El) (prop : Str)
    {a : Attrs} {n : Str} (he : el.classes = [n]) (hm : (a, n) ∈ es) :
    es.flatMap (fun e => ruleSays (el :: anc) prop (ruleOf ('.' :: e.2, e.1))) = (a.lookup prop).toList.map (fun v => ((1, 0), v)) := by
  induction es with
  | nil => cases hm
  | cons e es ih =>
    rw [List.map_cons, List.nodup_cons] at hn
    rw [List.flatMap_cons, entry_says (hc e List.mem_cons_self), he]
    rcases List.mem_cons.1 hm with h | h
    · subst h
      have : es.flatMap (fun e => ruleSays (el :: anc) prop (ruleOf ('.' :: e.2, e.1))) = [] := by
        apply flatMap_nil'
        intro x hx
        rw [entry_says (hc x (List.mem_cons_of_mem _ hx)), he, if_neg]
        intro hxn
        rw [List.mem_singleton] at hxn
        exact hn.1 (List.mem_map.2 ⟨x, hx, hxn⟩)
      rw [this, if_pos (by simp), List.append_nil, ← filter_lookup a prop (hc _ List.mem_cons_self).2.2, List.map_map]
      rfl
    · rw [if_neg, List.nil_append, ih (fun x hx => hc x (List.mem_cons_of_mem _ hx)) hn.2 h]
      intro hxn
      rw [List.mem_singleton] at hxn
      exact hn.1 (List.mem_map.2 ⟨_, h, hxn.symm⟩)

theorem entries_silent {es : List (Attrs × Str)} (hc : ∀ e ∈ es, CleanEntry e) (el : El) (anc : List El) (prop : Str)
    (h : ∀ e ∈ es, e.2 ∉ el.classes) : es.flatMap (fun e => ruleSays (el :: anc) prop (ruleOf ('.' :: e.2, e.1))) = [] := by
  apply flatMap_nil'
  intro x hx
  rw [entry_says (hc x hx), if_neg (h x hx)]

theorem rules_says (c : CssCache) (els : List El) (prop : Str) :
    (c.rules.map ruleOf).flatMap (ruleSays els prop) = c.entries.flatMap (fun e => ruleSays els prop (ruleOf ('.' :: e.2, e.1))) := by
  unfold CssCache.rules
  rw [List.map_map, List.flatMap_map]
  rfl

theorem sheet_applying (num : Option Numbering) (st : RSt) (els : List El) {prop : Str} (hp : prop ∈ lookedAt) :
    applying ((sheetRules num st).map ruleOf) els prop =
      st.txt.entries.flatMap (fun e => ruleSays els prop (ruleOf ('.' :: e.2, e.1))) ++
      st.tcell.entries.flatMap (fun e => ruleSays els prop (ruleOf ('.' :: e.2, e.1))) := by
  rw [applying_eq, sheetRules, List.map_append, List.map_append, List.map_append, List.flatMap_append, List.flatMap_append, List.flatMap_append,
    prelude_silent _ hp, lists_silent _ _ hp, rules_says, rules_says]
  simp

theorem best_one (o : Option Str) : ((o.toList.map (fun v => (((1, 0) : Nat × Nat), v))).foldl better none).map (·.2) = o := by
  cases o <;> rfl

/-! ### the caches of a page -/

theorem cssAttrs_keys (p : RunProps) : (p.cssAttrs.map (·.1)).Nodup := by
  have h1 : ∀ {α : Type} (k : Str) (o : Option α) (f : α → Str), ((attrOpt k o f).map (·.1)).Sublist [k] := by
    intro α k o f
    cases o <;> simp [attrOpt]
  have h2 : ∀ ws, ((decorationAttr ws).map (·.1)).Sublist [c!"text-decoration-line"] := by
    intro ws
    unfold decorationAttr
    split <;> simp
  have : (p.cssAttrs.map (·.1)).Sublist ([c!"font-weight"] ++ [c!"font-style"] ++ [c!"text-decoration-line"] ++ [c!"vertical-align"] ++ [c!"color"]) := by
    unfold RunProps.cssAttrs
    simp only [List.map_append]
    exact ((((h1 _ _ _).append (h1 _ _ _)).append (h2 _)).append (h1 _ _ _)).append (h1 _ _ _)
  exact List.Nodup.sublist this (by decide)

/-- declarations with a name and a value which are read back and break nothing -/
def CleanAttr (a : Str × Str) : Prop := CleanDecl a ∧ NoBrace a.1 ∧ NoBrace a.2

theorem noBrace_lit {s : Str} (h : (s.contains '{' || s.contains '}' || s.contains '/') = false) : NoBrace s := by
  simp only [Bool.or_eq_false_iff, List.contains_eq_mem, decide_eq_false_iff_not] at h
  exact ⟨h.1.1, h.1.2, h.2⟩

theorem cleanAttr_lit {n v : Str} (h1 : readDecls (declText (n, v)) = [(n, v)]) (h2 : (n.contains '{' || n.contains '}' || n.contains '/') = false)
    (h3 : (v.contains '{' || v.contains '}' || v.contains '/') = false) : CleanAttr (n, v) := ⟨h1, noBrace_lit h2, noBrace_lit h3⟩

theorem cleanAttr_color {n c : Str} (hn : Ident n) (hc : ColorText c) : CleanAttr (n, '#' :: c) := by
  have hi : Ident c := fun x hx => by rw [identChar, hc x hx]; rfl
  refine ⟨clean_word _ _ hn ?_, hn.noBrace, ?_⟩
  · intro x hx
    rcases List.mem_cons.1 hx with rfl | hx
    · decide
    · exact ⟨(identChar_not (hi x hx)).1, (identChar_not (hi x hx)).2.2.2.2.1⟩
  · have := hi.noBrace
    simp only [NoBrace, List.mem_cons, this.1, this.2.1, this.2.2, or_false]
    decide

theorem lines_clean (u s : Bool) : ∀ a ∈ decorationAttr ((if u then [c!"underline"] else []) ++ (if s then [c!"line-through"] else [])), CleanAttr a := by
  intro a ha
  cases u <;> cases s
  · cases ha
  · have := List.mem_singleton.1 (show a ∈ [(c!"text-decoration-line", c!"line-through")] from ha)
    subst this
    exact cleanAttr_lit (by decide +kernel) (by decide +kernel) (by decide +kernel)
  · have := List.mem_singleton.1 (show a ∈ [(c!"text-decoration-line", c!"underline")] from ha)
    subst this
    exact cleanAttr_lit (by decide +kernel) (by decide +kernel) (by decide +kernel)
  · have := List.mem_singleton.1 (show a ∈ [(c!"text-decoration-line", c!"underline line-through")] from ha)
    subst this
    exact cleanAttr_lit (by decide +kernel) (by decide +kernel) (by decide +kernel)

theorem cssAttrs_clean {p : RunProps} (h : ∀ c, p.color = some c → ColorText c) : ∀ a ∈ p.cssAttrs, CleanAttr a := by
  intro a ha
  unfold RunProps.cssAttrs at ha
  rcases List.mem_append.1 ha with ha | ha
  · rcases List.mem_append.1 ha with ha | ha
    · rcases List.mem_append.1 ha with ha | ha
      · rcases List.mem_append.1 ha with ha | ha
        · cases hb : p.bold with
          | none => rw [hb] at ha; cases ha
          | some b =>
            rw [hb, attrOpt, List.mem_singleton] at ha
            subst ha
            cases b <;> exact cleanAttr_lit (by decide +kernel) (by decide +kernel) (by decide +kernel)
        · cases hb : p.italics with
          | none => rw [hb] at ha; cases ha
          | some b =>
            rw [hb, attrOpt, List.mem_singleton] at ha
            subst ha
            cases b <;> exact cleanAttr_lit (by decide +kernel) (by decide +kernel) (by decide +kernel)
      · exact lines_clean _ _ a ha
    · cases hb : p.vert with
      | none => rw [hb] at ha; cases ha
      | some b =>
        rw [hb, attrOpt, List.mem_singleton] at ha
        subst ha
        cases b <;> exact cleanAttr_lit (by decide +kernel) (by decide +kernel) (by decide +kernel)
  · cases hb : p.color with
    | none => rw [hb] at ha; cases ha
    | some c =>
      rw [hb, attrOpt, List.mem_singleton] at ha
      subst ha
      exact cleanAttr_color (ident_lit (by decide)) (h c hb)

/-- A part whose formatting is expressed on the page: colours are plain, and no line is switched off explicitly. -/
def Part.Fine : Part → Prop
  | .text s => ∀ p, s.style = some p → (∀ c, p.color = some c → ColorText c) ∧ p.underline ≠ some false ∧ p.strike ≠ some false
  | .cell _ fill => ∀ f, fill = some f → ColorText f

/-- the same as a test -/
def Part.fine : Part → Bool
  | .text s => match s.style with
    | none => true
    | some p => (p.color.getD []).all Char.isAlphanum && p.underline != some false && p.strike != some false
  | .cell _ fill => (fill.getD []).all Char.isAlphanum

theorem Part.fine_ok {p : Part} (h : p.fine = true) : p.Fine := by
  cases p with
  | text s =>
    intro p hp
    rw [Part.fine, hp] at h
    simp only [Bool.and_eq_true, List.all_eq_true, bne_iff_ne, ne_eq] at h
    refine ⟨fun c hc => ?_, h.1.2, h.2⟩
    rw [hc] at h
    exact h.1.1
  | cell tag fill =>
    intro f hf
    subst hf
    exact List.all_eq_true.1 h

theorem requests_clean {c : CssCache} {as : List Attrs} (hpre : Ident c.pre) (h0 : c.entries = []) (hi : CacheInv c)
    (h : ∀ a ∈ as, (∀ x ∈ a, CleanAttr x) ∧ (a.map (·.1)).Nodup) :
    (∀ e ∈ (c.requests as).2.entries, CleanEntry e ∧ c.pre <+: e.2) ∧ ((c.requests as).2.entries.map (·.2)).Nodup ∧
      ((c.requests as).2.entries.map (·.1)).Nodup ∧
      (∀ e ∈ (c.requests as).2.entries, e.1 ≠ []) ∧
      ∀ a ∈ as, a ≠ [] → ∃ n, (a, n) ∈ (c.requests as).2.entries := by
  obtain ⟨k1, k2, k3, k4, k5, k6⟩ := requests_inv hi as
  have hname : ∀ e ∈ (c.requests as).2.entries, ∃ i, e.2 = c.pre ++ natStr i := by
    intro e he
    obtain ⟨i, hi⟩ := List.getElem?_of_mem he
    exact ⟨i, by rw [k1.names i e hi, k2]⟩
  refine ⟨?_, ?_, k1.keys, ?_, ?_⟩
  · intro e he
    obtain ⟨i, hi⟩ := hname e he
    rcases k4 e he with h1 | h1
    · rw [h0] at h1; cases h1
    · exact ⟨⟨by rw [hi]; exact hpre.append (natStr_ident i), (h _ h1.1).1, (h _ h1.1).2⟩, by rw [hi]; exact List.prefix_append _ _⟩
  · rw [List.Nodup, List.pairwise_map, List.pairwise_iff_getElem]
    intro i j hi hj hij e
    rw [k1.names i _ (List.getElem?_eq_getElem hi), k1.names j _ (List.getElem?_eq_getElem hj)] at e
    have := natStr_inj (List.append_cancel_left e)
    omega
  · intro e he
    rcases k4 e he with h1 | h1
    · rw [h0] at h1; cases h1
    · exact h1.2
  · intro a ha hne
    obtain ⟨i, hi⟩ := List.getElem?_of_mem ha
    obtain ⟨n, _, hm⟩ := (k6 i a hi).2 hne
    exact ⟨n, hm⟩

/-- both caches at the end of the page -/
structure PageCaches (ps : List Part) (st : RSt) : Prop where
  txt : ∀ e ∈ st.txt.entries, CleanEntry e ∧ c!"txtfmt" <+: e.2
  txtNames : (st.txt.entries.map (·.2)).Nodup
  txtKeys : (st.txt.entries.map (·.1)).Nodup
  txtSome : ∀ e ∈ st.txt.entries, e.1 ≠ []
  txtAll : ∀ s p, Part.text s ∈ ps → s.style = some p → p.cssAttrs ≠ [] → ∃ n, (p.cssAttrs, n) ∈ st.txt.entries
  tcell : ∀ e ∈ st.tcell.entries, CleanEntry e ∧ c!"tcell" <+: e.2
  tcellNames : (st.tcell.entries.map (·.2)).Nodup
  tcellKeys : (st.tcell.entries.map (·.1)).Nodup
  tcellAll : ∀ tag f, Part.cell tag (some f) ∈ ps → ∃ n, (tcAttrs f, n) ∈ st.tcell.entries

theorem pageCaches {ps : List Part} (h : ∀ p ∈ ps, p.Fine) : PageCaches ps (after RSt.init ps) := by
  have h1 : ∀ a ∈ ps.filterMap Part.txt, (∀ x ∈ a, CleanAttr x) ∧ (a.map (·.1)).Nodup := by
    intro a ha
    obtain ⟨p, hp, he⟩ := List.mem_filterMap.1 ha
    cases p with
    | cell => cases he
    | text s =>
      cases hs : s.style with
      | none => rw [Part.txt, hs] at he; cases he
      | some q =>
        rw [Part.txt, hs] at he
        cases he
        exact ⟨cssAttrs_clean (h _ hp q hs).1, cssAttrs_keys q⟩
  have h2 : ∀ a ∈ ps.filterMap Part.tcell, (∀ x ∈ a, CleanAttr x) ∧ (a.map (·.1)).Nodup := by
    intro a ha
    obtain ⟨p, hp, he⟩ := List.mem_filterMap.1 ha
    cases p with
    | text => cases he
    | cell tag fill =>
      cases fill with
      | none => cases he
      | some f =>
        cases he
        refine ⟨?_, by simp [tcAttrs]⟩
        intro x hx
        rw [tcAttrs, List.mem_singleton] at hx
        subst hx
        exact cleanAttr_color (ident_lit (by decide)) (h _ hp f rfl)
  obtain ⟨a1, a2, a3, a4, a5⟩ := requests_clean (c := .init c!"txtfmt") (ident_lit (by decide)) rfl (cacheInv_init _) h1
  obtain ⟨b1, b2, b3, b4, b5⟩ := requests_clean (c := .init c!"tcell") (ident_lit (by decide)) rfl (cacheInv_init _) h2
  refine ⟨a1, a2, a3, a4, ?_, b1, b2, b3, ?_⟩
  · intro s p hp hs hne
    exact a5 _ (List.mem_filterMap.2 ⟨_, hp, by rw [Part.txt, hs]; rfl⟩) hne
  · intro tag f hp
    exact b5 _ (List.mem_filterMap.2 ⟨_, hp, rfl⟩) (by simp [tcAttrs])

theorem apart {a b : Str} (ha : c!"txtfmt" <+: a) (hb : c!"tcell" <+: b) : a ≠ b := by
  rintro rfl
  obtain ⟨x, rfl⟩ := ha
  obtain ⟨y, hy⟩ := hb
  cases hy

theorem prelude_safe : ∀ r ∈ preludeRules, SafeRule r := by
  have : preludeRules.all (fun r => !(r.1.contains '{' || r.1.contains '}' || r.1.contains '/') &&
      r.2.all (fun a => !(a.1.contains '{' || a.1.contains '}' || a.1.contains '/') && !(a.2.contains '{' || a.2.contains '}' || a.2.contains '/'))) = true := by
    decide +kernel
  intro r hr
  have := List.all_eq_true.1 this r hr
  rw [Bool.and_eq_true, Bool.not_eq_true'] at this
  refine ⟨noBrace_lit this.1, ?_⟩
  intro a ha
  have := List.all_eq_true.1 this.2 a ha
  rw [Bool.and_eq_true, Bool.not_eq_true', Bool.not_eq_true'] at this
  exact ⟨noBrace_lit this.1, noBrace_lit this.2⟩

theorem selector_noBrace (l : NumLvl) : NoBrace l.selector := by
  unfold NumLvl.selector
  refine (((tag_ident l).1.noBrace.append (noBrace_lit (by decide))).append (clsname_ident l).noBrace).append ?_
  generalize l.ilvl.toNat = k
  induction k with
  | zero => exact noBrace_lit (s := []) (by decide)
  | succ k ih =>
    rw [List.replicate_succ, List.flatten_cons]
    exact ((noBrace_lit (s := c!" ") (by decide)).append (tag_ident l).1.noBrace).append ih

theorem sheet_safe (num : Option Numbering) {ps : List Part} {st : RSt} (h : PageCaches ps st) : ∀ r ∈ sheetRules num st, SafeRule r := by
  have hent : ∀ e : Attrs × Str, CleanEntry e → SafeRule ('.' :: e.2, e.1) := by
    intro e he
    exact ⟨(noBrace_lit (s := c!".") (by decide)).append he.1.noBrace, fun a ha => (he.2.1 a ha).2⟩
  intro r hr
  unfold sheetRules at hr
  rcases List.mem_append.1 hr with hr | hr
  · rcases List.mem_append.1 hr with hr | hr
    · rcases List.mem_append.1 hr with hr | hr
      · exact prelude_safe r hr
      · cases num with
        | none => cases hr
        | some n =>
          obtain ⟨l, _, rfl⟩ := List.mem_map.1 hr
          refine ⟨selector_noBrace l, ?_⟩
          intro a ha
          rw [List.mem_singleton] at ha
          subst ha
          exact ⟨noBrace_lit (s := c!"list-style-type") (by decide), (listStyle_chars l).noBrace⟩
    · obtain ⟨e, he, rfl⟩ := List.mem_map.1 hr
      exact hent e (h.txt e he).1
  · obtain ⟨e, he, rfl⟩ := List.mem_map.1 hr
    exact hent e (h.tcell e he).1

/-! ### what is seen -/

theorem cascade_txt (num : Option Numbering) {ps : List Part} {st : RSt} (h : PageCaches ps st) {prop : Str} (hp : prop ∈ lookedAt)
    {el : El} {anc : List El} {a : Attrs} {n : Str} (hc : el.classes = [n]) (hm : (a, n) ∈ st.txt.entries) :
    cascade ((sheetRules num st).map ruleOf) (el :: anc) prop = a.lookup prop := by
  have hn : ∀ e ∈ st.tcell.entries, e.2 ∉ el.classes := by
    intro e he hm'
    rw [hc, List.mem_singleton] at hm'
    exact apart (h.txt _ hm).2 (h.tcell e he).2 hm'.symm
  rw [cascade, sheet_applying _ _ _ hp, entries_say (fun e he => (h.txt e he).1) h.txtNames el anc prop hc hm,
    entries_silent (fun e he => (h.tcell e he).1) el anc prop hn, List.append_nil]
  exact best_one _

theorem cascade_tcell (num : Option Numbering) {ps : List Part} {st : RSt} (h : PageCaches ps st) {prop : Str} (hp : prop ∈ lookedAt)
    {el : El} {anc : List El} {a : Attrs} {n : Str} (hc : el.classes = [n]) (hm : (a, n) ∈ st.tcell.entries) :
    cascade ((sheetRules num st).map ruleOf) (el :: anc) prop = a.lookup prop := by
  have hn : ∀ e ∈ st.txt.entries, e.2 ∉ el.classes := by
    intro e he hm'
    rw [hc, List.mem_singleton] at hm'
    exact apart (h.txt e he).2 (h.tcell _ hm).2 hm'
  rw [cascade, sheet_applying _ _ _ hp, entries_say (fun e he => (h.tcell e he).1) h.tcellNames el anc prop hc hm,
    entries_silent (fun e he => (h.txt e he).1) el anc prop hn, List.nil_append]
  exact best_one _

theorem cascade_plain (num : Option Numbering) {ps : List Part} {st : RSt} (h : PageCaches ps st) {prop : Str} (hp : prop ∈ lookedAt)
    {el : El} {anc : List El} (hc : el.classes = []) : cascade ((sheetRules num st).map ruleOf) (el :: anc) prop = none := by
  rw [cascade, sheet_applying _ _ _ hp, entries_silent (fun e he => (h.tcell e he).1) el anc prop (by simp [hc]),
    entries_silent (fun e he => (h.txt e he).1) el anc prop (by simp [hc])]
  rfl

theorem words_entry {e : Attrs × Str} {pre : Str} (h : CleanEntry e ∧ pre <+: e.2) (hp : pre ≠ []) : cssWords e.2 = [e.2] := by
  apply css_one
  · intro h0
    obtain ⟨x, hx⟩ := h.2
    rw [h0] at hx
    exact hp (List.append_eq_nil_iff.1 hx).1
  · intro c hc
    exact (identChar_not (h.1.1 c hc)).1

theorem class_attr (n : Option Str) : (optAttr c!"class" n).lookup c!"class" = n := by
  cases n <;> rfl

theorem cell_class (colspan rowspan : Int) (n : Option Str) : (cellAttrs colspan rowspan n).lookup c!"class" = n := by
  unfold cellAttrs
  cases n <;> split <;> split <;> rfl

theorem lookup_of_format (p : RunProps) (hu : p.underline ≠ some false) (hs : p.strike ≠ some false) :
    formatOf p = ⟨p.cssAttrs.lookup c!"font-weight", p.cssAttrs.lookup c!"font-style", p.cssAttrs.lookup c!"text-decoration-line",
      p.cssAttrs.lookup c!"vertical-align", p.cssAttrs.lookup c!"color"⟩ := by
  obtain ⟨b, i, u, s, v, c⟩ := p
  have hu' : u = none ∨ u = some true := by
    cases u with
    | none => exact .inl rfl
    | some x => cases x with
      | true => exact .inr rfl
      | false => exact absurd rfl hu
  have hs' : s = none ∨ s = some true := by
    cases s with
    | none => exact .inl rfl
    | some x => cases x with
      | true => exact .inr rfl
      | false => exact absurd rfl hs
  unfold formatOf RunProps.cssAttrs decorations
  rcases hu' with rfl | rfl <;> rcases hs' with rfl | rfl <;> cases b <;> cases i <;> cases v <;> cases c <;> first | rfl | (rename_i v _; cases v <;> rfl) | (rename_i v; cases v <;> rfl)

theorem span_cascade (num : Option Numbering) {ps : List Part} {st : RSt} (h : PageCaches ps st) {s : HSpan} (hs : Part.text s ∈ ps)
    {prop : Str} (hp : prop ∈ lookedAt) (anc : List El) (f l : Bool) :
    cascade ((sheetRules num st).map ruleOf) (elOf c!"span" (optAttr c!"class" (s.style.bind (classesOf st).span)) f l :: anc) prop =
      s.style.bind (fun p => p.cssAttrs.lookup prop) := by
  cases hst : s.style with
  | none => exact cascade_plain num h hp rfl
  | some p =>
    show cascade _ (elOf c!"span" (optAttr c!"class" (st.txt.entries.lookup p.cssAttrs)) f l :: anc) prop = p.cssAttrs.lookup prop
    by_cases h0 : p.cssAttrs = []
    · have : st.txt.entries.lookup p.cssAttrs = none := by
        rw [lookup_none_iff, h0]
        intro hm
        obtain ⟨e, he, h1⟩ := List.mem_map.1 hm
        exact h.txtSome e he h1
      rw [this, h0]
      exact cascade_plain num h hp rfl
    · obtain ⟨n, hn⟩ := h.txtAll s p hs hst h0
      rw [lookup_eq_of_nodup h.txtKeys hn]
      refine cascade_txt num h hp ?_ hn
      show cssWords (((optAttr c!"class" (some n)).lookup c!"class").getD []) = [n]
      rw [class_attr]
      exact words_entry (h.txt _ hn) (by decide)

theorem cell_cascade (num : Option Numbering) {ps : List Part} {st : RSt} (h : PageCaches ps st) {tag : Str} {fill : Option Str}
    (hs : Part.cell tag fill ∈ ps) (colspan rowspan : Int) (anc : List El) (f l : Bool) :
    cascade ((sheetRules num st).map ruleOf) (elOf tag (cellAttrs colspan rowspan (fill.bind (classesOf st).cell)) f l :: anc) c!"background-color" =
      fill.map (fun c => '#' :: c) := by
  have hcls : ∀ n : Option Str, (elOf tag (cellAttrs colspan rowspan n) f l).classes = cssWords (n.getD []) := by
    intro n
    show cssWords (((cellAttrs colspan rowspan n).lookup c!"class").getD []) = _
    rw [cell_class]
  cases fill with
  | none => exact cascade_plain num h (by decide) (hcls none)
  | some c =>
    obtain ⟨n, hn⟩ := h.tcellAll tag c hs
    show cascade _ (elOf tag (cellAttrs colspan rowspan (st.tcell.entries.lookup (tcAttrs c))) f l :: anc) _ = _
    rw [lookup_eq_of_nodup h.tcellKeys hn, cascade_tcell num h (by decide) ?_ hn]
    · rfl
    · rw [hcls]
      exact words_entry (h.tcell _ hn) (by decide)

theorem flat_textKids (s : Str) : (Node.elem c!"span" [] (textKids s)).flat = s := by
  unfold textKids
  cases s <;> simp [Node.flat, Node.flats]

theorem seen_silent (rules : List CssRule) : Silent (seenElement rules) := by
  intro tag attrs ks els h1 h2 h3
  unfold seenElement
  rw [if_neg (by simpa [Node.hasTag] using h1), if_neg (by simpa [Node.hasTag] using h2), if_neg (by simpa [Node.hasTag] using h3)]

theorem part_seen (num : Option Numbering) {ps : List Part} {st : RSt} (h : PageCaches ps st) {p : Part} (hp : p ∈ ps) (hf : p.Fine)
    (ht : ∀ tag fill, p = .cell tag fill → tag = c!"td" ∨ tag = c!"th") :
    PartGives (seenElement ((sheetRules num st).map ruleOf)) (classesOf st) (fun p => [p.shown]) p := by
  cases p with
  | text s =>
    refine GivesAll.elem_some (GivesAll.texts _) ?_
    intro anc first last
    unfold seenElement
    rw [if_pos (by rfl)]
    have hcas := fun prop hp' => span_cascade num h hp (prop := prop) hp' anc first last
    unfold seenFormat
    rw [hcas _ (by decide), hcas _ (by decide), hcas _ (by decide), hcas _ (by decide), hcas _ (by decide)]
    have hflat : (Node.elem c!"span" (optAttr c!"class" (s.style.bind (classesOf st).span)) (textKids (eolNorm s.text))).flat = eolNorm s.text :=
      flat_textKids _
    rw [hflat, Part.shown]
    cases hs : s.style with
    | none => rfl
    | some q =>
      obtain ⟨_, h2, h3⟩ := hf q hs
      simp only [Option.map_some, Option.getD_some, Option.bind_some]
      rw [lookup_of_format q h2 h3]
  | cell tag fill =>
    intro colspan rowspan ks o ho
    refine GivesAll.elem_some ho ?_
    intro anc first last
    unfold seenElement
    simp only [cell_cascade num h hp]
    rcases ht tag fill rfl with rfl | rfl <;> rfl

mutual
theorem unitParts_tag (u : HUnit) (h : u.Ok) : ∀ tag fill, Part.cell tag fill ∈ unitParts u → tag = c!"td" ∨ tag = c!"th" := by
  intro tag fill hm
  cases u with
  | para spans => rw [unitParts] at hm; obtain ⟨_, _, e⟩ := List.mem_map.1 hm; cases e
  | list props elems => rw [unitParts] at hm; obtain ⟨_, _, e⟩ := List.mem_map.1 hm; cases e
  | table src id rows => rw [unitParts] at hm; rw [HUnit.Ok] at h; exact rowsParts_tag rows 0 h.2 tag fill hm
theorem unitsParts_tag (us : List HUnit) (h : unitsOk us) : ∀ tag fill, Part.cell tag fill ∈ unitsParts us → tag = c!"td" ∨ tag = c!"th" := by
  intro tag fill hm
  cases us with
  | nil => rw [unitsParts] at hm; cases hm
  | cons u us =>
    rw [unitsOk] at h
    rw [unitsParts] at hm
    rcases List.mem_append.1 hm with hm | hm
    · exact unitParts_tag u h.1 tag fill hm
    · exact unitsParts_tag us h.2 tag fill hm
theorem rowsParts_tag (rows : List (List HCell)) (r : Nat) (h : rowsOk rows) :
    ∀ tag fill, Part.cell tag fill ∈ rowsParts r rows → tag = c!"td" ∨ tag = c!"th" := by
  intro tag fill hm
  cases rows with
  | nil => rw [rowsParts] at hm; cases hm
  | cons row rows =>
    rw [rowsOk] at h
    rw [rowsParts] at hm
    rcases List.mem_append.1 hm with hm | hm
    · exact cellsParts_tag row r 0 h.1 tag fill hm
    · exact rowsParts_tag rows (r + 1) h.2 tag fill hm
theorem cellsParts_tag (cells : List HCell) (r c : Nat) (h : cellsOk cells) :
    ∀ tag fill, Part.cell tag fill ∈ cellsParts r c cells → tag = c!"td" ∨ tag = c!"th" := by
  intro tag fill hm
  match cells with
  | [] => rw [cellsParts] at hm; cases hm
  | .mk t elems colspan rowspan left top f :: cells =>
    rw [cellsOk] at h
    rw [cellsParts] at hm
    by_cases hp : left = (c : Int) ∧ top = (r : Int)
    · rw [if_pos hp] at hm
      rcases List.mem_append.1 hm with hm | hm
      · rcases List.mem_cons.1 hm with hm | hm
        · cases hm; exact h.1
        · exact unitsParts_tag elems h.2.1 tag fill hm
      · exact cellsParts_tag cells r (c + 1) h.2.2 tag fill hm
    · rw [if_neg hp] at hm
      exact cellsParts_tag cells r (c + 1) h.2.2 tag fill hm
end

/-- the elements of a page -/
theorem page_gives {β : Type} {F : Node × List El → Option β} (hF : Silent F) (version title : Str) (revision : Option Str) (fname : Str)
    {body : List Node} {o : List β} (h : GivesAll F body o) : Gives F (pageNode version title revision fname body) o := by
  have hs : ∀ tag attrs ks o, tag ≠ c!"span" → tag ≠ c!"td" → tag ≠ c!"th" → GivesAll F ks o → Gives F (.elem tag attrs ks) o :=
    fun tag attrs ks o h1 h2 h3 h => GivesAll.elem h (fun els => hF _ _ _ els h1 h2 h3)
  refine hs _ _ _ _ (by decide) (by decide) (by decide) (.cons (o := []) ?_ ?_)
  · refine hs _ _ _ _ (by decide) (by decide) (by decide) ?_
    refine .cons (o := []) (os := []) (hs _ _ _ _ (by decide) (by decide) (by decide) .nil) ?_
    refine .cons (o := []) (os := []) (hs _ _ _ _ (by decide) (by decide) (by decide) .nil) ?_
    refine .cons (o := []) (os := []) (hs _ _ _ _ (by decide) (by decide) (by decide) (.texts _)) ?_
    exact .cons (o := []) (os := []) (hs _ _ _ _ (by decide) (by decide) (by decide) .nil) .nil
  · exact (hs _ _ _ _ (by decide) (by decide) (by decide) h).one

/-- C69: Take any Word document which can be read, and any way to lay out the files written. Read by a browser, page and style sheet
together show the texts and cells of its tables from top to bottom, each text with just the formatting which it has in the document, and each
cell with just its colour.
Not shown: texts for which a line is switched off explicitly (`C47_disabled_false`: these do show the line), and colours which are not
made of letters and digits. -/
theorem C69_formatting_shown_partial [Uni] {f : WordFile} {stem : Str} {doc : WordDoc} {header : Str} {us : List HUnit}
    (h : Readable f stem doc header us) {layout : List Piece → Str} (hl : ∀ ps, Laid ps (layout ps)) (unzip : Str → WordFile) (bytes : Str)
    (hb : unzip bytes = f) (hf : ∀ p ∈ unitsParts us, p.Fine) :
    ∃ (page css : Str) (root : Node), (stageTools unzip layout).docx stem bytes = .ok (page, css) ∧ (stageTools unzip layout).xml page = .ok root ∧
      seenOnPage (readCss css) root = (unitsParts us).map Part.shown := by
  obtain ⟨page, css, root, h1, h2, h3⟩ := h.read hl unzip bytes hb
  refine ⟨page, css, root, h1, h2, ?_⟩
  have hcss : css = layout ((cssStart doc.numbering ++ cssEnd (renderUnits RSt.init us).2).flatMap emitln) := by
    have hst : (firstStage f stem false).2 = .ok ((renderPage spexVersion (headerTitle header) (headerRevision header) stem us).1,
        cssStart doc.numbering ++ cssEnd (renderUnits RSt.init us).2) := by
      rw [firstStage, h.opened]
      simp only [(wordTables_parseWord doc us).2 h.tables]
      rfl
    simp only [stageTools, hb, hst] at h1
    cases h1; rfl
  rw [units_after] at hcss
  have hc := pageCaches hf
  rw [hcss, sheet_read (sheet_text (hl _)) (sheet_safe _ hc)]
  have hseen : seenOnPage ((sheetRules doc.numbering (after RSt.init (unitsParts us))).map ruleOf) root =
      (pageElements root.clean).filterMap (seenElement ((sheetRules doc.numbering (after RSt.init (unitsParts us))).map ruleOf)) :=
    (chains_clean (seen_clean _) root [] true true).symm
  have hst : (renderPage spexVersion (headerTitle header) (headerRevision header) stem us).2 = after RSt.init (unitsParts us) := units_after us RSt.init
  rw [hseen, h3, hst, List.map_eq_flatMap (f := Part.shown)]
  refine page_gives (seen_silent _) _ _ _ _ (units_gives (seen_silent _) us (fun p hp => ?_)) [] true true
  refine part_seen _ hc hp (hf p hp) ?_
  rintro tag fill rfl
  exact unitsParts_tag us (parseWord_ok h.text h.tables) tag fill hp

end Spex
