import Verif.Model.WordParse
import Verif.Lemmas.Grid
import Verif.Props.Numbers
import Verif.Model.Ascii
import Mathlib.Data.List.Forall2
/-
C42: lists of a Word document.
-/
set_option autoImplicit false
namespace Spex
variable [Uni]

/-! ### Specification -/

/-- the element `p` is a paragraph of the list with the abstract numbering `absId`, at the indentation level `lvl` -/
structure InList (doc : WordDoc) (p : LNode) (absId lvl : Int) : Prop where
  para : p.node.hasTag wP = true
  num : ∃ n s i, doc.numbering = some n ∧ p.node.attrFirst [wPPr, c!"w:numPr", c!"w:numId"] aVal = some s ∧ WholeNumber s i ∧
    LastEntry n.nums i absId
  level : ∃ s, p.node.attrFirst [wPPr, c!"w:numPr", c!"w:ilvl"] aVal = some s ∧ WholeNumber s lvl

/-- `props` is the item with the number `lvl`, counted from the front from 0 on, or from the end from -1 on -/
def LevelAt (lvls : List NumLvl) (lvl : Int) (props : NumLvl) : Prop :=
  ∃ before after, lvls = before ++ props :: after ∧ (lvl = before.length ∨ lvl = -(after.length + 1 : Int))

/-- `props` is the definition of level `lvl` of the numbering -/
def LevelDef (doc : WordDoc) (absId lvl : Int) (props : NumLvl) : Prop :=
  ∃ n lvls, doc.numbering = some n ∧ LastEntry n.absNums absId lvls ∧ LevelAt lvls lvl props

/-- `items` are the elements of a list at level `lvl` which consists of the paragraphs `ps`: the paragraphs at this level
are its items, the paragraphs with a higher level between them form nested lists, each at the level of its first
paragraph and as long as the levels are not below that one. -/
inductive ListOf (doc : WordDoc) (absId : Int) : Int → List LNode → List HItem → Prop where
  | nil (lvl : Int) : ListOf doc absId lvl [] []
  | item {lvl : Int} {p : LNode} {spans : List HSpan} {ps : List LNode} {items : List HItem} : InList doc p absId lvl →
      parseSpans doc p.node = .ok spans → ListOf doc absId lvl ps items → ListOf doc absId lvl (p :: ps) (.item spans :: items)
  | nested {lvl lvl' : Int} {p : LNode} {props : NumLvl} {ps qs : List LNode} {items items' : List HItem} : lvl < lvl' →
      InList doc p absId lvl' → LevelDef doc absId lvl' props → ListOf doc absId lvl' (p :: ps) items →
      (∀ q, qs.head? = some q → ∃ l, InList doc q absId l ∧ l < lvl') →
      ListOf doc absId lvl qs items' → ListOf doc absId lvl (p :: ps ++ qs) (.list props items :: items')

mutual
/-- the texts of the items of a list from top to bottom, across all nested lists -/
def HItem.leaves : HItem → List (List HSpan)
  | .item spans => [spans]
  | .list _ elems => leavesAll elems
def leavesAll : List HItem → List (List HSpan)
  | [] => []
  | i :: is => i.leaves ++ leavesAll is
end

/-! ### Proofs -/

theorem InList.level_unique {doc : WordDoc} {p : LNode} {a b l m : Int} (h : InList doc p a l) (h' : InList doc p b m) :
    a = b ∧ l = m := by
  obtain ⟨n, s, i, h1, h2, h3, h4⟩ := h.num
  obtain ⟨n', s', i', g1, g2, g3, g4⟩ := h'.num
  obtain ⟨t, h5, h6⟩ := h.level
  obtain ⟨t', g5, g6⟩ := h'.level
  rw [h1] at g1; cases g1
  rw [h2] at g2; cases g2
  cases C96_unique h3 g3
  rw [← intDict_iff] at h4 g4
  rw [h4] at g4; cases g4
  rw [h5] at g5; cases g5
  cases C96_unique h6 g6
  exact ⟨rfl, rfl⟩

omit [Uni] in
theorem reqAttr_ok {α : Type} {o : Option α} {a : α} (h : reqAttr o = .ok a) : o = some a := by
  cases o with
  | none => cases h
  | some b => cases h; rfl

omit [Uni] in
theorem reqKey_ok {α : Type} {o : Option α} {a : α} (h : reqKey o = .ok a) : o = some a := by
  cases o with
  | none => cases h
  | some b => cases h; rfl

theorem paraLevel_ok {p : Node} {l : Int} (h : paraLevel p = .ok l) : ∃ s, ilvlOf p = some s ∧ pyInt s = .ok l := by
  unfold paraLevel at h
  obtain ⟨s, h1, h2⟩ := except_bind_ok h
  exact ⟨s, reqAttr_ok h1, h2⟩

omit [Uni] in
theorem getStyle_ok {n : Numbering} {i : Int} {st : Int × List NumLvl} (h : n.getStyle i = .ok st) :
    intDict n.nums i = some st.1 ∧ intDict n.absNums st.1 = some st.2 := by
  unfold Numbering.getStyle at h
  by_cases h0 : i = 0
  · rw [if_pos h0] at h; cases h
  · rw [if_neg h0] at h
    obtain ⟨a, h1, h2⟩ := except_bind_ok h
    obtain ⟨l, h3, h4⟩ := except_bind_ok h2
    cases h4
    exact ⟨reqKey_ok h1, reqKey_ok h3⟩

theorem paraStyle_ok {doc : WordDoc} {p : Node} {st : Int × List NumLvl} (h : paraStyle doc p = .ok st) :
    ∃ n s i, doc.numbering = some n ∧ numIdOf p = some s ∧ pyInt s = .ok i ∧ intDict n.nums i = some st.1 ∧
      intDict n.absNums st.1 = some st.2 := by
  unfold paraStyle at h
  obtain ⟨s, h1, h2⟩ := except_bind_ok h
  obtain ⟨i, h3, h4⟩ := except_bind_ok h2
  cases hn : doc.numbering with
  | none => rw [hn] at h4; cases h4
  | some n =>
    rw [hn] at h4
    obtain ⟨h5, h6⟩ := getStyle_ok h4
    exact ⟨n, s, i, rfl, reqAttr_ok h1, h3, h5, h6⟩

theorem InList.of_style {doc : WordDoc} {p : LNode} {st : Int × List NumLvl} {l : Int} (ht : p.node.hasTag wP = true)
    (hs : paraStyle doc p.node = .ok st) (hl : paraLevel p.node = .ok l) : InList doc p st.1 l := by
  obtain ⟨n, s, i, h1, h2, h3, h4, -⟩ := paraStyle_ok hs
  obtain ⟨t, h5, h6⟩ := paraLevel_ok hl
  exact ⟨ht, ⟨n, s, i, h1, h2, (C96_number _ _).1 h3, (intDict_iff _ _ _).1 h4⟩, ⟨t, h5, (C96_number _ _).1 h6⟩⟩

theorem InList.isListPara {doc : WordDoc} {p : LNode} {a l : Int} (h : InList doc p a l) : Spex.isListPara doc p.node = .ok true := by
  obtain ⟨n, s, i, h1, h2, h3, h4⟩ := h.num
  rw [← C96_number] at h3
  rw [← intDict_iff] at h4
  unfold Spex.isListPara numIdOf
  rw [h2, h1]
  show n.hasNumId s = _
  unfold Numbering.hasNumId
  rw [h3]
  show Except.ok ((intDict n.nums i).isSome) = _
  rw [h4]; rfl

/-- the two loops, by induction over the fuel -/
theorem parseList_spec (doc : WordDoc) (n : Nat) :
    (∀ p s it rest, parseList doc n (p :: s) = .ok (it, rest) → isListPara doc p.node = .ok true →
      ∃ absId lvl props items ps, it = .list props items ∧ s = ps ++ rest ∧ InList doc p absId lvl ∧ LevelDef doc absId lvl props ∧
        ListOf doc absId lvl (p :: ps) items ∧ ∀ q, rest.head? = some q → ∀ l, InList doc q absId l → l < lvl) ∧
    (∀ absId lvl s items rest, parseListElems doc n absId lvl s = .ok (items, rest) →
      ∃ ps, s = ps ++ rest ∧ ListOf doc absId lvl ps items ∧ ∀ q, rest.head? = some q → ∀ l, InList doc q absId l → l < lvl) := by
  induction n with
  | zero =>
    refine ⟨fun p s it rest h => ?_, fun a l s items rest h => ?_⟩
    · rw [parseList] at h; cases h
    · rw [parseListElems] at h; cases h
  | succ n ih =>
    refine ⟨?_, ?_⟩
    · intro p s it rest h hp
      rw [parseList] at h
      by_cases ht : p.node.hasTag wP = true
      · rw [if_pos ht] at h
        obtain ⟨st, h1, h⟩ := except_bind_ok h
        obtain ⟨lvl, h2, h⟩ := except_bind_ok h
        obtain ⟨props, h3, h⟩ := except_bind_ok h
        obtain ⟨⟨items, rest'⟩, h4, h⟩ := except_bind_ok h
        cases h
        obtain ⟨ps, g1, g2, g3⟩ := ih.2 _ _ _ _ _ h4
        have hin := InList.of_style ht h1 h2
        obtain ⟨num, s1, i, k1, k2, k3, k4, k5⟩ := paraStyle_ok h1
        cases ps with
        | nil =>
          simp only [List.nil_append] at g1
          have := g3 p (by simp only [← g1]; rfl) lvl hin
          omega
        | cons p' ps =>
          simp only [List.cons_append, List.cons.injEq] at g1
          obtain ⟨g1, g1'⟩ := g1
          subst g1
          exact ⟨st.1, lvl, props, items, ps, rfl, g1', hin, ⟨num, st.2, k1, (intDict_iff _ _ _).1 k5, pyIndex_iff.1 h3⟩, g2, g3⟩
      · rw [if_neg ht] at h; cases h
    · intro absId lvl s items rest h
      cases s with
      | nil =>
        rw [parseListElems] at h; cases h
        exact ⟨[], rfl, .nil _, fun q hq => by cases hq⟩
      | cons p s =>
        rw [parseListElems] at h
        by_cases ht : p.node.hasTag wP = true
        rotate_left
        · rw [if_neg ht] at h; cases h
          refine ⟨[], rfl, .nil _, fun q hq l hl => ?_⟩
          cases hq
          exact absurd hl.para ht
        rw [if_pos ht] at h
        obtain ⟨isList, h1, h⟩ := except_bind_ok h
        cases isList with
        | false =>
          simp only [Bool.false_eq_true, if_false] at h
          cases h
          refine ⟨[], rfl, .nil _, fun q hq l hl => ?_⟩
          cases hq
          rw [hl.isListPara] at h1; cases h1
        | true =>
          simp only [if_true] at h
          obtain ⟨st, h2, h⟩ := except_bind_ok h
          by_cases ha : st.1 = absId
          rotate_left
          · rw [if_neg ha] at h; cases h
            refine ⟨[], rfl, .nil _, fun q hq l hl => ?_⟩
            cases hq
            exfalso
            obtain ⟨num, s1, i, k1, k2, k3, k4, k5⟩ := paraStyle_ok h2
            obtain ⟨num', s1', i', j1, j2, j3, j4⟩ := hl.num
            rw [k1] at j1; cases j1
            unfold numIdOf at k2
            rw [k2] at j2; cases j2
            rw [← C96_number] at j3
            rw [← intDict_iff] at j4
            rw [k3] at j3; cases j3
            rw [k4] at j4; cases j4
            exact ha rfl
          rw [if_pos ha] at h
          obtain ⟨l, h3, h⟩ := except_bind_ok h
          have hin := InList.of_style ht h2 h3
          rw [ha] at hin
          by_cases hgt : lvl < l
          · rw [if_pos hgt] at h
            obtain ⟨⟨it, r1⟩, h4, h⟩ := except_bind_ok h
            obtain ⟨⟨its, r2⟩, h5, h⟩ := except_bind_ok h
            cases h
            obtain ⟨a', l', props, items1, ps1, g1, g2, g3, g4, g5, g6⟩ := ih.1 _ _ _ _ h4 h1
            obtain ⟨e1, e2⟩ := hin.level_unique g3
            subst e1; subst e2
            obtain ⟨qs, k1, k2, k3⟩ := ih.2 _ _ _ _ _ h5
            refine ⟨p :: ps1 ++ qs, ?_, ?_, k3⟩
            · rw [g2]
              simp only at k1
              rw [k1]; simp
            · simp only [g1]
              refine .nested hgt g3 g4 g5 ?_ k2
              intro q hq
              cases k2 with
              | nil => cases hq
              | item hi _ _ =>
                cases hq
                exact ⟨_, hi, g6 _ (by rw [show r1 = _ from k1]; rfl) _ hi⟩
              | nested hl' hi _ _ _ _ =>
                cases hq
                exact ⟨_, hi, g6 _ (by rw [show r1 = _ from k1]; rfl) _ hi⟩
          · rw [if_neg hgt] at h
            by_cases hlt : l < lvl
            · rw [if_pos hlt] at h; cases h
              refine ⟨[], rfl, .nil _, fun q hq m hm => ?_⟩
              cases hq
              have := hin.level_unique hm
              omega
            · rw [if_neg hlt] at h
              obtain ⟨spans, h4, h⟩ := except_bind_ok h
              obtain ⟨⟨its, r2⟩, h5, h⟩ := except_bind_ok h
              cases h
              have : l = lvl := by omega
              subst this
              obtain ⟨ps, k1, k2, k3⟩ := ih.2 _ _ _ _ _ h5
              exact ⟨p :: ps, by rw [k1]; rfl, .item hin h4 k2, k3⟩

/-- C42: parsing a list consumes the paragraphs which belong to it and are not below its level, up to the first element
which does not, and arranges them by their levels. -/
theorem C42_list {doc : WordDoc} {fuel : Nat} {p : LNode} {stream rest : List LNode} {it : HItem}
    (h : parseList doc fuel (p :: stream) = .ok (it, rest)) (hp : isListPara doc p.node = .ok true) :
    ∃ absId lvl props items ps, it = .list props items ∧ p :: stream = p :: ps ++ rest ∧ InList doc p absId lvl ∧
      LevelDef doc absId lvl props ∧ ListOf doc absId lvl (p :: ps) items ∧
      (∀ q ∈ p :: ps, ∃ l, lvl ≤ l ∧ InList doc q absId l) ∧
      ∀ q, rest.head? = some q → ¬ ∃ l, lvl ≤ l ∧ InList doc q absId l := by
  obtain ⟨a, l, props, items, ps, h1, h2, h3, h4, h5, h6⟩ := (parseList_spec doc fuel).1 _ _ _ _ h hp
  refine ⟨a, l, props, items, ps, h1, by rw [h2]; rfl, h3, h4, h5, ?_, fun q hq ⟨m, hm, hi⟩ => ?_⟩
  · have all : ∀ {l ps items}, ListOf doc a l ps items → ∀ q ∈ ps, ∃ m, l ≤ m ∧ InList doc q a m := by
      intro l ps items h
      induction h with
      | nil => intro q hq; cases hq
      | item hi _ _ ih =>
        intro q hq
        rcases List.mem_cons.1 hq with hq | hq
        · rw [hq]; exact ⟨_, Int.le_refl _, hi⟩
        · exact ih q hq
      | nested hlt _ _ _ _ _ ih1 ih2 =>
        intro q hq
        rcases List.mem_append.1 hq with hq | hq
        · obtain ⟨m, hm, hi⟩ := ih1 q hq
          exact ⟨m, by omega, hi⟩
        · exact ih2 q hq
    exact all h5
  · have := h6 q hq m hi
    omega

omit [Uni] in
theorem leavesAll_append (a b : List HItem) : leavesAll (a ++ b) = leavesAll a ++ leavesAll b := by
  induction a with
  | nil => rfl
  | cons i a ih => rw [List.cons_append, leavesAll, leavesAll, ih, List.append_assoc]

/-- C42: the items of the list from top to bottom are the paragraphs consumed, each once and in order. -/
theorem C42_items_in_order {doc : WordDoc} {fuel : Nat} {p : LNode} {stream rest : List LNode} {it : HItem}
    (h : parseList doc fuel (p :: stream) = .ok (it, rest)) (hp : isListPara doc p.node = .ok true) :
    ∃ ps, p :: stream = p :: ps ++ rest ∧ List.Forall₂ (fun q spans => parseSpans doc q.node = .ok spans) (p :: ps) it.leaves := by
  obtain ⟨a, l, props, items, ps, h1, h2, h3, h4, h5, -, -⟩ := C42_list h hp
  refine ⟨ps, h2, ?_⟩
  rw [h1, HItem.leaves]
  have all : ∀ {l ps items}, ListOf doc a l ps items →
      List.Forall₂ (fun q spans => parseSpans doc q.node = .ok spans) ps (leavesAll items) := by
    intro l ps items h
    induction h with
    | nil => exact .nil
    | item _ hs _ ih => exact .cons hs ih
    | nested _ _ _ _ _ _ ih1 ih2 =>
      rw [leavesAll, HItem.leaves]
      exact List.rel_append ih1 ih2
  exact all h5

/-- the numbering of the paragraphs is in order: the number of a list paragraph and its level are integers, the number
is not 0, and the level is defined -/
def ProperNumbering (doc : WordDoc) (stream : List LNode) : Prop :=
  ∀ p ∈ stream, ∀ n s, p.node.hasTag wP = true → doc.numbering = some n →
    p.node.attrFirst [wPPr, c!"w:numPr", c!"w:numId"] aVal = some s →
    ∃ i, WholeNumber s i ∧ ∀ a, LastEntry n.nums i a →
      i ≠ 0 ∧ ∃ lvls t lvl props, LastEntry n.absNums a lvls ∧
        p.node.attrFirst [wPPr, c!"w:numPr", c!"w:ilvl"] aVal = some t ∧ WholeNumber t lvl ∧ LevelAt lvls lvl props

theorem ProperNumbering.cases {doc : WordDoc} {stream : List LNode} (h : ProperNumbering doc stream) {p : LNode}
    (hp : p ∈ stream) (ht : p.node.hasTag wP = true) :
    isListPara doc p.node = .ok false ∨ (isListPara doc p.node = .ok true ∧
      ∃ st lvl props, paraStyle doc p.node = .ok st ∧ paraLevel p.node = .ok lvl ∧ pyIndex st.2 lvl = .ok props) := by
  unfold isListPara
  cases hs : numIdOf p.node with
  | none => left; rfl
  | some s =>
    cases hn : doc.numbering with
    | none => left; rfl
    | some n =>
      obtain ⟨i, h1, h2⟩ := h p hp n s ht hn hs
      rw [← C96_number] at h1
      simp only [Numbering.hasNumId, h1]
      cases ha : intDict n.nums i with
      | none => left; simp only [Except.map, ha, Option.isSome_none]
      | some a =>
        right
        obtain ⟨h0, lvls, t, lvl, props, h3, h4, h5, h6⟩ := h2 a ((intDict_iff _ _ _).1 ha)
        rw [← intDict_iff] at h3
        rw [← C96_number] at h5
        refine ⟨by simp only [Except.map, ha, Option.isSome_some], (a, lvls), lvl, props, ?_, ?_, pyIndex_iff.2 h6⟩
        · unfold paraStyle
          rw [hs, hn]
          simp only [reqAttr, bind, Except.bind, h1, Numbering.getStyle, if_neg h0, ha, h3, reqKey]
        · unfold paraLevel ilvlOf
          rw [h4]
          simp only [reqAttr, bind, Except.bind, h5]

/-- with the fuel provided, lists in order are parsed without an error -/
theorem parseListElems_total {doc : WordDoc} (L : Nat) : ∀ s : List LNode, s.length ≤ L → ProperNumbering doc s →
    (∀ p ∈ s, ∃ spans, parseSpans doc p.node = .ok spans) → ∀ n, 3 * L + 2 ≤ n → ∀ a l, ∃ r, parseListElems doc n a l s = .ok r := by
  induction L with
  | zero =>
    intro s hs _ _ n hn a l
    have : s = [] := List.length_eq_zero_iff.1 (by omega)
    subst this
    obtain ⟨m, rfl⟩ : ∃ m, n = m + 1 := ⟨n - 1, by omega⟩
    exact ⟨_, by rw [parseListElems]⟩
  | succ L ih =>
    intro s hs hprop hsp n hn a l
    obtain ⟨m, rfl⟩ : ∃ m, n = m + 1 := ⟨n - 1, by omega⟩
    cases s with
    | nil => exact ⟨_, by rw [parseListElems]⟩
    | cons p s =>
      have hlen : s.length ≤ L := by simpa using hs
      have hprop' : ProperNumbering doc s := fun q hq => hprop q (List.mem_cons_of_mem _ hq)
      have hsp' : ∀ q ∈ s, ∃ spans, parseSpans doc q.node = .ok spans := fun q hq => hsp q (List.mem_cons_of_mem _ hq)
      obtain ⟨spans, hspans⟩ := hsp p List.mem_cons_self
      rw [parseListElems]
      by_cases ht : p.node.hasTag wP = true
      rotate_left
      · rw [if_neg ht]; exact ⟨_, rfl⟩
      rw [if_pos ht]
      rcases hprop.cases List.mem_cons_self ht with hl | ⟨hl, st, lvl, props, h1, h2, h3⟩
      · rw [hl]; exact ⟨_, rfl⟩
      simp only [hl, bind, Except.bind, if_true, h1, h2]
      by_cases ha : st.1 = a
      rotate_left
      · rw [if_neg ha]; exact ⟨_, rfl⟩
      rw [if_pos ha]
      by_cases hgt : l < lvl
      · rw [if_pos hgt]
        obtain ⟨k, rfl⟩ : ∃ k, m = k + 1 + 1 := ⟨m - 2, by omega⟩
        obtain ⟨⟨its, r⟩, hr⟩ := ih s hlen hprop' hsp' k (by omega) st.1 lvl
        have hlist : parseList doc (k + 1 + 1) (p :: s) = .ok (.list props (.item spans :: its), r) := by
          rw [parseList, if_pos ht]
          simp only [h1, h2, h3, bind, Except.bind]
          rw [parseListElems, if_pos ht]
          simp only [hl, bind, Except.bind, if_true, h1, h2, Int.lt_irrefl, if_false, hspans, hr]
        rw [hlist]
        obtain ⟨ps, e1, -⟩ := (parseList_spec doc k).2 _ _ _ _ _ hr
        have hsuf : ∀ q ∈ r, q ∈ s := fun q hq => by rw [e1]; exact List.mem_append_right _ hq
        obtain ⟨⟨its', r'⟩, hr'⟩ := ih r (by rw [e1, List.length_append] at hlen; omega)
          (fun q hq => hprop' q (hsuf q hq)) (fun q hq => hsp' q (hsuf q hq)) (k + 1 + 1) (by omega) a l
        simp only [hr']
        exact ⟨_, rfl⟩
      · rw [if_neg hgt]
        by_cases hlt : lvl < l
        · rw [if_pos hlt]; exact ⟨_, rfl⟩
        · rw [if_neg hlt]
          obtain ⟨⟨its', r'⟩, hr'⟩ := ih s hlen hprop' hsp' m (by omega) a l
          simp only [hspans, hr']
          exact ⟨_, rfl⟩

/-- C42: a list whose numbering is in order is always parsed; the fuel given to the model suffices. -/
theorem C42_no_failure {doc : WordDoc} {p : LNode} {stream : List LNode} (ht : p.node.hasTag wP = true)
    (hp : isListPara doc p.node = .ok true) (h : ProperNumbering doc (p :: stream))
    (hs : ∀ q ∈ p :: stream, ∃ spans, parseSpans doc q.node = .ok spans) :
    ∃ r, parseList doc (listFuel (p :: stream)) (p :: stream) = .ok r := by
  rcases h.cases List.mem_cons_self ht with hl | ⟨hl, st, lvl, props, h1, h2, h3⟩
  · rw [hl] at hp; cases hp
  · obtain ⟨⟨its, r⟩, hr⟩ := parseListElems_total _ (p :: stream) (Nat.le_refl _) h hs (3 * (p :: stream).length + 2) (Nat.le_refl _) st.1 lvl
    unfold listFuel
    rw [parseList, if_pos ht]
    simp only [h1, h2, h3, bind, Except.bind, hr]
    exact ⟨_, rfl⟩

/-! ### Example -/

/-- `<w:p>` with number 1, the level and a run -/
def exItem (lvl : String) (txt : String) : Node :=
  .elem wP [] [.elem wPPr [] [.elem c!"w:numPr" [] [.elem c!"w:ilvl" [(aVal, lvl.toList)] [], .elem c!"w:numId" [(aVal, c!"1")] []]],
    .elem wR [] [.elem wT [] [.text txt.toList]]]

def exNumDoc : WordDoc where
  root := .elem c!"w:document" [] []
  numbering := some ⟨[(7, [⟨7, 0, c!"decimal", c!"%1."⟩, ⟨7, 1, c!"bullet", c!"o"⟩, ⟨7, 2, c!"lowerLetter", c!"%3"⟩])], [(1, 7)]⟩
  styles := .elem c!"w:styles" [] []

/-- four paragraphs with the levels 0, 2, 1, 0 and one which is not part of the list -/
def exStream : List LNode :=
  [⟨[0], exItem "0" "a"⟩, ⟨[1], exItem "2" "b"⟩, ⟨[2], exItem "1" "c"⟩, ⟨[3], exItem "0" "d"⟩,
   ⟨[4], .elem wP [] [.elem wR [] [.elem wT [] [.text c!"e"]]]⟩]

def HItem.show : HItem → Str
  | .item spans => spans.flatMap (·.text)
  | .list props elems => props.tag ++ c!"(" ++ showAll elems ++ c!")"
where showAll : List HItem → Str
  | [] => []
  | i :: is => i.show ++ showAll is

example : letI := Uni.ascii
    (match parseList exNumDoc (listFuel exStream) exStream with
      | .ok (it, rest) => some (it.show, rest.map (·.path))
      | .error _ => none) = some (c!"ol(aol(b)ul(c)d)", [[4]]) := by decide +kernel

end Spex
