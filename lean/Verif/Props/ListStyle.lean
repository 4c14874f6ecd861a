import Verif.Props.Sheet
import Verif.Props.RunFormat
import Mathlib.Data.List.Induction
/-
C70: the lists on the page have the markers of the Word document.
-/
set_option autoImplicit false
namespace Spex

/-! ### Specification -/

/-- The marker of a level of a Word numbering (ECMA-376, 17.18.59), in terms of CSS. Bullets are discs and circles in turn. -/
def wordMarker (l : NumLvl) : Option Str :=
  if l.numFmt = c!"bullet" then some (if l.ilvl % 2 = 0 then c!"disc" else c!"circle")
  else if l.numFmt = c!"decimal" then some c!"decimal"
  else if l.numFmt = c!"lowerLetter" then some c!"lower-alpha"
  else if l.numFmt = c!"lowerRoman" then some c!"lower-roman"
  else if l.numFmt = c!"upperLetter" then some c!"upper-alpha"
  else if l.numFmt = c!"upperRoman" then some c!"upper-roman"
  else none

mutual
/-- the lists in an element of a list, each with the lists around it from the inside out -/
def itemLists (outer : List NumLvl) : HItem → List (List NumLvl)
  | .item _ => []
  | .list props elems => (props :: outer) :: itemsLists (props :: outer) elems
def itemsLists (outer : List NumLvl) : List HItem → List (List NumLvl)
  | [] => []
  | e :: es => itemLists outer e ++ itemsLists outer es
end

mutual
/-- the lists of the parsed document from top to bottom, each with the lists around it; of a table the cells which begin at their place -/
def unitLists : HUnit → List (List NumLvl)
  | .para _ => []
  | .list props elems => [props] :: itemsLists [props] elems
  | .table _ _ rows => rowsLists 0 rows
def unitsLists : List HUnit → List (List NumLvl)
  | [] => []
  | u :: us => unitLists u ++ unitsLists us
def rowsLists (r : Nat) : List (List HCell) → List (List NumLvl)
  | [] => []
  | row :: rows => cellsLists r 0 row ++ rowsLists (r + 1) rows
def cellsLists (r c : Nat) : List HCell → List (List NumLvl)
  | [] => []
  | .mk _ elems _ _ left top _ :: cells =>
    if left = (c : Int) ∧ top = (r : Int) then unitsLists elems ++ cellsLists r (c + 1) cells
    else cellsLists r (c + 1) cells
end

/-- one element; only lists count -/
def seenMarker (rules : List CssRule) (e : Node × List El) : Option (Option Str) :=
  if e.1.hasTag c!"ol" || e.1.hasTag c!"ul" then some (cascade rules e.2 c!"list-style-type") else none

/-- the markers of the lists on a page from top to bottom -/
def seenMarkers (rules : List CssRule) (root : Node) : List (Option Str) := (pageElements root).filterMap (seenMarker rules)

/-- the levels of each numbering are listed in order: 0, 1, 2, … -/
def TidyNumbering (num : Option Numbering) : Prop :=
  ∀ n, num = some n → ∀ e ∈ n.absNums, ∀ (i : Nat) (l : NumLvl), e.2[i]? = some l → l.ilvl = i

/-- a level which is a bullet or numbered in one of the ways known, with the number at the beginning -/
def PlainLevel (l : NumLvl) : Prop :=
  (l.numFmt = c!"bullet" ∧ l.lvlText.head? ≠ some '%') ∨
    (l.numFmt ∈ [c!"decimal", c!"lowerLetter", c!"lowerRoman"] ∧ l.lvlText.head? = some '%')

/-- a list, given with the lists around it: there is one of these for each level above, and all are bullets or all are numbered -/
def StepByStep (chain : List NumLvl) : Prop :=
  ∃ l outer, chain = l :: outer ∧ l.ilvl = outer.length ∧ ∀ q ∈ outer, q.lvlText.head? = some '%' ↔ l.lvlText.head? = some '%'

/-! ### which rules match a list -/

/-- what rules for lists see of an element and its ancestors -/
def listView (els : List El) : List (Str × List Str) :=
  (els.filter (fun e => e.tag == c!"ol" || e.tag == c!"ul")).map (fun e => (e.tag, e.classes))

/-- the lists around an element are just these -/
def Around (outer : List NumLvl) (anc : List El) : Prop := listView anc = outer.map (fun l => (l.tag, [l.clsname]))

theorem lvl_tag (l : NumLvl) : (l.tag == c!"ol" || l.tag == c!"ul") = true := by
  unfold NumLvl.tag
  split <;> decide

theorem Around.other {outer : List NumLvl} {anc : List El} (h : Around outer anc) {e : El} (h1 : e.tag ≠ c!"ol") (h2 : e.tag ≠ c!"ul") :
    Around outer (e :: anc) := by
  unfold Around listView at h ⊢
  rw [List.filter_cons_of_neg (by simp [h1, h2])]
  exact h

theorem class_of_level (l : NumLvl) : cssWords l.clsname = [l.clsname] := by
  apply css_one
  · intro h0
    exact (tag_ident l).2 (List.append_eq_nil_iff.1 h0).1
  · intro c hc
    exact (identChar_not (clsname_ident l c hc)).1

theorem level_classes (l : NumLvl) (first last : Bool) : (elOf l.tag [(c!"class", l.clsname)] first last).classes = [l.clsname] := by
  show cssWords (([(c!"class", l.clsname)].lookup c!"class").getD []) = _
  exact class_of_level l

theorem Around.list {outer : List NumLvl} {anc : List El} (h : Around outer anc) (l : NumLvl) (first last : Bool) :
    Around (l :: outer) (elOf l.tag [(c!"class", l.clsname)] first last :: anc) := by
  unfold Around listView at h ⊢
  rw [List.filter_cons_of_pos (by exact lvl_tag l), List.map_cons, List.map_cons, h, level_classes]
  rfl

theorem match_level {anc : List El} {t c : Str} (n : Str) (k : Nat) (h : ∀ e ∈ anc, e.tag = t → e.classes = [c]) :
    matchAncestors (List.replicate k ⟨some t, [], []⟩ ++ [⟨some t, [n], []⟩]) anc =
      decide (n = c ∧ k + 1 ≤ (anc.filter (fun e => e.tag == t)).length) := by
  induction anc generalizing k with
  | nil => cases k <;> simp [matchAncestors, List.replicate_succ]
  | cons e es ih =>
    have ih := fun k => ih k (fun x hx => h x (List.mem_cons_of_mem _ hx))
    by_cases ht : e.tag = t
    · rw [List.filter_cons_of_pos (by simpa using ht)]
      have hc := h e List.mem_cons_self ht
      cases k with
      | zero =>
        have := ih 0
        rw [List.replicate_zero, List.nil_append] at this ⊢
        rw [matchAncestors, this, matchAncestors]
        by_cases hn : n = c <;> simp [Compound.matches, ht, hc, hn]
      | succ k =>
        have h1 := ih k
        have h2 := ih (k + 1)
        rw [List.replicate_succ, List.cons_append] at h2 ⊢
        rw [matchAncestors, h1, h2]
        by_cases hn : n = c
        · simp [Compound.matches, ht, hn]
          omega
        · simp [hn]
    · rw [List.filter_cons_of_neg (by simpa using ht)]
      have := ih k
      cases k with
      | zero =>
        rw [List.replicate_zero, List.nil_append] at this ⊢
        rw [matchAncestors, this]
        simp [Compound.matches, Ne.symm ht]
      | succ k =>
        rw [List.replicate_succ, List.cons_append] at this ⊢
        rw [matchAncestors, this]
        simp [Compound.matches, Ne.symm ht]

theorem intStr_inj {a b : Int} (h : intStr a = intStr b) : a = b := by
  have minus : ∀ n m : Nat, natStr n ≠ '-' :: natStr m := by
    intro n m he
    obtain ⟨c, s, h1, h2⟩ := natStr_head n
    rw [h1] at he
    cases he
    revert h2; decide
  cases a with
  | ofNat n =>
    cases b with
    | ofNat m => rw [natStr_inj (a := n) (b := m) h]
    | negSucc m => exact absurd h (minus n _)
  | negSucc n =>
    cases b with
    | ofNat m => exact absurd h.symm (minus m _)
    | negSucc m =>
      have := natStr_inj (List.cons.inj h).2
      congr 1
      omega

/-- what the rules for lists say: those for the numbering and the kind of the list which are not deeper than it count -/
def levelSays (l : NumLvl) (outer : List NumLvl) (r : NumLvl) : Option ((Nat × Nat) × Str) :=
  if r.absId = l.absId ∧ r.tag = l.tag ∧ r.ilvl.toNat ≤ (outer.filter (fun q => q.tag == l.tag)).length then
    some ((1, r.ilvl.toNat + 1), r.listStyle) else none

/-- the marker which the style sheet gives to a list -/
def chainMarker (num : Option Numbering) : List NumLvl → Option Str
  | [] => none
  | l :: outer => (((((num.map Numbering.levels).getD []).filterMap (levelSays l outer)).foldl better none)).map (·.2)

theorem level_says {l : NumLvl} {outer : List NumLvl} (hid : ∀ q ∈ outer, q.absId = l.absId) {anc : List El} (ha : Around outer anc)
    (first last : Bool) (r : NumLvl) :
    ruleSays (elOf l.tag [(c!"class", l.clsname)] first last :: anc) c!"list-style-type" (ruleOf (r.selector, [(c!"list-style-type", r.listStyle)])) =
      (levelSays l outer r).toList := by
  have hcls : ∀ e ∈ anc, e.tag = l.tag → e.classes = [l.clsname] := by
    intro e he ht
    have : (e.tag, e.classes) ∈ listView anc := List.mem_map.2 ⟨e, List.mem_filter.2 ⟨he, by rw [ht]; exact lvl_tag l⟩, rfl⟩
    rw [ha] at this
    obtain ⟨q, hq, h1⟩ := List.mem_map.1 this
    have e1 : q.tag = e.tag := (Prod.mk.inj h1).1
    have e2 : [q.clsname] = e.classes := (Prod.mk.inj h1).2
    rw [← e2, NumLvl.clsname, NumLvl.clsname, hid q hq, e1, ht]
  have hcount : (anc.filter (fun e => e.tag == l.tag)).length = (outer.filter (fun q => q.tag == l.tag)).length := by
    have h1 : anc.filter (fun e => e.tag == l.tag) = (anc.filter (fun e => e.tag == c!"ol" || e.tag == c!"ul")).filter (fun e => e.tag == l.tag) := by
      rw [List.filter_filter]
      apply List.filter_congr
      intro e _
      by_cases ht : e.tag = l.tag
      · rw [ht, lvl_tag]; simp
      · simp [ht]
    have h2 : ((listView anc).filter (fun v => v.1 == l.tag)).length = ((outer.map (fun l => (l.tag, [l.clsname]))).filter (fun v => v.1 == l.tag)).length := by
      rw [ha]
    rw [listView, List.filter_map, List.filter_map, List.length_map, List.length_map] at h2
    rw [h1]
    exact h2
  unfold ruleSays
  rw [level_selectors, level_decls]
  have hm : selMatches (⟨some r.tag, [r.clsname], []⟩ :: List.replicate r.ilvl.toNat ⟨some r.tag, [], []⟩)
      (elOf l.tag [(c!"class", l.clsname)] first last :: anc) =
      decide (r.absId = l.absId ∧ r.tag = l.tag ∧ r.ilvl.toNat ≤ (outer.filter (fun q => q.tag == l.tag)).length) := by
    unfold selMatches
    rw [List.reverse_cons, List.reverse_replicate]
    by_cases ht : r.tag = l.tag
    · have hc : r.clsname = l.clsname ↔ r.absId = l.absId := by
        rw [NumLvl.clsname, NumLvl.clsname, ht]
        exact ⟨fun h => intStr_inj (List.append_cancel_left h), fun h => by rw [h]⟩
      cases hk : r.ilvl.toNat with
      | zero =>
        have h1 : matchAncestors [] anc = true := by rw [matchAncestors]
        simp only [List.replicate_zero, List.nil_append, h1]
        have h2 : Compound.matches ⟨some r.tag, [r.clsname], []⟩ (elOf l.tag [(c!"class", l.clsname)] first last) = decide (r.clsname = l.clsname) := by
          unfold Compound.matches
          rw [level_classes]
          simp [elOf, ht]
        rw [h2, Bool.and_true]
        by_cases hi : r.absId = l.absId <;> simp [hc, hi, ht]
      | succ k =>
        rw [List.replicate_succ, List.cons_append]
        have h1 := match_level (anc := anc) (t := l.tag) (c := l.clsname) r.clsname k hcls
        simp only
        rw [ht, h1, hcount]
        have h2 : Compound.matches ⟨some l.tag, [], []⟩ (elOf l.tag [(c!"class", l.clsname)] first last) = true := by
          unfold Compound.matches
          simp [elOf]
        rw [h2, Bool.true_and]
        simp only [hc, true_and]
    · have h0 : ∀ cls : List Str, Compound.matches ⟨some r.tag, cls, []⟩ (elOf l.tag [(c!"class", l.clsname)] first last) = false := by
        intro cls
        unfold Compound.matches
        simp [elOf, ht]
      cases hk : r.ilvl.toNat with
      | zero => simp [h0, ht]
      | succ k =>
        rw [List.replicate_succ, List.cons_append]
        simp [h0, ht]
  by_cases hb : r.absId = l.absId ∧ r.tag = l.tag ∧ r.ilvl.toNat ≤ (outer.filter (fun q => q.tag == l.tag)).length
  · rw [levelSays, if_pos hb, List.filter_cons_of_pos (p := fun s => selMatches s (elOf l.tag [(c!"class", l.clsname)] first last :: anc)) (by rw [hm]; simpa using hb)]
    simp [specificity]
    omega
  · rw [levelSays, if_neg hb, List.filter_cons_of_neg (p := fun s => selMatches s (elOf l.tag [(c!"class", l.clsname)] first last :: anc)) (by rw [hm]; simpa using hb)]
    simp

theorem prelude_no_marker (els : List El) : (preludeRules.map ruleOf).flatMap (ruleSays els c!"list-style-type") = [] := by
  apply flatMap_nil'
  intro r hr
  apply says_nothing
  have : (preludeRules.map ruleOf).all (fun r => r.decls.all (fun d => d.1 != c!"list-style-type")) = true := by decide +kernel
  have := List.all_eq_true.1 this r hr
  intro d hd he
  have := List.all_eq_true.1 this d hd
  rw [he] at this
  simp at this

theorem clsname_apart (l : NumLvl) {pre : Str} (hp : pre.head? = some 't') {n : Str} (h : pre <+: n) : n ≠ l.clsname := by
  rintro rfl
  obtain ⟨x, hx⟩ := h
  cases pre with
  | nil => cases hp
  | cons c pre =>
    cases hp
    unfold NumLvl.clsname NumLvl.tag at hx
    split at hx <;> cases hx

theorem cascade_list (num : Option Numbering) {ps : List Part} {st : RSt} (h : PageCaches ps st) {l : NumLvl} {outer : List NumLvl}
    (hid : ∀ q ∈ outer, q.absId = l.absId) {anc : List El} (ha : Around outer anc) (first last : Bool) :
    cascade ((sheetRules num st).map ruleOf) (elOf l.tag [(c!"class", l.clsname)] first last :: anc) c!"list-style-type" = chainMarker num (l :: outer) := by
  have h1 : ∀ e ∈ st.txt.entries, e.2 ∉ (elOf l.tag [(c!"class", l.clsname)] first last).classes := by
    intro e he hm
    rw [level_classes, List.mem_singleton] at hm
    exact clsname_apart l (by rfl) (h.txt e he).2 hm
  have h2 : ∀ e ∈ st.tcell.entries, e.2 ∉ (elOf l.tag [(c!"class", l.clsname)] first last).classes := by
    intro e he hm
    rw [level_classes, List.mem_singleton] at hm
    exact clsname_apart l (by rfl) (h.tcell e he).2 hm
  have h3 : ((listRules num).map ruleOf).flatMap (ruleSays (elOf l.tag [(c!"class", l.clsname)] first last :: anc) c!"list-style-type") =
      ((num.map Numbering.levels).getD []).filterMap (levelSays l outer) := by
    cases num with
    | none => rfl
    | some n =>
      show ((n.levels.map (fun l => (l.selector, [(c!"list-style-type", l.listStyle)]))).map ruleOf).flatMap _ = n.levels.filterMap _
      rw [List.map_map, List.flatMap_map]
      generalize n.levels = ls
      induction ls with
      | nil => rfl
      | cons r ls ih =>
        rw [List.flatMap_cons, ih, List.filterMap_cons]
        have := level_says hid ha first last r
        simp only [Function.comp]
        rw [this]
        cases levelSays l outer r <;> rfl
  rw [cascade, applying_eq, sheetRules, List.map_append, List.map_append, List.map_append, List.flatMap_append, List.flatMap_append, List.flatMap_append,
    prelude_no_marker, h3, rules_says, rules_says, entries_silent (fun e he => (h.txt e he).1) _ anc _ h1,
    entries_silent (fun e he => (h.tcell e he).1) _ anc _ h2]
  simp [chainMarker]

/-! ### the lists on a page -/

/-- inside these lists, the node contributes `out` -/
def GivesIn {β : Type} (F : Node × List El → Option β) (outer : List NumLvl) (k : Node) (out : List β) : Prop :=
  ∀ anc first last, Around outer anc → (chains anc first last k).filterMap F = out

/-- the same for several nodes, one after another -/
def GivesAllIn {β : Type} (F : Node × List El → Option β) (outer : List NumLvl) (ks : List Node) (out : List β) : Prop :=
  ∃ outs, List.Forall₂ (GivesIn F outer) ks outs ∧ out = outs.flatten

section gives
variable {β : Type} {F : Node × List El → Option β} {outer : List NumLvl}

theorem GivesAllIn.nil : GivesAllIn F outer [] [] := ⟨[], .nil, rfl⟩

theorem GivesIn.one {k : Node} {o : List β} (h : GivesIn F outer k o) : GivesAllIn F outer [k] o := ⟨[o], .cons h .nil, by simp⟩

theorem GivesAllIn.append {a b : List Node} {o o' : List β} (h : GivesAllIn F outer a o) (h' : GivesAllIn F outer b o') :
    GivesAllIn F outer (a ++ b) (o ++ o') := by
  obtain ⟨x, h1, rfl⟩ := h
  obtain ⟨y, h2, rfl⟩ := h'
  exact ⟨x ++ y, List.rel_append h1 h2, by simp⟩

theorem GivesAllIn.cons {k : Node} {ks : List Node} {o os : List β} (h : GivesIn F outer k o) (hs : GivesAllIn F outer ks os) :
    GivesAllIn F outer (k :: ks) (o ++ os) := h.one.append hs

theorem GivesAllIn.kids {ks : List Node} {o : List β} (h : GivesAllIn F outer ks o) {anc : List El} (ha : Around outer anc) (first : Bool) :
    (chainsKids anc first ks).filterMap F = o := by
  obtain ⟨outs, h1, rfl⟩ := h
  induction h1 generalizing first with
  | nil => rw [chainsKids]; rfl
  | cons hk _ ih => rw [chainsKids, List.filterMap_append, hk _ _ _ ha, ih, List.flatten_cons]

/-- elements which are not lists do not count -/
def ListsOnly (F : Node × List El → Option β) : Prop := ∀ tag attrs ks els, tag ≠ c!"ol" → tag ≠ c!"ul" → F (.elem tag attrs ks, els) = none

theorem GivesAllIn.elem (hF : ListsOnly F) {tag : Str} {attrs : List (Str × Str)} {ks : List Node} {o : List β} (h : GivesAllIn F outer ks o)
    (h1 : tag ≠ c!"ol") (h2 : tag ≠ c!"ul") : GivesIn F outer (.elem tag attrs ks) o := by
  intro anc first last ha
  rw [chains, List.filterMap_cons, hF _ _ _ _ h1 h2]
  exact h.kids (ha.other h1 h2) _

theorem GivesIn.text (s : Str) : GivesIn F outer (.text s) [] := fun _ _ _ _ => by rw [chains]; rfl

theorem GivesAllIn.texts (s : Str) : GivesAllIn F outer (textKids s) [] := by
  unfold textKids
  split
  · exact .nil
  · exact (GivesIn.text s).one

theorem GivesAllIn.spans (hF : ListsOnly F) (cls : Classes) (ss : List HSpan) : GivesAllIn F outer (ss.map (spanNode cls)) [] := by
  induction ss with
  | nil => exact .nil
  | cons s ss ih => exact .cons (o := []) (GivesAllIn.elem hF (.texts _) (by decide) (by decide)) ih

theorem GivesAllIn.pending (hF : ListsOnly F) {p : Option (List Node)} {o : List β} (h : GivesAllIn F outer (p.getD []) o) :
    GivesAllIn F outer ((p.map liNode).toList) o := by
  cases p with
  | none => exact h
  | some ns => exact (GivesAllIn.elem hF h (by decide) (by decide)).one

/-- how a list counts -/
def ListCounts (F : Node × List El → Option β) (G : List NumLvl → β) : List NumLvl → Prop
  | [] => True
  | l :: outer => ∀ ks anc first last, Around outer anc →
      F (.elem l.tag [(c!"class", l.clsname)] ks, elOf l.tag [(c!"class", l.clsname)] first last :: anc) = some (G (l :: outer))

theorem GivesAllIn.list {l : NumLvl} {ks : List Node} {G : List NumLvl → β} {o : List β} (h : GivesAllIn F (l :: outer) ks o) (hc : ListCounts F G (l :: outer)) :
    GivesIn F outer (.elem l.tag [(c!"class", l.clsname)] ks) (G (l :: outer) :: o) := by
  intro anc first last ha
  rw [chains, List.filterMap_cons, hc _ _ _ _ ha]
  simp only
  rw [h.kids (ha.list l first last)]

end gives

section page
variable {β : Type} {F : Node × List El → Option β} {cls : Classes} {G : List NumLvl → β}

mutual
theorem item_lists (hF : ListsOnly F) (e : HItem) (outer : List NumLvl) (p : Option (List Node)) (o : List β) (hp : GivesAllIn F outer (p.getD []) o)
    (hs : ∀ c ∈ itemLists outer e, ListCounts F G c) :
    ∃ o1 o2, GivesAllIn F outer (itemNode cls p e).1 o1 ∧ GivesAllIn F outer ((itemNode cls p e).2.getD []) o2 ∧
      o1 ++ o2 = o ++ (itemLists outer e).map G := by
  cases e with
  | item spans =>
    rw [itemNode, itemLists]
    exact ⟨o, [], GivesAllIn.pending hF hp, GivesAllIn.spans hF cls spans, rfl⟩
  | list props elems =>
    rw [itemLists] at hs ⊢
    rw [itemNode]
    have h := items_lists hF elems (props :: outer) none [] .nil (fun c hc => hs c (List.mem_cons_of_mem _ hc))
    have h1 := GivesAllIn.list h (hs _ List.mem_cons_self)
    refine ⟨_, [], (GivesAllIn.elem hF (hp.append h1.one) (by decide) (by decide)).one, .nil, ?_⟩
    simp
theorem items_lists (hF : ListsOnly F) (es : List HItem) (outer : List NumLvl) (p : Option (List Node)) (o : List β) (hp : GivesAllIn F outer (p.getD []) o)
    (hs : ∀ c ∈ itemsLists outer es, ListCounts F G c) : GivesAllIn F outer (itemNodes cls p es) (o ++ (itemsLists outer es).map G) := by
  cases es with
  | nil =>
    rw [itemNodes, itemsLists]
    simpa using GivesAllIn.pending hF hp
  | cons e es =>
    rw [itemsLists] at hs ⊢
    obtain ⟨o1, o2, h1, h2, h3⟩ := item_lists hF e outer p o hp (fun c h => hs c (List.mem_append_left _ h))
    have h := items_lists hF es outer (itemNode cls p e).2 o2 h2 (fun c h => hs c (List.mem_append_right _ h))
    rw [itemNodes, List.map_append, ← List.append_assoc, ← h3, List.append_assoc]
    exact h1.append h
end

mutual
theorem unit_lists (hF : ListsOnly F) (u : HUnit) (hok : u.Ok) (h : ∀ c ∈ unitLists u, ListCounts F G c) :
    GivesIn F [] (unitNode cls u) ((unitLists u).map G) := by
  cases u with
  | para spans =>
    rw [unitLists, unitNode]
    exact GivesAllIn.elem hF (GivesAllIn.spans hF cls spans) (by decide) (by decide)
  | list props elems =>
    rw [unitLists] at h ⊢
    rw [unitNode, List.map_cons]
    have := items_lists (cls := cls) hF elems [props] none [] .nil (fun c hc => h c (List.mem_cons_of_mem _ hc))
    exact GivesAllIn.list this (h _ List.mem_cons_self)
  | table src id rows =>
    rw [unitLists] at h ⊢
    rw [unitNode]
    rw [HUnit.Ok] at hok
    exact GivesAllIn.elem hF (rows_lists hF rows 0 hok.2 h) (by decide) (by decide)
theorem units_lists (hF : ListsOnly F) (us : List HUnit) (hok : unitsOk us) (h : ∀ c ∈ unitsLists us, ListCounts F G c) :
    GivesAllIn F [] (unitNodes cls us) ((unitsLists us).map G) := by
  cases us with
  | nil => rw [unitNodes, unitsLists]; exact .nil
  | cons u us =>
    rw [unitsLists] at h ⊢
    rw [unitsOk] at hok
    rw [unitNodes, List.map_append]
    exact .cons (unit_lists hF u hok.1 (fun p hp => h p (List.mem_append_left _ hp))) (units_lists hF us hok.2 (fun p hp => h p (List.mem_append_right _ hp)))
theorem rows_lists (hF : ListsOnly F) (rows : List (List HCell)) (r : Nat) (hok : rowsOk rows) (h : ∀ c ∈ rowsLists r rows, ListCounts F G c) :
    GivesAllIn F [] (rowNodes cls r rows) ((rowsLists r rows).map G) := by
  cases rows with
  | nil => rw [rowNodes, rowsLists]; exact .nil
  | cons row rows =>
    rw [rowsLists] at h ⊢
    rw [rowsOk] at hok
    rw [rowNodes, List.map_append]
    exact .cons (GivesAllIn.elem hF (cells_lists hF row r 0 hok.1 (fun p hp => h p (List.mem_append_left _ hp))) (by decide) (by decide))
      (rows_lists hF rows (r + 1) hok.2 (fun p hp => h p (List.mem_append_right _ hp)))
theorem cells_lists (hF : ListsOnly F) (cells : List HCell) (r c : Nat) (hok : cellsOk cells) (h : ∀ x ∈ cellsLists r c cells, ListCounts F G x) :
    GivesAllIn F [] (cellNodes cls r c cells) ((cellsLists r c cells).map G) := by
  match cells with
  | [] => rw [cellNodes, cellsLists]; exact .nil
  | .mk tag elems colspan rowspan left top fill :: cells =>
    rw [cellsLists] at h ⊢
    rw [cellsOk] at hok
    rw [cellNodes]
    by_cases hp : left = (c : Int) ∧ top = (r : Int)
    · rw [if_pos hp] at h ⊢
      rw [if_pos hp, List.map_append]
      have h1 := units_lists hF elems hok.2.1 (fun p hm => h p (List.mem_append_left _ hm))
      have ht : tag ≠ c!"ol" ∧ tag ≠ c!"ul" := by
        rcases hok.1 with rfl | rfl <;> decide
      exact .cons (GivesAllIn.elem hF h1 ht.1 ht.2) (cells_lists hF cells r (c + 1) hok.2.2 (fun p hm => h p (List.mem_append_right _ hm)))
    · rw [if_neg hp] at h ⊢
      rw [if_neg hp]
      exact cells_lists hF cells r (c + 1) hok.2.2 h
end

theorem page_lists (hF : ListsOnly F) (version title : Str) (revision : Option Str) (fname : Str)
    {body : List Node} {o : List β} (h : GivesAllIn F [] body o) : GivesIn F [] (pageNode version title revision fname body) o := by
  have hs : ∀ tag attrs ks o, tag ≠ c!"ol" → tag ≠ c!"ul" → GivesAllIn F [] ks o → GivesIn F [] (.elem tag attrs ks) o :=
    fun tag attrs ks o h1 h2 h => GivesAllIn.elem hF h h1 h2
  refine hs _ _ _ _ (by decide) (by decide) (.cons (o := []) ?_ ?_)
  · refine hs _ _ _ _ (by decide) (by decide) ?_
    refine .cons (o := []) (os := []) (hs _ _ _ _ (by decide) (by decide) .nil) ?_
    refine .cons (o := []) (os := []) (hs _ _ _ _ (by decide) (by decide) .nil) ?_
    refine .cons (o := []) (os := []) (hs _ _ _ _ (by decide) (by decide) (.texts _)) ?_
    exact .cons (o := []) (os := []) (hs _ _ _ _ (by decide) (by decide) .nil) .nil
  · exact (hs _ _ _ _ (by decide) (by decide) h).one

end page

/-! ### the numbering -/

theorem mapM_forall {α β : Type} {f : α → Except Exn β} {as : List α} {bs : List β} (h : as.mapM f = .ok bs) :
    List.Forall₂ (fun a b => f a = .ok b) as bs := by
  induction as generalizing bs with
  | nil => cases h; exact .nil
  | cons a as ih =>
    rw [List.mapM_cons] at h
    obtain ⟨b, h1, h⟩ := except_bind_ok h
    obtain ⟨bs', h2, h⟩ := except_bind_ok h
    cases h
    exact .cons h1 (ih h2)

theorem dict_values {α : Type} (assigns : List (Int × α)) (k : Int) (v : α) : (k, v) ∈ dictValues assigns ↔ intDict assigns k = some v := by
  induction assigns using List.reverseRecOn with
  | nil => simp [dictValues, intDict]
  | append_singleton as x ih =>
    have e1 : intDict (as ++ [x]) k = if k = x.1 then some x.2 else intDict as k := by
      unfold intDict
      rw [List.reverse_append, List.reverse_singleton, List.singleton_append, List.lookup_cons]
      by_cases hk : k = x.1
      · rw [if_pos hk, show (k == x.1) = true by simpa using hk]
      · rw [if_neg hk, show (k == x.1) = false by simpa using hk]
    have e2 : dictValues (as ++ [x]) = if (dictValues as).any (fun e => e.1 == x.1) then (dictValues as).map (fun e => if e.1 = x.1 then x else e)
        else dictValues as ++ [x] := by
      unfold dictValues
      rw [List.foldl_append, List.foldl_cons, List.foldl_nil]
    rw [e1, e2]
    generalize dictValues as = d at ih ⊢
    by_cases ha : d.any (fun e => e.1 == x.1) = true
    · rw [if_pos ha]
      obtain ⟨y, hy, hyx⟩ := List.any_eq_true.1 ha
      have hyx : y.1 = x.1 := by simpa using hyx
      by_cases hk : k = x.1
      · rw [if_pos hk]
        constructor
        · intro hm
          obtain ⟨e, he, h1⟩ := List.mem_map.1 hm
          by_cases hx : e.1 = x.1
          · rw [if_pos hx] at h1; rw [h1]
          · rw [if_neg hx] at h1
            rw [h1] at hx
            exact absurd hk hx
        · intro hv
          refine List.mem_map.2 ⟨y, hy, ?_⟩
          rw [if_pos hyx, hk, ← Option.some.inj hv]
      · rw [if_neg hk, ← ih]
        constructor
        · intro hm
          obtain ⟨e, he, h1⟩ := List.mem_map.1 hm
          by_cases hx : e.1 = x.1
          · rw [if_pos hx] at h1
            rw [h1] at hk
            exact absurd rfl hk
          · rw [if_neg hx] at h1
            rw [← h1]; exact he
        · intro hm
          exact List.mem_map.2 ⟨_, hm, by rw [if_neg hk]⟩
    · rw [if_neg ha]
      have hn : ∀ e ∈ d, e.1 ≠ x.1 := by
        intro e he hx
        exact ha (List.any_eq_true.2 ⟨e, he, by simpa using hx⟩)
      by_cases hk : k = x.1
      · rw [if_pos hk, List.mem_append, List.mem_singleton]
        constructor
        · rintro (h | h)
          · exact absurd hk (hn _ h)
          · rw [← h]
        · intro hv
          right
          rw [hk, ← Option.some.inj hv]
      · rw [if_neg hk, ← ih, List.mem_append, List.mem_singleton]
        constructor
        · rintro (h | h)
          · exact h
          · rw [← h] at hk
            exact absurd rfl hk
        · exact .inl

theorem intDict_mem {α : Type} {assigns : List (Int × α)} {k : Int} {v : α} (h : intDict assigns k = some v) : (k, v) ∈ assigns := by
  unfold intDict at h
  exact List.mem_reverse.1 (lookup_mem h)

section word
variable [Uni]

theorem absNum_ids {e : Node} {r : Int × List NumLvl} (h : parseAbsNum e = .ok r) : ∀ l ∈ r.2, l.absId = r.1 := by
  unfold parseAbsNum at h
  obtain ⟨s, _, h⟩ := except_bind_ok h
  obtain ⟨i, _, h⟩ := except_bind_ok h
  obtain ⟨lvls, h3, h⟩ := except_bind_ok h
  cases h
  intro l hl
  obtain ⟨x, _, hx⟩ := forall2_right (mapM_forall h3) hl
  unfold parseLvl at hx
  obtain ⟨_, _, hx⟩ := except_bind_ok hx
  obtain ⟨_, _, hx⟩ := except_bind_ok hx
  obtain ⟨_, _, hx⟩ := except_bind_ok hx
  obtain ⟨_, _, hx⟩ := except_bind_ok hx
  cases hx
  rfl

theorem opened_ids {f : WordFile} {doc : WordDoc} {header : Str} (h : openWord f = .ok (doc, header)) {n : Numbering} (hn : doc.numbering = some n) :
    ∀ e ∈ n.absNums, ∀ l ∈ e.2, l.absId = e.1 := by
  unfold openWord at h
  obtain ⟨_, _, h⟩ := except_bind_ok h
  obtain ⟨num, h2, h⟩ := except_bind_ok h
  obtain ⟨_, _, h⟩ := except_bind_ok h
  obtain ⟨_, _, h⟩ := except_bind_ok h
  cases h
  simp only at hn
  subst hn
  unfold openNumbering at h2
  cases hp : f.numbering.bind parseNumbering with
  | error e => rw [hp] at h2; simp only at h2; split at h2 <;> cases h2
  | ok m =>
    rw [hp] at h2
    cases h2
    obtain ⟨root, _, hp⟩ := except_bind_ok hp
    unfold parseNumbering at hp
    obtain ⟨abs, h3, hp⟩ := except_bind_ok hp
    obtain ⟨nums, _, hp⟩ := except_bind_ok hp
    cases hp
    intro e he
    obtain ⟨x, _, hx⟩ := forall2_right (mapM_forall h3) he
    exact absNum_ids hx

/-- the lists of one chain are levels of the same numbering -/
def OneNumbering (doc : WordDoc) (chain : List NumLvl) : Prop := ∃ a, ∀ l ∈ chain, ∃ lvl, LevelDef doc a lvl l

theorem listOf_lists {doc : WordDoc} {a l : Int} {ps : List LNode} {items : List HItem} (h : ListOf doc a l ps items) :
    ∀ outer, (∀ q ∈ outer, ∃ lvl, LevelDef doc a lvl q) → ∀ c ∈ itemsLists outer items, ∀ q ∈ c, ∃ lvl, LevelDef doc a lvl q := by
  induction h with
  | nil => intro outer _ c hc; rw [itemsLists] at hc; cases hc
  | item _ _ _ ih =>
    intro outer ho c hc
    rw [itemsLists, itemLists] at hc
    exact ih outer ho c hc
  | nested _ _ h3 _ _ _ ih1 ih2 =>
    intro outer ho c hc
    rw [itemsLists, itemLists] at hc
    have ho' := fun q hq => (List.mem_cons.1 hq).elim (fun e => by rw [e]; exact ⟨_, h3⟩) (ho q)
    rcases List.mem_append.1 hc with hc | hc
    · rcases List.mem_cons.1 hc with rfl | hc
      · exact ho'
      · exact ih1 _ ho' c hc
    · exact ih2 outer ho c hc

omit [Uni] in
theorem cellsLists_mem {cells : List HCell} {r c : Nat} {x : List NumLvl} (h : x ∈ cellsLists r c cells) : ∃ cell ∈ cells, x ∈ unitsLists cell.elems := by
  induction cells generalizing c with
  | nil => rw [cellsLists] at h; cases h
  | cons cell cells ih =>
    rcases cell with ⟨tag, elems, _, _, left, top, _⟩
    rw [cellsLists] at h
    by_cases hp : left = (c : Int) ∧ top = (r : Int)
    · rw [if_pos hp] at h
      rcases List.mem_append.1 h with h | h
      · exact ⟨_, List.mem_cons_self, h⟩
      · obtain ⟨y, h1, h2⟩ := ih h
        exact ⟨y, List.mem_cons_of_mem _ h1, h2⟩
    · rw [if_neg hp] at h
      obtain ⟨y, h1, h2⟩ := ih h
      exact ⟨y, List.mem_cons_of_mem _ h1, h2⟩

omit [Uni] in
theorem rowsLists_mem {rows : List (List HCell)} {r : Nat} {x : List NumLvl} (h : x ∈ rowsLists r rows) :
    ∃ row ∈ rows, ∃ cell ∈ row, x ∈ unitsLists cell.elems := by
  induction rows generalizing r with
  | nil => rw [rowsLists] at h; cases h
  | cons row rows ih =>
    rw [rowsLists] at h
    rcases List.mem_append.1 h with h | h
    · exact ⟨row, List.mem_cons_self, cellsLists_mem h⟩
    · obtain ⟨y, h1, h2⟩ := ih h
      exact ⟨y, List.mem_cons_of_mem _ h1, h2⟩

omit [Uni] in
theorem unitsLists_append (us vs : List HUnit) : unitsLists (us ++ vs) = unitsLists us ++ unitsLists vs := by
  induction us with
  | nil => rfl
  | cons u us ih => rw [List.cons_append, unitsLists, unitsLists, ih, List.append_assoc]

omit [Uni] in
theorem unitsLists_mem {us : List HUnit} {x : List NumLvl} : x ∈ unitsLists us ↔ ∃ u ∈ us, x ∈ unitLists u := by
  induction us with
  | nil => simp [unitsLists]
  | cons u us ih => simp [unitsLists, ih]

theorem parse_lists {doc : WordDoc} (n : Nat) :
    (∀ tbl seen us seen', parseTable doc n tbl seen = .ok (us, seen') → ∀ c ∈ unitsLists us, OneNumbering doc c) ∧
    (∀ stream seen us seen', parseAny doc n stream seen = .ok (us, seen') → ∀ c ∈ unitsLists us, OneNumbering doc c) := by
  induction n with
  | zero =>
    refine ⟨fun tbl seen us seen' h => ?_, fun s seen us seen' h => ?_⟩
    · rw [parseTable] at h; cases h
    · rw [parseAny] at h; cases h
  | succ n ih =>
    refine ⟨?_, ?_⟩
    · intro tbl seen us seen' h
      rw [parseTable] at h
      by_cases ht : tbl.node.hasTag wTbl = true
      · rw [if_pos ht] at h
        by_cases hs : tbl.path ∈ seen
        · rw [if_pos hs] at h; cases h; intro c hc; rw [unitsLists] at hc; cases hc
        · rw [if_neg hs] at h
          obtain ⟨g, h1, h⟩ := except_bind_ok h
          obtain ⟨⟨rows, s2⟩, h2, h⟩ := except_bind_ok h
          cases h
          have hrows : ∀ row ∈ rows, ∀ cell ∈ row, ∀ c ∈ unitsLists cell.elems, OneNumbering doc c := by
            refine mapSt_all (as := g.matrix) (P := fun row => ∀ cell ∈ row, ∀ c ∈ unitsLists cell.elems, OneNumbering doc c) ?_ h2
            intro row _ s cells s' hrow
            refine mapSt_all (as := row) (P := fun cell => ∀ c ∈ unitsLists cell.elems, OneNumbering doc c) ?_ hrow
            intro k _ s b s' hk
            unfold parseSlot at hk
            cases he : g.els[k]? with
            | none => rw [he] at hk; cases hk
            | some e =>
              rw [he] at hk
              obtain ⟨⟨us, s1⟩, h3, hk⟩ := except_bind_ok hk
              cases hk
              exact ih.2 _ _ _ _ h3
          intro c hc
          obtain ⟨u, hu, hc⟩ := unitsLists_mem.1 hc
          have : u = HUnit.table tbl.path (findId rows) rows := List.mem_singleton.1 hu
          subst this
          rw [unitLists] at hc
          obtain ⟨row, hr, cell, hcell, hc⟩ := rowsLists_mem hc
          exact hrows row hr cell hcell c hc
      · rw [if_neg ht] at h; cases h
    · intro stream seen us seen' h
      cases stream with
      | nil => rw [parseAny] at h; cases h; intro c hc; rw [unitsLists] at hc; cases hc
      | cons c rest =>
        rw [parseAny] at h
        by_cases ht : c.node.hasTag wTbl = true
        · rw [if_pos ht] at h
          obtain ⟨⟨t, s1⟩, h1, h⟩ := except_bind_ok h
          obtain ⟨⟨us', s2⟩, h2, h⟩ := except_bind_ok h
          cases h
          intro x hx
          rw [unitsLists_append] at hx
          rcases List.mem_append.1 hx with hx | hx
          · exact ih.1 _ _ _ _ h1 x hx
          · exact ih.2 _ _ _ _ h2 x hx
        · rw [if_neg ht] at h
          by_cases hp : c.node.hasTag wP = true
          · rw [if_pos hp] at h
            obtain ⟨isList, h1, h⟩ := except_bind_ok h
            cases isList with
            | true =>
              simp only [if_true] at h
              obtain ⟨⟨it, rest'⟩, h2, h⟩ := except_bind_ok h
              obtain ⟨⟨us', s2⟩, h3, h⟩ := except_bind_ok h
              obtain ⟨a, l, props, items, ps, g1, g2, g3, g4, g5, -⟩ := (parseList_spec doc _).1 _ _ _ _ h2 h1
              simp only [g1] at h
              cases h
              intro x hx
              rw [unitsLists, unitLists] at hx
              have ho : ∀ q ∈ [props], ∃ lvl, LevelDef doc a lvl q := by
                intro q hq
                rw [List.mem_singleton] at hq
                rw [hq]; exact ⟨_, g4⟩
              rcases List.mem_append.1 hx with hx | hx
              · rcases List.mem_cons.1 hx with rfl | hx
                · exact ⟨a, ho⟩
                · exact ⟨a, listOf_lists g5 _ ho x hx⟩
              · exact ih.2 _ _ _ _ h3 x hx
            | false =>
              simp only [Bool.false_eq_true, if_false] at h
              obtain ⟨ps, h2, h⟩ := except_bind_ok h
              obtain ⟨⟨us', s2⟩, h3, h⟩ := except_bind_ok h
              cases h
              intro x hx
              rw [unitsLists_append] at hx
              rcases List.mem_append.1 hx with hx | hx
              · unfold parseParagraph at h2
                obtain ⟨spans, hsp, h2⟩ := except_bind_ok h2
                split at h2 <;> cases h2
                · rw [unitsLists] at hx; cases hx
                · rw [unitsLists, unitLists, unitsLists] at hx; cases hx
              · exact ih.2 _ _ _ _ h3 x hx
          · rw [if_neg hp] at h
            exact ih.2 _ _ _ _ h

theorem parseWord_lists {doc : WordDoc} {us : List HUnit} (h : parseWord doc = .ok us) : ∀ c ∈ unitsLists us, OneNumbering doc c := by
  unfold parseWord at h
  obtain ⟨⟨uss, s⟩, h1, h⟩ := except_bind_ok h
  cases h
  intro c hc
  obtain ⟨u, hu, hc⟩ := unitsLists_mem.1 hc
  obtain ⟨us, hus, hu⟩ := List.mem_flatten.1 hu
  have := mapSt_all (P := fun us => ∀ c ∈ unitsLists us, OneNumbering doc c) (as := docTables doc.root)
    (fun t _ s b s' hb => (parse_lists _).1 _ _ _ _ hb) h1 us hus
  exact this c (unitsLists_mem.2 ⟨u, hu, hc⟩)

end word

/-! ### the best rule -/

theorem best_max {x : (Nat × Nat) × Str} {xs : List ((Nat × Nat) × Str)} {b : Option ((Nat × Nat) × Str)}
    (hx : x ∈ xs ∨ b = some x) (hb : ∀ y, b = some y → specLe y.1 x.1 = true ∧ (y.1 = x.1 → y = x))
    (h : ∀ y ∈ xs, specLe y.1 x.1 = true ∧ (y.1 = x.1 → y = x)) : xs.foldl better b = some x := by
  have anti : ∀ {a c : Nat × Nat}, specLe a c = true → specLe c a = true → a = c := by
    intro a c h1 h2
    obtain ⟨a1, a2⟩ := a
    obtain ⟨c1, c2⟩ := c
    simp only [specLe, Bool.or_eq_true, decide_eq_true_eq, Bool.and_eq_true, beq_iff_eq] at h1 h2
    have : a1 = c1 ∧ a2 = c2 := by omega
    rw [this.1, this.2]
  induction xs generalizing b with
  | nil =>
    rcases hx with hx | hx
    · cases hx
    · exact hx
  | cons y ys ih =>
    rw [List.foldl_cons]
    have hy := h y List.mem_cons_self
    have hys := fun z hz => h z (List.mem_cons_of_mem _ hz)
    have hnew : ∀ z, better b y = some z → specLe z.1 x.1 = true ∧ (z.1 = x.1 → z = x) := by
      intro z hz
      unfold better at hz
      cases b with
      | none => cases hz; exact hy
      | some b =>
        simp only at hz
        split at hz
        · cases hz; exact hy
        · cases hz; exact hb _ rfl
    refine ih ?_ hnew hys
    rcases hx with hx | hx
    · rcases List.mem_cons.1 hx with rfl | hx
      · right
        unfold better
        cases b with
        | none => rfl
        | some b => simp only; rw [if_pos (hb b rfl).1]
      · exact .inl hx
    · right
      subst hx
      unfold better
      simp only
      by_cases hle : specLe x.1 y.1 = true
      · rw [if_pos hle, hy.2 (anti hy.1 hle)]
      · rw [if_neg hle]

theorem startsWith_percent (s : Str) : startsWith s c!"%" = true ↔ s.head? = some '%' := by
  cases s with
  | nil => decide
  | cons c s =>
    show (('%' == c) && true) = true ↔ some c = some '%'
    rw [Bool.and_true, beq_iff_eq, Option.some.injEq, eq_comm]

theorem same_tag {l q : NumLvl} (h : q.lvlText.head? = some '%' ↔ l.lvlText.head? = some '%') : q.tag = l.tag := by
  unfold NumLvl.tag
  simp only [startsWith_percent, h]

theorem plain_marker {l : NumLvl} (h : PlainLevel l) : some l.listStyle = wordMarker l := by
  unfold NumLvl.listStyle wordMarker
  rcases h with ⟨h1, h2⟩ | ⟨h1, h2⟩
  · rw [if_neg (by rw [startsWith_percent]; exact h2), if_pos h1]
  · rw [if_pos ((startsWith_percent _).2 h2)]
    simp only [List.mem_cons, List.not_mem_nil, or_false] at h1
    rcases h1 with h1 | h1 | h1 <;> rw [h1] <;> rfl

theorem level_mem [Uni] {doc : WordDoc} {n : Numbering} (hn : doc.numbering = some n) {a lvl : Int} {l : NumLvl} (h : LevelDef doc a lvl l) :
    ∃ lvls, intDict n.absNums a = some lvls ∧ l ∈ lvls := by
  obtain ⟨m, lvls, h1, h2, h3⟩ := h
  rw [hn] at h1
  cases h1
  refine ⟨lvls, (intDict_iff _ _ _).2 h2, ?_⟩
  obtain ⟨before, after, rfl, -⟩ := h3
  simp

/-- the rules give a list the marker of its level if it is nested step by step -/
theorem chain_marker [Uni] {doc : WordDoc} {n : Numbering} (hn : doc.numbering = some n) (hids : ∀ e ∈ n.absNums, ∀ l ∈ e.2, l.absId = e.1)
    (ht : TidyNumbering doc.numbering) {l : NumLvl} {outer : List NumLvl} (h1 : OneNumbering doc (l :: outer))
    (hl : l.ilvl = outer.length) (ho : ∀ q ∈ outer, q.tag = l.tag) : chainMarker doc.numbering (l :: outer) = some l.listStyle := by
  obtain ⟨a, ha⟩ := h1
  obtain ⟨lvl, hlev⟩ := ha l List.mem_cons_self
  obtain ⟨lvls, hd, hm⟩ := level_mem hn hlev
  have hcount : (outer.filter (fun q => q.tag == l.tag)).length = outer.length := by
    rw [List.filter_eq_self.2]
    intro q hq
    simpa using ho q hq
  have hla : l.absId = a := hids _ (intDict_mem hd) l hm
  have hmem : l ∈ n.levels := List.mem_flatMap.2 ⟨(a, lvls), (dict_values _ _ _).2 hd, hm⟩
  have hself : levelSays l outer l = some ((1, outer.length + 1), l.listStyle) := by
    have : l.ilvl.toNat = outer.length := by omega
    rw [levelSays, if_pos ⟨rfl, rfl, by rw [hcount, this]⟩, this]
  rw [chainMarker, hn]
  simp only [Option.map_some, Option.getD_some]
  rw [best_max (x := ((1, outer.length + 1), l.listStyle)) (.inl (List.mem_filterMap.2 ⟨l, hmem, hself⟩)) (by intro y hy; cases hy)]
  · rfl
  · intro y hy
    obtain ⟨r, hr, hy⟩ := List.mem_filterMap.1 hy
    unfold levelSays at hy
    split at hy
    · rename_i hc
      obtain ⟨c1, c2, c3⟩ := hc
      cases hy
      rw [hcount] at c3
      refine ⟨?_, ?_⟩
      · have : r.ilvl.toNat + 1 ≤ outer.length + 1 := by omega
        simp [specLe, this]
      · intro he
        have hk : r.ilvl.toNat = outer.length := by
          have := (Prod.mk.inj he).2
          omega
        obtain ⟨⟨b, bl⟩, hb, hrb⟩ := List.mem_flatMap.1 hr
        have hbd := (dict_values _ _ _).1 hb
        have hba : r.absId = b := hids _ (intDict_mem hbd) r hrb
        have : b = a := by rw [← hba, c1, hla]
        subst this
        rw [hd] at hbd
        cases hbd
        obtain ⟨i, hi⟩ := List.getElem?_of_mem hrb
        obtain ⟨j, hj⟩ := List.getElem?_of_mem hm
        have e1 := ht n hn _ (intDict_mem hd) i r hi
        have e2 := ht n hn _ (intDict_mem hd) j l hj
        have : i = j := by omega
        subst this
        rw [hi] at hj
        cases hj
        rw [hk]
    · cases hy

/-! ### the page -/

theorem marker_clean (rules : List CssRule) (n : Node) (els : List El) : seenMarker rules (n.clean, els) = seenMarker rules (n, els) := by
  unfold seenMarker
  simp only [hasTag_clean]

theorem marker_only (rules : List CssRule) : ListsOnly (seenMarker rules) := by
  intro tag attrs ks els h1 h2
  unfold seenMarker
  rw [if_neg (by simp [Node.hasTag, h1, h2])]

theorem one_ids [Uni] {doc : WordDoc} {n : Numbering} (hn : doc.numbering = some n) (hids : ∀ e ∈ n.absNums, ∀ l ∈ e.2, l.absId = e.1)
    {chain : List NumLvl} (h : OneNumbering doc chain) : ∃ a, ∀ l ∈ chain, l.absId = a := by
  obtain ⟨a, ha⟩ := h
  refine ⟨a, fun l hl => ?_⟩
  obtain ⟨lvl, h1⟩ := ha l hl
  obtain ⟨lvls, h2, h3⟩ := level_mem hn h1
  exact hids _ (intDict_mem h2) l h3

/-- the markers of a page: for each list what the rules of the numbering say -/
theorem markers_seen [Uni] {f : WordFile} {stem : Str} {doc : WordDoc} {header : Str} {us : List HUnit}
    (h : Readable f stem doc header us) {layout : List Piece → Str} (hl : ∀ ps, Laid ps (layout ps)) (unzip : Str → WordFile) (bytes : Str)
    (hb : unzip bytes = f) (hf : ∀ p ∈ unitsParts us, p.Fine) :
    ∃ (page css : Str) (root : Node), (stageTools unzip layout).docx stem bytes = .ok (page, css) ∧ (stageTools unzip layout).xml page = .ok root ∧
      seenMarkers (readCss css) root = (unitsLists us).map (chainMarker doc.numbering) := by
  obtain ⟨page, css, root, h1, h2, h3⟩ := h.read hl unzip bytes hb
  refine ⟨page, css, root, h1, h2, ?_⟩
  have hcss : css = layout ((cssStart doc.numbering ++ cssEnd (renderUnits RSt.init us).2).flatMap emitln) := by
    have hst : (firstStage f stem false).2 = .ok ((renderPage spexVersion (headerTitle header) (headerRevision header) stem us).1,
        cssStart doc.numbering ++ cssEnd (renderUnits RSt.init us).2) := by
      rw [firstStage, h.opened]
      simp only [(wordTables_parseWord doc us).2 h.tables]
      rfl
    simp only [stageTools, hb, hst] at h1
    cases h1; rfl
  rw [units_after] at hcss
  have hc := pageCaches hf
  rw [hcss, sheet_read (sheet_text (hl _)) (sheet_safe _ hc)]
  have hseen : seenMarkers ((sheetRules doc.numbering (after RSt.init (unitsParts us))).map ruleOf) root =
      (pageElements root.clean).filterMap (seenMarker ((sheetRules doc.numbering (after RSt.init (unitsParts us))).map ruleOf)) :=
    (chains_clean (marker_clean _) root [] true true).symm
  rw [hseen, h3]
  refine page_lists (marker_only _) _ _ _ _ (units_lists (marker_only _) us (parseWord_ok h.text h.tables) (fun c hcm => ?_)) [] true true rfl
  cases c with
  | nil => trivial
  | cons l outer =>
    intro ks anc first last ha
    have hone := parseWord_lists h.tables _ hcm
    obtain ⟨n, hn⟩ : ∃ n, doc.numbering = some n := by
      obtain ⟨a, ha⟩ := hone
      obtain ⟨_, n, _, hn, _⟩ := ha l List.mem_cons_self
      exact ⟨n, hn⟩
    obtain ⟨a, hid⟩ := one_ids hn (opened_ids h.opened hn) hone
    unfold seenMarker
    rw [if_pos (by simpa [Node.hasTag] using lvl_tag l),
      cascade_list _ hc (fun q hq => by rw [hid q (List.mem_cons_of_mem _ hq), hid l List.mem_cons_self]) ha]

/-- C70: Take any Word document which can be read and whose numberings list their levels in order, and any way to lay out the files
written. Read by a browser, page and style sheet together show the lists of its tables from top to bottom. Each list has the marker of its
level, provided that the level is a bullet or one of the three known kinds of numbers, and that the list is nested step by step in lists of
its kind.
Not shown: the other kinds of numbers (`C70_letters_false`, `C70_brackets_false`), numbered lists in bullet lists and the other way round
(`C70_mixed_false`), and lists which begin below the first level (`C70_deep_false`). -/
theorem C70_markers_partial [Uni] {f : WordFile} {stem : Str} {doc : WordDoc} {header : Str} {us : List HUnit}
    (h : Readable f stem doc header us) {layout : List Piece → Str} (hl : ∀ ps, Laid ps (layout ps)) (unzip : Str → WordFile) (bytes : Str)
    (hb : unzip bytes = f) (hf : ∀ p ∈ unitsParts us, p.Fine) (ht : TidyNumbering doc.numbering) :
    ∃ (page css : Str) (root : Node), (stageTools unzip layout).docx stem bytes = .ok (page, css) ∧ (stageTools unzip layout).xml page = .ok root ∧
      List.Forall₂ (fun chain marker => StepByStep chain → ∀ l, chain.head? = some l → PlainLevel l → marker = wordMarker l)
        (unitsLists us) (seenMarkers (readCss css) root) := by
  obtain ⟨page, css, root, h1, h2, h3⟩ := markers_seen h hl unzip bytes hb hf
  refine ⟨page, css, root, h1, h2, ?_⟩
  rw [h3, List.forall₂_map_right_iff, List.forall₂_same]
  intro chain hc hs l hl' hp
  obtain ⟨l', outer, rfl, e1, e2⟩ := hs
  cases hl'
  have hone := parseWord_lists h.tables _ hc
  obtain ⟨n, hn⟩ : ∃ n, doc.numbering = some n := by
    obtain ⟨a, ha⟩ := hone
    obtain ⟨_, n, _, hn, _⟩ := ha l List.mem_cons_self
    exact ⟨n, hn⟩
  rw [chain_marker hn (opened_ids h.opened hn) ht hone e1 (fun q hq => same_tag (e2 q hq)), plain_marker hp]

/-! ### Examples, and what does not hold -/

/-- a level of a numbering -/
def exLevel (ilvl numFmt lvlText : String) : Node :=
  .elem c!"w:lvl" [(c!"w:ilvl", ilvl.toList)] [.elem c!"w:numFmt" [(aVal, numFmt.toList)] [], .elem c!"w:lvlText" [(aVal, lvlText.toList)] []]

/-- a Word file with a table, in a cell of which there are paragraphs of a list -/
def exListFile (levels items : List Node) : WordFile where
  document := .ok (.elem c!"w:document" [] [.elem c!"w:body" [] [.elem wTbl [] [exTr [exCell [] items]]]])
  numbering := .ok (.elem c!"w:numbering" [] [.elem c!"w:abstractNum" [(c!"w:abstractNumId", c!"7")] levels,
    .elem c!"w:num" [(c!"w:numId", c!"1")] [.elem c!"w:abstractNumId" [(aVal, c!"7")] []]])
  header := .ok exHeader
  styles := .ok exRedBold.styles

/-- what is to be checked of such a file: the markers of the lists which the rules of the numbering give them, and their markers in Word -/
def listCase [Uni] (f : WordFile) : Option (Str × Bool × List (Option Str) × List (Option Str)) :=
  match openWord f with
  | .error _ => none
  | .ok (doc, header) => match parseWord doc with
    | .error _ => none
    | .ok us => some (header, doc.root.flat.all isXmlChar && (unitsParts us).all Part.fine, (unitsLists us).map (chainMarker doc.numbering),
        (unitsLists us).map (fun c => c.head?.bind wordMarker))

/-- Word file, page and style sheet: the lists have these markers on the page, and those in Word -/
def ListsShown [Uni] (f : WordFile) (onPage inWord : List (Option Str)) : Prop :=
  ∃ doc header us, Readable f c!"nvme" doc header us ∧ (∀ p ∈ unitsParts us, p.Fine) ∧
    (unitsLists us).map (fun c => c.head?.bind wordMarker) = inWord ∧
    ∀ layout, (∀ ps, Laid ps (layout ps)) → ∀ unzip bytes, unzip bytes = f →
      ∃ (page css : Str) (root : Node), (stageTools unzip layout).docx c!"nvme" bytes = .ok (page, css) ∧ (stageTools unzip layout).xml page = .ok root ∧
        seenMarkers (readCss css) root = onPage

theorem list_case {f : WordFile} {onPage inWord : List (Option Str)} : letI := Uni.ascii
    listCase f = some (c!"NVM Express® Base Specification, Revision 2.0c", true, onPage, inWord) → ListsShown f onPage inWord := by
  let _ := Uni.ascii
  intro h
  unfold listCase at h
  cases h0 : openWord f with
  | error e => rw [h0] at h; cases h
  | ok r =>
    obtain ⟨doc, header⟩ := r
    rw [h0] at h
    simp only at h
    cases h1 : parseWord doc with
    | error e => rw [h1] at h; cases h
    | ok us =>
      rw [h1] at h
      simp only [Option.some.injEq, Prod.mk.injEq, Bool.and_eq_true] at h
      obtain ⟨rfl, ⟨h2, h3⟩, h4, h5⟩ := h
      have hf : ∀ p ∈ unitsParts us, p.Fine := fun p hp => Part.fine_ok (List.all_eq_true.1 h3 p hp)
      have hr : Readable f c!"nvme" doc c!"NVM Express® Base Specification, Revision 2.0c" us := by
        refine ⟨h0, fun c hc => List.all_eq_true.1 h2 c hc, h1, ?_, ?_, ?_⟩
        · have : (headerTitle c!"NVM Express® Base Specification, Revision 2.0c").all (fun c => isXmlChar c && !(c!"<>&\"\t\n\r").contains c) = true := by
            decide +kernel
          intro c hc
          have := List.all_eq_true.1 this c hc
          simpa only [Bool.and_eq_true, Bool.not_eq_true', List.contains_eq_mem, decide_eq_false_iff_not] using this
        · have : headerRevision c!"NVM Express® Base Specification, Revision 2.0c" = some c!"2.0c" := by decide +kernel
          intro r hr
          rw [this] at hr
          cases hr
          unfold HeadText
          decide +kernel
        · unfold HeadText
          decide +kernel
      refine ⟨doc, _, us, hr, hf, h5, ?_⟩
      intro layout hl unzip bytes hb
      obtain ⟨page, css, root, g1, g2, g3⟩ := markers_seen hr hl unzip bytes hb hf
      exact ⟨page, css, root, g1, g2, by rw [g3, h4]⟩

/-- three numbered levels, nested step by step -/
example : letI := Uni.ascii
    ListsShown (exListFile [exLevel "0" "decimal" "%1.", exLevel "1" "lowerLetter" "%2)", exLevel "2" "lowerRoman" "%3."]
      [exItem "0" "a", exItem "1" "b", exItem "2" "c", exItem "1" "d", exItem "0" "e", exItem "1" "f"])
      [some c!"decimal", some c!"lower-alpha", some c!"lower-roman", some c!"lower-alpha"]
      [some c!"decimal", some c!"lower-alpha", some c!"lower-roman", some c!"lower-alpha"] := by
  let _ := Uni.ascii
  exact list_case (by decide +kernel)

/-- the hypotheses of C70 -/
example : StepByStep [⟨7, 1, c!"lowerLetter", c!"%2)"⟩, ⟨7, 0, c!"decimal", c!"%1."⟩] ∧ PlainLevel ⟨7, 1, c!"lowerLetter", c!"%2)"⟩ ∧
    TidyNumbering (some ⟨[(7, [⟨7, 0, c!"decimal", c!"%1."⟩, ⟨7, 1, c!"lowerLetter", c!"%2)"⟩])], [(1, 7)]⟩) := by
  refine ⟨⟨_, _, rfl, rfl, by simp⟩, .inr ⟨by decide, rfl⟩, ?_⟩
  intro n hn e he i l hl
  cases hn
  rw [List.mem_singleton] at he
  subst he
  match i with
  | 0 => cases hl; rfl
  | 1 => cases hl; rfl
  | n + 2 => cases hl

/-- C70 is false of numbers which are not known: a list numbered with capital letters is numbered with figures on the page. -/
theorem C70_letters_false : letI := Uni.ascii
    ListsShown (exListFile [exLevel "0" "upperLetter" "%1."] [exItem "0" "a"]) [some c!"decimal"] [some c!"upper-alpha"] := by
  let _ := Uni.ascii
  exact list_case (by decide +kernel)

/-- C70 is false of numbers with a text in front: a list numbered (1), (2), … has bullets on the page. -/
theorem C70_brackets_false : letI := Uni.ascii
    ListsShown (exListFile [exLevel "0" "decimal" "(%1)"] [exItem "0" "a"]) [some c!"disc"] [some c!"decimal"] := by
  let _ := Uni.ascii
  exact list_case (by decide +kernel)

/-- C70 is false of a list numbered with letters in a list of bullets: no rule is for it. -/
theorem C70_mixed_false : letI := Uni.ascii
    ListsShown (exListFile [exLevel "0" "bullet" "•", exLevel "1" "lowerLetter" "%2."] [exItem "0" "a", exItem "1" "b"])
      [some c!"disc", none] [some c!"disc", some c!"lower-alpha"] := by
  let _ := Uni.ascii
  exact list_case (by decide +kernel)

/-- C70 is false of a list which begins at the second level: it gets the marker of the first one. -/
theorem C70_deep_false : letI := Uni.ascii
    ListsShown (exListFile [exLevel "0" "decimal" "%1.", exLevel "1" "lowerLetter" "%2."] [exItem "1" "a"])
      [some c!"decimal"] [some c!"lower-alpha"] := by
  let _ := Uni.ascii
  exact list_case (by decide +kernel)

end Spex
