import Verif.Props.FirstStage
import Verif.Props.WordFuel
import Verif.Lemmas.Page
import Mathlib.Data.List.Forall2
/-
C100: only the tables of a Word document matter, and what was made of a document remains when it is continued.
-/
set_option autoImplicit false
namespace Spex
section
variable [Uni]

/-! ### Specification -/

mutual
/-- an element, if it is a table, or the outermost tables in it -/
def tablesIn : Node → List Node
  | .text _ => []
  | .elem t as ks => if t = c!"w:tbl" then [.elem t as ks] else tablesAmong ks
/-- the same for elements one after another -/
def tablesAmong : List Node → List Node
  | [] => []
  | k :: ks => tablesIn k ++ tablesAmong ks
end

/-- The tables of a document which are not within other tables, in their order, wherever they are. -/
def outerTables (root : Node) : List Node := tablesAmong root.kids

/-! ### the places of the outermost tables -/

mutual
/-- `tablesIn` with places -/
def tablesAt (path : List Nat) : Node → List LNode
  | .text _ => []
  | .elem t as ks => if t = c!"w:tbl" then [⟨path, .elem t as ks⟩] else tablesAts path 0 ks
/-- `tablesAmong` with places -/
def tablesAts (path : List Nat) (i : Nat) : List Node → List LNode
  | [] => []
  | k :: ks => tablesAt (path ++ [i]) k ++ tablesAts path (i + 1) ks
end

omit [Uni] in
mutual
theorem tablesAt_nodes (path : List Nat) : (n : Node) → (tablesAt path n).map (·.node) = tablesIn n
  | .text _ => rfl
  | .elem t as ks => by
    rw [tablesAt, tablesIn]
    by_cases h : t = c!"w:tbl"
    · rw [if_pos h, if_pos h]; rfl
    · rw [if_neg h, if_neg h, tablesAts_nodes]
theorem tablesAts_nodes (path : List Nat) (i : Nat) : (ks : List Node) → (tablesAts path i ks).map (·.node) = tablesAmong ks
  | [] => rfl
  | k :: ks => by rw [tablesAts, tablesAmong, List.map_append, tablesAt_nodes, tablesAts_nodes]
end

/-- a table and the tables in it -/
def withInner (l : LNode) : List LNode := l :: descendants wTbl l.path l.node

omit [Uni] in
mutual
theorem descendants_outer (path : List Nat) : (n : Node) →
    (if n.hasTag wTbl then [⟨path, n⟩] else []) ++ descendants wTbl path n = (tablesAt path n).flatMap withInner
  | .text _ => by simp [Node.hasTag, descendants, tablesAt]
  | .elem t as ks => by
    rw [tablesAt]
    by_cases h : t = c!"w:tbl"
    · rw [if_pos h, if_pos (by rw [h]; simp [Node.hasTag, wTbl])]
      simp [withInner]
    · rw [if_neg h, if_neg (by simpa [Node.hasTag, wTbl] using h), List.nil_append, descendants, descendantsKids_outer]
theorem descendantsKids_outer (path : List Nat) (i : Nat) : (ks : List Node) →
    descendantsKids wTbl path i ks = (tablesAts path i ks).flatMap withInner
  | [] => rfl
  | k :: ks => by
    rw [descendantsKids, tablesAts, List.flatMap_append, descendants_outer, descendantsKids_outer]
end

omit [Uni] in
theorem docTables_outer (root : Node) : docTables root = (tablesAts [] 0 root.kids).flatMap withInner := by
  rw [docTables]
  cases root with
  | text s => rfl
  | elem t as ks => rw [descendants, descendantsKids_outer]; rfl

/-- neither is within the other -/
def Beside (p q : List Nat) : Prop := ¬ p <+: q ∧ ¬ q <+: p

omit [Uni] in
mutual
theorem tablesAt_below (path : List Nat) : (n : Node) → ∀ l ∈ tablesAt path n, path <+: l.path
  | .text _, l, h => by simp [tablesAt] at h
  | .elem t as ks, l, h => by
    rw [tablesAt] at h
    by_cases ht : t = c!"w:tbl"
    · rw [if_pos ht, List.mem_singleton] at h; subst h; exact List.prefix_refl _
    · rw [if_neg ht] at h
      obtain ⟨j, _, hj⟩ := tablesAts_below path 0 ks l h
      exact (List.prefix_append _ _).trans hj
theorem tablesAts_below (path : List Nat) (i : Nat) : (ks : List Node) → ∀ l ∈ tablesAts path i ks, ∃ j, i ≤ j ∧ path ++ [j] <+: l.path
  | [], l, h => by simp [tablesAts] at h
  | k :: ks, l, h => by
    rw [tablesAts, List.mem_append] at h
    rcases h with h | h
    · exact ⟨i, Nat.le_refl _, tablesAt_below _ k l h⟩
    · obtain ⟨j, h1, h2⟩ := tablesAts_below path (i + 1) ks l h
      exact ⟨j, by omega, h2⟩
end

omit [Uni] in
theorem beside_of {path p q : List Nat} {i j : Nat} (hij : i ≠ j) (hp : path ++ [i] <+: p) (hq : path ++ [j] <+: q) : Beside p q := by
  obtain ⟨a, rfl⟩ := hp
  obtain ⟨b, rfl⟩ := hq
  constructor
  · rintro ⟨c, h⟩
    simp only [List.append_assoc, List.append_cancel_left_eq, List.cons_append, List.cons.injEq] at h
    exact hij h.1
  · rintro ⟨c, h⟩
    simp only [List.append_assoc, List.append_cancel_left_eq, List.cons_append, List.cons.injEq] at h
    exact hij h.1.symm

omit [Uni] in
mutual
theorem tablesAt_beside (path : List Nat) : (n : Node) → (tablesAt path n).Pairwise (fun a b => Beside a.path b.path)
  | .text _ => by rw [tablesAt]; exact .nil
  | .elem t as ks => by
    rw [tablesAt]
    by_cases ht : t = c!"w:tbl"
    · rw [if_pos ht]; exact List.pairwise_singleton _ _
    · rw [if_neg ht]; exact tablesAts_beside path 0 ks
theorem tablesAts_beside (path : List Nat) (i : Nat) : (ks : List Node) → (tablesAts path i ks).Pairwise (fun a b => Beside a.path b.path)
  | [] => by rw [tablesAts]; exact .nil
  | k :: ks => by
    rw [tablesAts, List.pairwise_append]
    refine ⟨tablesAt_beside _ k, tablesAts_beside path (i + 1) ks, fun a ha b hb => ?_⟩
    obtain ⟨j, h1, h2⟩ := tablesAts_below path (i + 1) ks b hb
    exact beside_of (by omega) (tablesAt_below _ k a ha) h2
end

/-! ### places which correspond -/

/-- places which correspond to each other: one to one, and below places which correspond -/
structure Moved (P : List Nat → List Nat → Prop) : Prop where
  down : ∀ p q i, P p q → P (p ++ [i]) (q ++ [i])
  one : ∀ p q p' q', P p q → P p' q' → (p = p' ↔ q = q')

/-- the same element, at another place -/
def SameAt (P : List Nat → List Nat → Prop) (a b : LNode) : Prop := P a.path b.path ∧ a.node = b.node

/-- the tables seen correspond -/
def SameSeen (P : List Nat → List Nat → Prop) (s s' : Seen) : Prop := ∀ p q, P p q → (p ∈ s ↔ q ∈ s')

/-- both fail with the same exception, or both have results, which are related -/
inductive Both {α β : Type} (R : α → β → Prop) : Except Exn α → Except Exn β → Prop where
  | ok {a : α} {b : β} : R a b → Both R (.ok a) (.ok b)
  | error {e : Exn} : Both R (.error e) (.error e)

omit [Uni] in
theorem Both.bind {α β γ δ : Type} {R : α → β → Prop} {S : γ → δ → Prop} {x : Except Exn α} {y : Except Exn β} {f : α → Except Exn γ}
    {g : β → Except Exn δ} (h : Both R x y) (hf : ∀ a b, R a b → Both S (f a) (g b)) : Both S (x >>= f) (y >>= g) := by
  cases h with
  | ok h => exact hf _ _ h
  | error => exact .error

omit [Uni] in
theorem Both.same {α : Type} (x : Except Exn α) : Both Eq x x := by
  cases x with
  | ok a => exact .ok rfl
  | error e => exact .error

variable {P : List Nat → List Nat → Prop}

omit [Uni] in
theorem kidsFrom_same (hP : Moved P) {p q : List Nat} (h : P p q) (i : Nat) (ks : List Node) :
    List.Forall₂ (SameAt P) (kidsFrom p i ks) (kidsFrom q i ks) := by
  induction ks generalizing i with
  | nil => exact .nil
  | cons k ks ih =>
    rw [kidsFrom, kidsFrom]
    by_cases hk : k.isElem = true
    · rw [if_pos hk, if_pos hk]; exact .cons ⟨hP.down _ _ _ h, rfl⟩ (ih _)
    · rw [if_neg hk, if_neg hk]; exact ih _

omit [Uni] in
theorem children_same (hP : Moved P) {a b : LNode} (h : SameAt P a b) : List.Forall₂ (SameAt P) a.children b.children := by
  unfold LNode.children
  rw [h.2]
  exact kidsFrom_same hP h.1 0 _

omit [Uni] in
theorem filter_same {as bs : List LNode} (h : List.Forall₂ (SameAt P) as bs) (t : Str) :
    List.Forall₂ (SameAt P) (as.filter (fun k => k.node.hasTag t)) (bs.filter (fun k => k.node.hasTag t)) := by
  induction h with
  | nil => exact .nil
  | @cons a b as bs h _ ih =>
    rw [List.filter_cons, List.filter_cons, h.2]
    by_cases hk : b.node.hasTag t = true
    · rw [if_pos hk, if_pos hk]; exact .cons h ih
    · rw [if_neg hk, if_neg hk]; exact ih

omit [Uni] in
theorem childs_same (hP : Moved P) {a b : LNode} (h : SameAt P a b) (t : Str) : List.Forall₂ (SameAt P) (a.childs t) (b.childs t) :=
  filter_same (children_same hP h) t

omit [Uni] in
mutual
theorem descendants_same (hP : Moved P) (t : Str) {p q : List Nat} (h : P p q) : (n : Node) →
    List.Forall₂ (SameAt P) (descendants t p n) (descendants t q n)
  | .text _ => by rw [descendants, descendants]; exact .nil
  | .elem _ _ ks => by rw [descendants, descendants]; exact descendantsKids_same hP t h 0 ks
theorem descendantsKids_same (hP : Moved P) (t : Str) {p q : List Nat} (h : P p q) (i : Nat) : (ks : List Node) →
    List.Forall₂ (SameAt P) (descendantsKids t p i ks) (descendantsKids t q i ks)
  | [] => by rw [descendantsKids, descendantsKids]; exact .nil
  | k :: ks => by
    rw [descendantsKids, descendantsKids]
    refine List.rel_append (List.rel_append ?_ (descendants_same hP t (hP.down _ _ i h) k)) (descendantsKids_same hP t h (i + 1) ks)
    by_cases hk : k.hasTag t = true
    · rw [if_pos hk, if_pos hk]; exact .cons ⟨hP.down _ _ _ h, rfl⟩ .nil
    · rw [if_neg hk, if_neg hk]; exact .nil
end

/-! ### the grid -/

/-- the same cell of the grid -/
def SameEl (P : List Nat → List Nat → Prop) (a b : GridEl) : Prop :=
  SameAt P a.cell b.cell ∧ a.top = b.top ∧ a.bottom = b.bottom ∧ a.left = b.left ∧ a.right = b.right

omit [Uni] in
theorem forall₂_getElem? {α β : Type} {R : α → β → Prop} {as : List α} {bs : List β} (h : List.Forall₂ R as bs) (i : Nat) :
    (as[i]? = none ∧ bs[i]? = none) ∨ ∃ a b, as[i]? = some a ∧ bs[i]? = some b ∧ R a b := by
  induction h generalizing i with
  | nil => exact .inl ⟨by simp, by simp⟩
  | cons h _ ih =>
    cases i with
    | zero => exact .inr ⟨_, _, rfl, rfl, h⟩
    | succ i => simpa using ih i

omit [Uni] in
theorem pyIndex_same {α β : Type} {R : α → β → Prop} {as : List α} {bs : List β} (h : List.Forall₂ R as bs) (i : Int) :
    Both R (pyIndex as i) (pyIndex bs i) := by
  unfold pyIndex
  rw [h.length_eq]
  generalize (if 0 ≤ i then i else i + (bs.length : Int)) = k
  rcases forall₂_getElem? h k.toNat with ⟨h1, h2⟩ | ⟨a, b, h1, h2, h3⟩
  · rw [h1, h2]; exact .error
  · rw [h1, h2]
    simp only
    by_cases hk : 0 ≤ k
    · rw [if_pos hk, if_pos hk]; exact .ok h3
    · rw [if_neg hk, if_neg hk]; exact .error

omit [Uni] in
theorem setBottom_same {as bs : List GridEl} (h : List.Forall₂ (SameEl P) as bs) (k : Nat) (x : Int) :
    List.Forall₂ (SameEl P) (setBottom as k x) (setBottom bs k x) := by
  unfold setBottom
  induction h generalizing k with
  | nil => simp
  | cons h ht ih =>
    cases k with
    | zero => exact .cons ⟨h.1, h.2.1, rfl, h.2.2.2.1, h.2.2.2.2⟩ ht
    | succ k => exact .cons h (ih k)

/-- the same state within a row -/
def SameGridRow (P : List Nat → List Nat → Prop) (a b : GridRow) : Prop :=
  List.Forall₂ (SameEl P) a.els b.els ∧ a.row = b.row ∧ a.cellIndex = b.cellIndex

theorem gridCell_same (m : List (List Nat)) (i : Int) {a b : GridRow} (h : SameGridRow P a b) {x y : LNode} (hx : SameAt P x y) :
    Both (SameGridRow P) (gridCell m i a x) (gridCell m i b y) := by
  unfold gridCell
  rw [hx.2]
  refine (Both.same _).bind fun span _ e => ?_
  subst e
  refine (Both.same _).bind fun vm _ e => ?_
  subst e
  have hnew : Both (SameGridRow P)
      (.ok ⟨a.els ++ [⟨x, i, i, a.cellIndex, a.cellIndex + span - 1⟩], a.row ++ List.replicate span.toNat a.els.length, a.cellIndex + span⟩)
      (.ok ⟨b.els ++ [⟨y, i, i, b.cellIndex, b.cellIndex + span - 1⟩], b.row ++ List.replicate span.toNat b.els.length, b.cellIndex + span⟩) := by
    refine .ok ⟨List.rel_append h.1 (.cons ⟨hx, rfl, rfl, h.2.2, ?_⟩ .nil), ?_, ?_⟩
    · show a.cellIndex + span - 1 = b.cellIndex + span - 1
      rw [h.2.2]
    · show a.row ++ _ = b.row ++ _
      rw [h.2.1, h.1.length_eq]
    · show a.cellIndex + span = b.cellIndex + span
      rw [h.2.2]
  cases vm with
  | none => exact hnew
  | restart => exact hnew
  | merged =>
    simp only
    refine (Both.same _).bind fun above _ e => ?_
    subst e
    rw [h.2.2]
    refine (Both.same _).bind fun k _ e => ?_
    subst e
    refine (pyIndex_same h.1 k).bind fun g g' hg => ?_
    have hc : g.colspan = g'.colspan := by unfold GridEl.colspan; rw [hg.2.2.2.1, hg.2.2.2.2]
    rw [hc]
    by_cases hs : span = g'.colspan
    · rw [if_pos hs, if_pos hs]
      exact .ok ⟨setBottom_same h.1 k i, by show a.row ++ _ = b.row ++ _; rw [h.2.1], rfl⟩
    · rw [if_neg hs, if_neg hs]; exact .error

theorem gridCells_same (m : List (List Nat)) (i : Int) {xs ys : List LNode} (hx : List.Forall₂ (SameAt P) xs ys) :
    ∀ {a b : GridRow}, SameGridRow P a b → Both (SameGridRow P) (gridCells m i a xs) (gridCells m i b ys) := by
  induction hx with
  | nil => intro a b h; rw [gridCells, gridCells]; exact .ok h
  | cons hx _ ih =>
    intro a b h
    rw [gridCells, gridCells]
    exact (gridCell_same m i h hx).bind fun a b h => ih h

/-- the same grid -/
def SameGrid (P : List Nat → List Nat → Prop) (a b : Grid) : Prop := List.Forall₂ (SameEl P) a.els b.els ∧ a.matrix = b.matrix

theorem gridRows_same (hP : Moved P) {xs ys : List LNode} (hx : List.Forall₂ (SameAt P) xs ys) : ∀ (i : Nat) {a b : Grid}, SameGrid P a b →
    Both (SameGrid P) (gridRows i a xs) (gridRows i b ys) := by
  induction hx with
  | nil => intro i a b h; rw [gridRows, gridRows]; exact .ok h
  | cons hx _ ih =>
    intro i a b h
    rw [gridRows, gridRows, h.2]
    refine (gridCells_same _ _ (childs_same hP hx wTc) (show SameGridRow P ⟨a.els, [], 0⟩ ⟨b.els, [], 0⟩ from ⟨h.1, rfl, rfl⟩)).bind fun r r' hr => ?_
    refine ih (i + 1) ⟨hr.1, ?_⟩
    show _ ++ [r.row] = _ ++ [r'.row]
    rw [hr.2.1]

theorem grid_same (hP : Moved P) {a b : LNode} (h : SameAt P a b) : Both (SameGrid P) (grid a) (grid b) :=
  gridRows_same hP (childs_same hP h wTr) 0 ⟨.nil, rfl⟩

/-! ### units without places -/

mutual
/-- the place of each table forgotten -/
def HUnit.plain : HUnit → HUnit
  | .para spans => .para spans
  | .list props elems => .list props elems
  | .table _ id rows => .table [] id (plainRows rows)
def plainUnits : List HUnit → List HUnit
  | [] => []
  | u :: us => u.plain :: plainUnits us
def plainRows : List (List HCell) → List (List HCell)
  | [] => []
  | row :: rows => plainRow row :: plainRows rows
def plainRow : List HCell → List HCell
  | [] => []
  | .mk tag elems c r l t f :: cells => .mk tag (plainUnits elems) c r l t f :: plainRow cells
end

/-- the same for a cell -/
def HCell.plain : HCell → HCell
  | .mk tag elems c r l t f => .mk tag (plainUnits elems) c r l t f

omit [Uni] in
theorem plainRow_map (row : List HCell) : plainRow row = row.map HCell.plain := by
  induction row with
  | nil => rfl
  | cons c row ih => obtain ⟨_, _, _, _, _, _, _⟩ := c; rw [plainRow, ih]; rfl

omit [Uni] in
theorem plainRows_map (rows : List (List HCell)) : plainRows rows = rows.map (List.map HCell.plain) := by
  induction rows with
  | nil => rfl
  | cons r rows ih => rw [plainRows, ih, plainRow_map]; rfl

omit [Uni] in
theorem plainUnits_map (us : List HUnit) : plainUnits us = us.map HUnit.plain := by
  induction us with
  | nil => rfl
  | cons u us ih => rw [plainUnits, ih]; rfl

omit [Uni] in
theorem plainUnits_append (a b : List HUnit) : plainUnits (a ++ b) = plainUnits a ++ plainUnits b := by
  simp only [plainUnits_map, List.map_append]

theorem findId_plain (rows : List (List HCell)) : findId (plainRows rows) = findId rows := by
  match rows with
  | [] => rfl
  | [] :: _ => rfl
  | (.mk _ [] _ _ _ _ _ :: _) :: _ => rfl
  | (.mk _ (.para _ :: _) _ _ _ _ _ :: _) :: _ => rfl
  | (.mk _ (.list _ _ :: _) _ _ _ _ _ :: _) :: _ => rfl
  | (.mk _ (.table _ _ _ :: _) _ _ _ _ _ :: _) :: _ => rfl

omit [Uni] in
mutual
theorem renderAny_plain (st : RSt) : (u : HUnit) → renderAny st u.plain = renderAny st u
  | .para spans => rfl
  | .list props elems => rfl
  | .table _ id rows => by rw [HUnit.plain, renderAny, renderAny, renderRows_plain]
theorem renderUnits_plain (st : RSt) : (us : List HUnit) → renderUnits st (plainUnits us) = renderUnits st us
  | [] => rfl
  | u :: us => by rw [plainUnits, renderUnits, renderUnits, renderAny_plain, renderUnits_plain]
theorem renderRows_plain (st : RSt) (r : Nat) : (rows : List (List HCell)) → renderRows st r (plainRows rows) = renderRows st r rows
  | [] => rfl
  | row :: rows => by rw [plainRows, renderRows, renderRows, renderCells_plain, renderRows_plain]
theorem renderCells_plain (st : RSt) (r c : Nat) : (cells : List HCell) → renderCells st r c (plainRow cells) = renderCells st r c cells
  | [] => rfl
  | .mk tag elems _ _ _ _ fill :: cells => by
    rw [plainRow, renderCells, renderCells]
    simp only [renderUnits_plain, renderCells_plain]
end

/-! ### parsing -/

section
variable {doc : WordDoc} {root : Node}

/-- the same document with another text -/
abbrev withRoot (doc : WordDoc) (root : Node) : WordDoc := ⟨root, doc.numbering, doc.styles⟩

omit [Uni] in
theorem parseSpans_root (p : Node) : parseSpans (withRoot doc root) p = parseSpans doc p := by
  unfold parseSpans
  generalize p.elems = ks
  induction ks with
  | nil => rfl
  | cons k ks ih => rw [parseChildren, parseChildren, ih]; rfl

theorem parseList_same (n : Nat) :
    (∀ {s s' : List LNode}, List.Forall₂ (SameAt P) s s' →
      Both (fun a b => a.1 = b.1 ∧ List.Forall₂ (SameAt P) a.2 b.2) (parseList doc n s) (parseList (withRoot doc root) n s')) ∧
    (∀ (absId ilvl : Int) {s s' : List LNode}, List.Forall₂ (SameAt P) s s' →
      Both (fun a b => a.1 = b.1 ∧ List.Forall₂ (SameAt P) a.2 b.2) (parseListElems doc n absId ilvl s)
        (parseListElems (withRoot doc root) n absId ilvl s')) := by
  induction n with
  | zero =>
    refine ⟨fun _ => ?_, fun _ _ _ _ _ => ?_⟩
    · rw [parseList, parseList]; exact .error
    · rw [parseListElems, parseListElems]; exact .error
  | succ n ih =>
    refine ⟨fun {s s'} h => ?_, fun absId ilvl s s' h => ?_⟩
    · cases h with
      | nil => rw [parseList, parseList]; exact .error
      | @cons p p' rest rest' h1 h2 =>
        have hs : List.Forall₂ (SameAt P) (p :: rest) (p' :: rest') := .cons h1 h2
        rw [parseList, parseList, h1.2]
        by_cases ht : p'.node.hasTag wP = true
        · rw [if_pos ht, if_pos ht]
          refine (Both.same _).bind fun style _ e => ?_
          subst e
          refine (Both.same _).bind fun lvl _ e => ?_
          subst e
          refine (Both.same _).bind fun props _ e => ?_
          subst e
          exact (ih.2 style.1 lvl hs).bind fun r r' hr => .ok ⟨by rw [hr.1], hr.2⟩
        · rw [if_neg ht, if_neg ht]; exact .error
    · cases h with
      | nil => rw [parseListElems, parseListElems]; exact .ok ⟨rfl, .nil⟩
      | @cons p p' rest rest' h1 h2 =>
        have hs : List.Forall₂ (SameAt P) (p :: rest) (p' :: rest') := .cons h1 h2
        rw [parseListElems, parseListElems, h1.2]
        by_cases ht : p'.node.hasTag wP = true
        · rw [if_pos ht, if_pos ht]
          refine (Both.same _).bind fun isList _ e => ?_
          subst e
          cases isList with
          | false => exact .ok ⟨rfl, hs⟩
          | true =>
            simp only [if_true]
            refine (Both.same _).bind fun style _ e => ?_
            subst e
            by_cases ha : style.1 = absId
            · rw [if_pos ha, if_pos ha]
              refine (Both.same _).bind fun lvl _ e => ?_
              subst e
              by_cases hl : ilvl < lvl
              · rw [if_pos hl, if_pos hl]
                refine (ih.1 hs).bind fun r r' hr => ?_
                exact (ih.2 absId ilvl hr.2).bind fun q q' hq => .ok ⟨by rw [hr.1, hq.1], hq.2⟩
              · rw [if_neg hl, if_neg hl]
                by_cases hl : lvl < ilvl
                · rw [if_pos hl, if_pos hl]; exact .ok ⟨rfl, hs⟩
                · rw [if_neg hl, if_neg hl, show parseSpans (withRoot doc root) p'.node = parseSpans doc p'.node from parseSpans_root _]
                  refine (Both.same _).bind fun spans _ e => ?_
                  subst e
                  exact (ih.2 absId ilvl h2).bind fun q q' hq => .ok ⟨by rw [hq.1], hq.2⟩
            · rw [if_neg ha, if_neg ha]; exact .ok ⟨rfl, hs⟩
        · rw [if_neg ht, if_neg ht]; exact .ok ⟨rfl, hs⟩

omit [Uni] in
theorem mapSt_same {α β σ τ : Type} {SR : σ → τ → Prop} (e : β → β) {f : α → σ → Except Exn (β × σ)} {g : α → τ → Except Exn (β × τ)}
    (h : ∀ a s s', SR s s' → Both (fun x y => e x.1 = e y.1 ∧ SR x.2 y.2) (f a s) (g a s')) (as : List α) :
    ∀ s s', SR s s' → Both (fun x y => x.1.map e = y.1.map e ∧ SR x.2 y.2) (mapSt f as s) (mapSt g as s') := by
  induction as with
  | nil => intro s s' hs; rw [mapSt, mapSt]; exact .ok ⟨rfl, hs⟩
  | cons a as ih =>
    intro s s' hs
    rw [mapSt, mapSt]
    refine (h a s s' hs).bind fun r r' hr => ?_
    refine (ih _ _ hr.2).bind fun q q' hq => .ok ⟨?_, hq.2⟩
    rw [List.map_cons, List.map_cons, hr.1, hq.1]

/-- units which are the same but for the places -/
abbrev SameUnits (P : List Nat → List Nat → Prop) (a b : List HUnit × Seen) : Prop := plainUnits a.1 = plainUnits b.1 ∧ SameSeen P a.2 b.2

theorem parse_same (hP : Moved P) (n : Nat) :
    (∀ {a b : LNode} {s s' : Seen}, SameAt P a b → SameSeen P s s' →
      Both (SameUnits P) (parseTable doc n a s) (parseTable (withRoot doc root) n b s')) ∧
    (∀ {xs ys : List LNode} {s s' : Seen}, List.Forall₂ (SameAt P) xs ys → SameSeen P s s' →
      Both (SameUnits P) (parseAny doc n xs s) (parseAny (withRoot doc root) n ys s')) := by
  induction n with
  | zero =>
    refine ⟨fun _ _ => ?_, fun _ _ => ?_⟩
    · rw [parseTable, parseTable]; exact .error
    · rw [parseAny, parseAny]; exact .error
  | succ n ih =>
    refine ⟨fun {a b s s'} h hs => ?_, fun {xs ys s s'} h hs => ?_⟩
    · rw [parseTable, parseTable, h.2]
      by_cases ht : b.node.hasTag wTbl = true
      · rw [if_pos ht, if_pos ht]
        by_cases hm : b.path ∈ s'
        · rw [if_pos hm, if_pos ((hs _ _ h.1).2 hm)]; exact .ok ⟨rfl, hs⟩
        · rw [if_neg hm, if_neg (fun hc => hm ((hs _ _ h.1).1 hc))]
          refine (grid_same hP h).bind fun g g' hg => ?_
          have hs' : SameSeen P (a.path :: s) (b.path :: s') := by
            intro p q hpq
            rw [List.mem_cons, List.mem_cons, hP.one _ _ _ _ hpq h.1, hs p q hpq]
          rw [hg.2]
          refine (mapSt_same (List.map HCell.plain) (fun row t t' ht => mapSt_same HCell.plain (fun k t t' ht => ?_) row t t' ht)
            g'.matrix _ _ hs').bind fun r r' hr => .ok ⟨?_, hr.2⟩
          · unfold parseSlot
            rcases forall₂_getElem? hg.1 k with ⟨h1, h2⟩ | ⟨e, e', h1, h2, h3⟩
            · rw [h1, h2]; exact .error
            · rw [h1, h2]
              simp only
              refine (ih.2 (children_same hP h3.1) ht).bind fun r r' hr => .ok ⟨?_, hr.2⟩
              rw [HCell.plain, HCell.plain, hr.1, h3.1.2, GridEl.colspan, GridEl.colspan, GridEl.rowspan, GridEl.rowspan, h3.2.1, h3.2.2.1,
                h3.2.2.2.1, h3.2.2.2.2]
          · simp only [plainUnits, HUnit.plain]
            have := hr.1
            rw [← plainRows_map, ← plainRows_map] at this
            rw [this, ← findId_plain r.1, ← findId_plain r'.1, this]
      · rw [if_neg ht, if_neg ht]; exact .error
    · cases h with
      | nil => rw [parseAny, parseAny]; exact .ok ⟨rfl, hs⟩
      | @cons c c' rest rest' h1 h2 =>
        have hall : List.Forall₂ (SameAt P) (c :: rest) (c' :: rest') := .cons h1 h2
        rw [parseAny, parseAny, h1.2]
        by_cases ht : c'.node.hasTag wTbl = true
        · rw [if_pos ht, if_pos ht]
          refine (ih.1 h1 hs).bind fun t t' h3 => ?_
          exact (ih.2 h2 h3.2).bind fun u u' h4 => .ok ⟨by rw [plainUnits_append, plainUnits_append, h3.1, h4.1], h4.2⟩
        · rw [if_neg ht, if_neg ht]
          by_cases hp : c'.node.hasTag wP = true
          · rw [if_pos hp, if_pos hp]
            refine (Both.same _).bind fun isList _ e => ?_
            subst e
            cases isList with
            | true =>
              simp only [if_true]
              have hf : listFuel (c :: rest) = listFuel (c' :: rest') := by unfold listFuel; rw [hall.length_eq]
              rw [hf]
              refine ((parseList_same _).1 hall).bind fun l l' hl => ?_
              refine (ih.2 hl.2 hs).bind fun u u' hu => ?_
              rw [hl.1]
              cases l'.1 with
              | item _ => exact .error
              | list props elems => exact .ok ⟨by simp only [plainUnits]; rw [hu.1], hu.2⟩
            | false =>
              simp only [Bool.false_eq_true, if_false]
              have hp : parseParagraph (withRoot doc root) c'.node = parseParagraph doc c'.node := by
                unfold parseParagraph; rw [parseSpans_root]
              rw [hp]
              refine (Both.same _).bind fun ps _ e => ?_
              subst e
              exact (ih.2 h2 hs).bind fun u u' hu => .ok ⟨by rw [plainUnits_append, plainUnits_append, hu.1], hu.2⟩
          · rw [if_neg hp, if_neg hp]; exact ih.2 h2 hs

theorem parseTable_enough {n m : Nat} {t : LNode} (h : 2 * t.node.size ≤ n) (hm : n ≤ m) (s : Seen) :
    parseTable doc m t s = parseTable doc n t s := by
  induction m with
  | zero => rw [Nat.le_zero.1 hm]
  | succ m ih =>
    rcases Nat.eq_or_lt_of_le hm with h1 | h1
    · rw [h1]
    · rw [(parse_fuel m).1 t s (by omega), ih (by omega)]

/-- The tables of a document, and the same tables at the beginning of another one: the same is yielded, and then what follows. -/
theorem wordTables_same (hP : Moved P) {xs ys : List LNode} (h : List.Forall₂ (SameAt P) xs ys)
    (hx : ∀ x ∈ xs, 2 * x.node.size ≤ docFuel doc.root) (hy : ∀ y ∈ ys, 2 * y.node.size ≤ docFuel root) (more : List LNode) :
    ∀ {s s' : Seen}, SameSeen P s s' →
      (∃ us us' e, wordTables doc xs s = (us, .error e) ∧ wordTables (withRoot doc root) (ys ++ more) s' = (us', .error e) ∧
        plainUnits us' = plainUnits us) ∨
      (∃ us us' s1, wordTables doc xs s = (us, .ok ()) ∧ plainUnits us' = plainUnits us ∧
        wordTables (withRoot doc root) (ys ++ more) s' =
          (us' ++ (wordTables (withRoot doc root) more s1).1, (wordTables (withRoot doc root) more s1).2)) := by
  induction h with
  | nil => intro s s' _; exact .inr ⟨[], [], s', rfl, rfl, rfl⟩
  | @cons x y xs ys h1 h2 ih =>
    intro s s' hs
    rw [List.cons_append, wordTables, wordTables]
    have e1 := parseTable_enough (doc := doc) (hx x List.mem_cons_self) (Nat.le_max_left _ (docFuel root)) s
    have e2 := parseTable_enough (doc := withRoot doc root) (hy y List.mem_cons_self) (Nat.le_max_right (docFuel doc.root) _) s'
    have hb := (parse_same (doc := doc) (root := root) hP (max (docFuel doc.root) (docFuel root))).1 h1 hs
    rw [e1, e2] at hb
    change Both _ _ (parseTable (withRoot doc root) (docFuel (withRoot doc root).root) y s') at hb
    generalize parseTable doc (docFuel doc.root) x s = a at hb ⊢
    generalize parseTable (withRoot doc root) (docFuel (withRoot doc root).root) y s' = b at hb ⊢
    cases hb with
    | error => exact .inl ⟨[], [], _, rfl, rfl, rfl⟩
    | @ok a b hab =>
      rcases ih (fun x h => hx x (List.mem_cons_of_mem _ h)) (fun y h => hy y (List.mem_cons_of_mem _ h)) hab.2 with
        ⟨us, us', e, g1, g2, g3⟩ | ⟨us, us', s1, g1, g2, g3⟩
      · refine .inl ⟨a.1 ++ us, b.1 ++ us', e, ?_, ?_, ?_⟩
        · simp only; rw [g1]
        · simp only; rw [g2]
        · rw [plainUnits_append, plainUnits_append, g3, hab.1]
      · refine .inr ⟨a.1 ++ us, b.1 ++ us', s1, ?_, ?_, ?_⟩
        · simp only; rw [g1]
        · rw [plainUnits_append, plainUnits_append, g2, hab.1]
        · simp only; rw [g3, List.append_assoc]
end

/-- places which correspond: those within the same outermost table -/
def placesIn (as bs : List LNode) (p q : List Nat) : Prop :=
  ∃ (i : Nat) (a b : LNode) (r : List Nat), as[i]? = some a ∧ bs[i]? = some b ∧ p = a.path ++ r ∧ q = b.path ++ r

omit [Uni] in
theorem beside_index {l : List LNode} (h : l.Pairwise (fun a b => Beside a.path b.path)) {i j : Nat} {a b : LNode} (hi : l[i]? = some a)
    (hj : l[j]? = some b) (hc : a.path <+: b.path ∨ b.path <+: a.path) : i = j := by
  obtain ⟨h1, rfl⟩ := List.getElem?_eq_some_iff.1 hi
  obtain ⟨h2, rfl⟩ := List.getElem?_eq_some_iff.1 hj
  rw [List.pairwise_iff_getElem] at h
  rcases Nat.lt_trichotomy i j with hlt | heq | hgt
  · have := h i j h1 h2 hlt
    rcases hc with hc | hc
    · exact absurd hc this.1
    · exact absurd hc this.2
  · exact heq
  · have := h j i h2 h1 hgt
    rcases hc with hc | hc
    · exact absurd hc this.2
    · exact absurd hc this.1

omit [Uni] in
theorem placesIn_one {as bs : List LNode} (ha : as.Pairwise (fun a b => Beside a.path b.path)) {p q p' q' : List Nat}
    (h : placesIn as bs p q) (h' : placesIn as bs p' q') (e : p = p') : q = q' := by
  obtain ⟨i, a, b, r, h1, h2, rfl, rfl⟩ := h
  obtain ⟨j, a', b', r', g1, g2, rfl, rfl⟩ := h'
  have hc := List.prefix_or_prefix_of_prefix (List.prefix_append a.path r) (e ▸ List.prefix_append a'.path r')
  have hij := beside_index ha h1 g1 hc
  subst hij
  rw [h1] at g1
  rw [h2] at g2
  cases g1
  cases g2
  rw [List.append_cancel_left e]

omit [Uni] in
theorem placesIn_swap {as bs : List LNode} {p q : List Nat} (h : placesIn as bs p q) : placesIn bs as q p := by
  obtain ⟨i, a, b, r, h1, h2, h3, h4⟩ := h
  exact ⟨i, b, a, r, h2, h1, h4, h3⟩

omit [Uni] in
theorem placesIn_moved {as bs : List LNode} (ha : as.Pairwise (fun a b => Beside a.path b.path))
    (hb : bs.Pairwise (fun a b => Beside a.path b.path)) : Moved (placesIn as bs) where
  down p q i h := by
    obtain ⟨k, a, b, r, h1, h2, rfl, rfl⟩ := h
    exact ⟨k, a, b, r ++ [i], h1, h2, by simp, by simp⟩
  one p q p' q' h h' := ⟨placesIn_one ha h h', placesIn_one hb (placesIn_swap h) (placesIn_swap h')⟩

omit [Uni] in
theorem placesIn_same {as bs : List LNode} (h : as.map (·.node) = bs.map (·.node)) : List.Forall₂ (SameAt (placesIn as bs)) as bs := by
  have hl : as.length = bs.length := by simpa using congrArg List.length h
  refine List.forall₂_iff_get.2 ⟨hl, fun i h1 h2 => ⟨⟨i, as[i], bs[i], [], by simp, by simp, by simp, by simp⟩, ?_⟩⟩
  have := congrArg (fun l => l[i]?) h
  simpa [h1, h2] using this

theorem docTables_small {root : Node} : ∀ t ∈ docTables root, 2 * t.node.size ≤ docFuel root := fun t ht => by
  have := descendants_size root ht
  unfold docFuel; omega

/-- the tables of two documents of which one continues the other -/
theorem outer_tables {doc : WordDoc} {root : Node} {more : List Node} (h : outerTables root = outerTables doc.root ++ more) :
    ∃ ts, (docTables doc.root).length + ts.length = (docTables root).length ∧ (more = [] → ts = []) ∧
      ((∃ us us' e, yieldedTables doc = (us, .error e) ∧ yieldedTables (withRoot doc root) = (us', .error e) ∧
        plainUnits us' = plainUnits us) ∨
      (∃ us us' s1, yieldedTables doc = (us, .ok ()) ∧ plainUnits us' = plainUnits us ∧
        yieldedTables (withRoot doc root) =
          (us' ++ (wordTables (withRoot doc root) ts s1).1, (wordTables (withRoot doc root) ts s1).2))) := by
  have e : ((tablesAts [] 0 root.kids).take (outerTables doc.root).length).map (·.node) = outerTables doc.root := by
    rw [List.map_take, tablesAts_nodes]
    change (outerTables root).take _ = _
    rw [h, List.take_left']
    rfl
  have e' : ((tablesAts [] 0 root.kids).drop (outerTables doc.root).length).map (·.node) = more := by
    rw [List.map_drop, tablesAts_nodes]
    change (outerTables root).drop _ = _
    rw [h, List.drop_left']
    rfl
  have hsplit := List.take_append_drop (outerTables doc.root).length (tablesAts [] 0 root.kids)
  generalize hbs : (tablesAts [] 0 root.kids).take (outerTables doc.root).length = bs at e hsplit
  generalize (tablesAts [] 0 root.kids).drop (outerTables doc.root).length = ms at e' hsplit
  have hb := tablesAts_beside [] 0 root.kids
  have ha := tablesAts_beside [] 0 doc.root.kids
  have hdoc : docTables root = bs.flatMap withInner ++ ms.flatMap withInner := by
    rw [docTables_outer, ← hsplit, List.flatMap_append]
  rw [← hsplit, List.pairwise_append] at hb
  have hP := placesIn_moved ha hb.1
  have hs := placesIn_same (as := tablesAts [] 0 doc.root.kids) (bs := bs) (by rw [e, tablesAts_nodes]; rfl)
  have hall : List.Forall₂ (SameAt (placesIn (tablesAts [] 0 doc.root.kids) bs)) (docTables doc.root) (bs.flatMap withInner) := by
    rw [docTables_outer]
    refine List.rel_flatMap hs fun a b hab => ?_
    unfold withInner
    rw [← hab.2]
    exact .cons hab (descendants_same hP wTbl hab.1 _)
  refine ⟨ms.flatMap withInner, ?_, ?_, ?_⟩
  · rw [hdoc, List.length_append, hall.length_eq]
  · intro hm
    rw [hm, List.map_eq_nil_iff] at e'
    rw [e']; rfl
  · unfold yieldedTables
    change (∃ us us' e, _ ∧ wordTables (withRoot doc root) (docTables root) [] = (us', .error e) ∧ _) ∨
      ∃ us us' s1, _ ∧ _ ∧ wordTables (withRoot doc root) (docTables root) [] = _
    rw [hdoc]
    refine wordTables_same hP hall docTables_small (fun y hy => docTables_small y (by rw [hdoc]; exact List.mem_append_left _ hy)) _ ?_
    intro p q _
    simp

omit [Uni] in
theorem plainUnits_length {a b : List HUnit} (h : plainUnits a = plainUnits b) : a.length = b.length := by
  rw [plainUnits_map, plainUnits_map] at h
  simpa using congrArg List.length h

omit [Uni] in
theorem htmlReports_length (total i : Nat) {a b : List HUnit} (h : a.length = b.length) : htmlReports total i a = htmlReports total i b := by
  induction a generalizing i b with
  | nil => cases b with
    | nil => rfl
    | cons => simp at h
  | cons x a ih => cases b with
    | nil => simp at h
    | cons y b => rw [htmlReports, htmlReports, ih (i + 1) (by simpa using h)]

/-- the files opened, for two documents with the same styles, numbering and header -/
theorem openWord_root {f f' : WordFile} {root root' : Node} (h : f.document = .ok root) (h' : f'.document = .ok root')
    (hn : f'.numbering = f.numbering) (hh : f'.header = f.header) (hs : f'.styles = f.styles) :
    (∃ e, openWord f = .error e ∧ openWord f' = .error e) ∨
    ∃ doc header, doc.root = root ∧ openWord f = .ok (doc, header) ∧ openWord f' = .ok (withRoot doc root', header) := by
  unfold openWord
  rw [h, h', hn, hh, hs]
  cases openNumbering f.numbering with
  | error e => exact .inl ⟨e, rfl, rfl⟩
  | ok num => cases f.header with
    | error e => exact .inl ⟨e, rfl, rfl⟩
    | ok hd => cases openStyles f.styles with
      | error e => exact .inl ⟨e, rfl, rfl⟩
      | ok st => exact .inr ⟨⟨root, num, st⟩, headerText hd, rfl, rfl, rfl⟩

/-! ### C100 -/

/-- **C100** Only the tables of a Word document matter: two documents with the same styles, numbering and header and with the same
outermost tables, in the same order, wherever these are and whatever stands between them, are converted in the same way: with the same
reports to the same page and the same style sheet, or with the same exception. -/
theorem C100_only_tables (f f' : WordFile) (root root' : Node) (h : f.document = .ok root) (h' : f'.document = .ok root')
    (hn : f'.numbering = f.numbering) (hh : f'.header = f.header) (hs : f'.styles = f.styles)
    (ht : outerTables root' = outerTables root) (fname : Str) (progress : Bool) :
    firstStage f' fname progress = firstStage f fname progress ∧ stageFiles f' fname = stageFiles f fname := by
  unfold firstStage stageFiles
  rcases openWord_root h h' hn hh hs with ⟨e, h1, h2⟩ | ⟨doc, header, rfl, h1, h2⟩
  · rw [h1, h2]; exact ⟨rfl, rfl⟩
  · rw [h1, h2]
    obtain ⟨ts, hl, hm, hy⟩ := outer_tables (doc := doc) (root := root') (more := []) (by rw [ht, List.append_nil])
    rw [hm rfl] at hl hy
    have hy' : ∃ us us' r, yieldedTables doc = (us, r) ∧ yieldedTables (withRoot doc root') = (us', r) ∧ plainUnits us' = plainUnits us := by
      rcases hy with ⟨us, us', e, g1, g2, g3⟩ | ⟨us, us', s1, g1, g2, g3⟩
      · exact ⟨us, us', _, g1, g2, g3⟩
      · exact ⟨us, us', _, g1, by rw [g3, wordTables, List.append_nil], g2⟩
    obtain ⟨us, us', r, g1, g2, g3⟩ := hy'
    have hr : renderUnits RSt.init us' = renderUnits RSt.init us := by rw [← renderUnits_plain, g3, renderUnits_plain]
    simp only [renderPage]
    rw [g1, g2]
    simp only
    rw [hr, htmlReports_length _ _ (plainUnits_length g3), ← show (docTables doc.root).length = (docTables root').length by simpa using hl]
    exact ⟨rfl, rfl⟩

/-- **C100** So is the JSON file made of them. -/
theorem C100_model (f f' : WordFile) (root root' : Node) (h : f.document = .ok root) (h' : f'.document = .ok root')
    (hn : f'.numbering = f.numbering) (hh : f'.header = f.header) (hs : f'.styles = f.styles)
    (ht : outerTables root' = outerTables root) (fname : Str) (layout : List Piece → Str) (ignore : List LintErr) (skip progress : Bool) :
    parseDocx f' fname layout ignore skip progress = parseDocx f fname layout ignore skip progress := by
  unfold parseDocx
  rw [(C100_only_tables f f' root root' h h' hn hh hs ht fname progress).1]
  rfl

omit [Uni] in
theorem renderUnits_append (st : RSt) (a b : List HUnit) :
    renderUnits st (a ++ b) = ((renderUnits st a).1 ++ (renderUnits (renderUnits st a).2 b).1, (renderUnits (renderUnits st a).2 b).2) := by
  induction a generalizing st with
  | nil => rfl
  | cons u a ih => rw [List.cons_append, renderUnits, renderUnits, ih, List.append_assoc]

omit [Uni] in
theorem lines_grow {a b : CssCache} (h : a.Grows b) : ∃ more, b.lines = a.lines ++ more := by
  obtain ⟨m, hm⟩ := h
  exact ⟨_, by rw [CssCache.lines, CssCache.rules, hm, List.map_append, List.flatMap_append]; rfl⟩

/-- **C100** A document which is continued by further tables: if its conversion failed, it still does. If the longer document is
converted, then so was the shorter one; the page begins with all that was on the page before the end tags, and the style sheet has the
rules it had, with the same names, and further ones for texts and cells after them. -/
theorem C100_continued (f f' : WordFile) (root root' : Node) (h : f.document = .ok root) (h' : f'.document = .ok root')
    (hn : f'.numbering = f.numbering) (hh : f'.header = f.header) (hs : f'.styles = f.styles) (more : List Node)
    (ht : outerTables root' = outerTables root ++ more) (fname : Str) (progress : Bool) :
    (∀ e, (firstStage f fname progress).2 = .error e → (firstStage f' fname progress).2 = .error e) ∧
    ∀ page' sheet', (firstStage f' fname progress).2 = .ok (page', sheet') →
      ∃ page new start texts newTexts cells newCells,
        (firstStage f fname progress).2 = .ok (page ++ emitln c!"</body>" ++ emitln c!"</html>",
          start ++ [c!"/* text-formatting styles */"] ++ texts ++ [c!"/* table cell formatting styles */"] ++ cells) ∧
        page' = page ++ new ++ emitln c!"</body>" ++ emitln c!"</html>" ∧
        sheet' = start ++ [c!"/* text-formatting styles */"] ++ texts ++ newTexts ++ [c!"/* table cell formatting styles */"] ++ cells ++ newCells := by
  unfold firstStage
  rcases openWord_root h h' hn hh hs with ⟨e, h1, h2⟩ | ⟨doc, header, rfl, h1, h2⟩
  · rw [h1, h2]
    exact ⟨fun _ h => h, (fun _ _ h => by cases h)⟩
  · rw [h1, h2]
    obtain ⟨ts, -, -, hy⟩ := outer_tables ht
    rcases hy with ⟨us, us', e, g1, g2, g3⟩ | ⟨us, us', s1, g1, g2, g3⟩
    · simp only
      rw [g1, g2]
      exact ⟨fun _ h => h, (fun _ _ h => by cases h)⟩
    · simp only
      rw [g1, g3]
      refine ⟨(fun _ h => by cases h), fun page' sheet' h3 => ?_⟩
      have hr : renderUnits RSt.init us' = renderUnits RSt.init us := by rw [← renderUnits_plain, g2, renderUnits_plain]
      generalize wordTables (withRoot doc root') ts s1 = w at h3
      obtain ⟨vs, r⟩ := w
      cases r with
      | error e => cases h3
      | ok _ =>
        simp only [Except.map, renderPage, Except.ok.injEq, Prod.mk.injEq] at h3
        rw [renderUnits_append, hr] at h3
        have hok : (renderUnits RSt.init us).2.Ok := (renderUnits_spec us RSt.init RSt.init_ok).ok
        have hg := (renderUnits_spec vs (renderUnits RSt.init us).2 hok).grows
        obtain ⟨m1, e1⟩ := lines_grow hg.txt
        obtain ⟨m2, e2⟩ := lines_grow hg.tcell
        refine ⟨pageHead spexVersion (headerTitle header) (headerRevision header) fname ++ (renderUnits RSt.init us).1,
          (renderUnits (renderUnits RSt.init us).2 vs).1, cssStart doc.numbering, (renderUnits RSt.init us).2.txt.lines, m1,
          (renderUnits RSt.init us).2.tcell.lines, m2, ?_, ?_, ?_⟩
        · simp only [Except.map, renderPage, cssEnd]
          rw [Except.ok.injEq, Prod.mk.injEq]
          exact ⟨rfl, by simp only [List.append_assoc, List.cons_append, List.nil_append]⟩
        · rw [← h3.1]
          simp only [List.append_assoc]
        · rw [← h3.2]
          simp only [cssEnd]
          rw [e1, e2]
          simp only [List.append_assoc, List.cons_append, List.nil_append]
end

/-! ### Examples -/

/-- a document as it was: a chapter with a table, and a table at its end -/
def outBefore : Node := .elem c!"w:document" [] [.elem c!"w:body" [] [exPara "Introduction", exFigure, exPara "Texts", exInner "y"]]

/-- the same tables: one of them in a content control, and with other texts around them -/
def outAfter : Node := .elem c!"w:document" [] [.elem c!"w:body" [] [exPara "A new chapter", exPara "Introduction",
  .elem c!"w:sdt" [] [.elem c!"w:sdtContent" [] [exFigure, exPara "moved"]], exInner "y", exPara "The end"]]

/-- the document continued by another table, in a colour which has not been used -/
def outMore : Node := .elem c!"w:document" [] [.elem c!"w:body" [] [exFigure, exInner "y",
  .elem wTbl [] [exTr [exCell [.elem c!"w:shd" [(c!"w:fill", c!"FF8080")] []] [exPara "z"]]], exPara "The end"]]

/-- a Word file with this document -/
def outFile (root : Node) : WordFile := { exFile exHeader with document := .ok root }

/-- the hypotheses of C100, and that these documents are converted: the tables of the first one are at other places -/
example : outerTables outAfter = outerTables outBefore ∧ (outerTables outBefore).length = 2 ∧
    (docTables outBefore).map (·.path) = [[0, 1], [0, 1, 2, 1, 2], [0, 3]] ∧
    (docTables outAfter).map (·.path) = [[0, 2, 0, 0], [0, 2, 0, 0, 2, 1, 2], [0, 3]] ∧
    (∃ t, outerTables outMore = outerTables outBefore ++ [t]) :=
  ⟨rfl, rfl, by decide +kernel, by decide +kernel, _, rfl⟩

/-- numbers of reports and of pieces of the page, and the last lines of the style sheet -/
def outSeen (root : Node) : Option (Nat × Nat × List Str) :=
  letI := Uni.ascii
  match firstStage (outFile root) c!"nvme" true with
  | (ps, .ok (page, sheet)) => some (ps.length, page.length, sheet.drop (sheet.length - 7))
  | (_, .error _) => none

example : outSeen outAfter = outSeen outBefore ∧
    (outSeen outBefore).map (·.2.2) = some [c!"margin-bottom: 1em;", c!"}", c!"/* text-formatting styles */", c!"/* table cell formatting styles */",
      c!".tcell0 {", c!"background-color: #D9D9D9;", c!"}"] ∧
    (outSeen outMore).map (·.2.2) = some [c!"/* table cell formatting styles */", c!".tcell0 {", c!"background-color: #D9D9D9;", c!"}",
      c!".tcell1 {", c!"background-color: #FF8080;", c!"}"] := by decide +kernel

end Spex
