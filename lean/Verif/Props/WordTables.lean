import Verif.Lemmas.Word
import Verif.Props.Lists
import Mathlib.Data.List.Perm.Basic
import Mathlib.Data.List.Perm.Lattice
/-
C49: the tables of a Word document.
-/
set_option autoImplicit false
namespace Spex
variable [Uni]

/-! ### Specification -/

/-- the place of a table in the Word document -/
def HUnit.src : HUnit → List Nat
  | .table src _ _ => src
  | _ => []

mutual
/-- The tables shown when a unit is rendered, in order: the table itself and those in its cells. A cell is shown at the
slot of its upper left corner only (C40). -/
def HUnit.shown : HUnit → List HUnit
  | .para _ => []
  | .list _ _ => []
  | .table src id rows => .table src id rows :: shownRows 0 rows
def shownUnits : List HUnit → List HUnit
  | [] => []
  | u :: us => u.shown ++ shownUnits us
def shownRows (r : Nat) : List (List HCell) → List HUnit
  | [] => []
  | row :: rows => shownRow r 0 row ++ shownRows (r + 1) rows
def shownRow (r c : Nat) : List HCell → List HUnit
  | [] => []
  | .mk _ elems _ _ left top _ :: cells =>
    (if left = c ∧ top = r then shownUnits elems else []) ++ shownRow r (c + 1) cells
end

/-- no cell has a negative `gridSpan` -/
def NoNegativeSpan (root : Node) : Prop :=
  ∀ tc ∈ descendants wTc [] root, ∀ s v, tc.node.attrFirst [wTcPr, c!"w:gridSpan"] aVal = some s → WholeNumber s v → 0 ≤ v

/-! ### Proof -/

omit [Uni] in
theorem shownUnits_append (a b : List HUnit) : shownUnits (a ++ b) = shownUnits a ++ shownUnits b := by
  induction a with
  | nil => rfl
  | cons u a ih => rw [List.cons_append, shownUnits, shownUnits, ih, List.append_assoc]

omit [Uni] in
theorem shownUnits_table (src : List Nat) (id : Option Str) (rows : List (List HCell)) :
    shownUnits [.table src id rows] = .table src id rows :: shownRows 0 rows := by
  rw [shownUnits, HUnit.shown, shownUnits, List.append_nil]

omit [Uni] in
theorem mapSt_cons {α β σ : Type} {f : α → σ → Except Exn (β × σ)} {a : α} {as : List α} {s : σ} {r : List β × σ}
    (h : mapSt f (a :: as) s = .ok r) :
    ∃ b s1 bs s2, f a s = .ok (b, s1) ∧ mapSt f as s1 = .ok (bs, s2) ∧ r = (b :: bs, s2) := by
  rw [mapSt] at h
  obtain ⟨⟨b, s1⟩, h1, h⟩ := except_bind_ok h
  obtain ⟨⟨bs, s2⟩, h2, h⟩ := except_bind_ok h
  cases h
  exact ⟨b, s1, bs, s2, h1, h2, rfl⟩

/-- between the states `seen` and `seen'` exactly the tables `shown` were met, all of the document -/
structure Acc (root : Node) (seen seen' : Seen) (shown : List HUnit) : Prop where
  perm : seen'.Perm (shown.map HUnit.src ++ seen)
  nodup : seen.Nodup → seen'.Nodup
  indoc : ∀ u ∈ shown, u.src ∈ (docTables root).map (·.path)

omit [Uni] in
theorem Acc.refl (root : Node) (seen : Seen) : Acc root seen seen [] := ⟨.refl _, id, fun u hu => by cases hu⟩

omit [Uni] in
theorem Acc.trans {root : Node} {s1 s2 s3 : Seen} {a b : List HUnit} (h1 : Acc root s1 s2 a) (h2 : Acc root s2 s3 b) :
    Acc root s1 s3 (a ++ b) := by
  refine ⟨?_, fun h => h2.nodup (h1.nodup h), ?_⟩
  · rw [List.map_append]
    refine h2.perm.trans ((h1.perm.append_left _).trans ?_)
    rw [← List.append_assoc]
    exact List.perm_append_comm.append_right _
  · intro u hu
    rcases List.mem_append.1 hu with hu | hu
    · exact h1.indoc u hu
    · exact h2.indoc u hu

omit [Uni] in
theorem Acc.mono {root : Node} {s1 s2 : Seen} {a : List HUnit} (h : Acc root s1 s2 a) {p : List Nat} (hp : p ∈ s1) : p ∈ s2 :=
  h.perm.mem_iff.2 (List.mem_append_right _ hp)

/-- nothing is met if all tables of the stream were seen before -/
theorem parseAny_seen {doc : WordDoc} (n : Nat) : ∀ (stream : List LNode) (seen : Seen) (us : List HUnit) (seen' : Seen),
    parseAny doc n stream seen = .ok (us, seen') → (∀ c ∈ stream, c.node.hasTag wTbl = true → c.path ∈ seen) →
    seen' = seen ∧ shownUnits us = [] := by
  induction n with
  | zero => intro stream seen us seen' h; rw [parseAny] at h; cases h
  | succ n ih =>
    intro stream seen us seen' h hseen
    cases stream with
    | nil => rw [parseAny] at h; cases h; exact ⟨rfl, rfl⟩
    | cons c rest =>
      have hrest : ∀ d ∈ rest, d.node.hasTag wTbl = true → d.path ∈ seen := fun d hd => hseen d (List.mem_cons_of_mem _ hd)
      rw [parseAny] at h
      by_cases ht : c.node.hasTag wTbl = true
      · rw [if_pos ht] at h
        obtain ⟨⟨t, s1⟩, h1, h⟩ := except_bind_ok h
        obtain ⟨⟨us', s2⟩, h2, h⟩ := except_bind_ok h
        cases h
        have : t = [] ∧ s1 = seen := by
          cases n with
          | zero => rw [parseTable] at h1; cases h1
          | succ n =>
            rw [parseTable, if_pos ht, if_pos (hseen c List.mem_cons_self ht)] at h1
            cases h1; exact ⟨rfl, rfl⟩
        obtain ⟨rfl, rfl⟩ := this
        obtain ⟨h3, h4⟩ := ih _ _ _ _ h2 hrest
        exact ⟨h3, h4⟩
      · rw [if_neg ht] at h
        by_cases hp : c.node.hasTag wP = true
        · rw [if_pos hp] at h
          obtain ⟨isList, h1, h⟩ := except_bind_ok h
          cases isList with
          | true =>
            simp only [if_true] at h
            obtain ⟨⟨it, rest'⟩, h2, h⟩ := except_bind_ok h
            obtain ⟨⟨us', s2⟩, h3, h⟩ := except_bind_ok h
            obtain ⟨a, l, props, items, ps, g1, g2, -⟩ := (parseList_spec doc _).1 _ _ _ _ h2 h1
            simp only [g1] at h
            cases h
            obtain ⟨h5, h6⟩ := ih _ _ _ _ h3 (fun d hd => hrest d (by rw [g2]; exact List.mem_append_right _ hd))
            refine ⟨h5, ?_⟩
            rw [shownUnits, HUnit.shown, List.nil_append]; exact h6
          | false =>
            simp only [Bool.false_eq_true, if_false] at h
            obtain ⟨ps, h2, h⟩ := except_bind_ok h
            obtain ⟨⟨us', s2⟩, h3, h⟩ := except_bind_ok h
            cases h
            obtain ⟨h5, h6⟩ := ih _ _ _ _ h3 hrest
            refine ⟨h5, ?_⟩
            rw [shownUnits_append, h6, List.append_nil]
            unfold parseParagraph at h2
            obtain ⟨spans, -, h2⟩ := except_bind_ok h2
            split at h2 <;> cases h2
            · rfl
            · rfl
        · rw [if_neg hp] at h
          exact ih _ _ _ _ h hrest

/-- the tables in the cells of the slots before (r, c) were seen -/
def Visited (els : List GridEl) (M : List (List Nat)) (r c : Nat) (seen : Seen) : Prop :=
  ∀ r' c' k e, slot M r' c' = some k → els[k]? = some e → (r' < r ∨ (r' = r ∧ c' < c)) →
    ∀ ch ∈ e.cell.children, ch.node.hasTag wTbl = true → ch.path ∈ seen

section rows
variable {doc : WordDoc} {any : List LNode → Seen → Except Exn (List HUnit × Seen)} {els : List GridEl} {M : List (List Nat)}
  (hany : ∀ e ∈ els, ∀ seen us seen', any e.cell.children seen = .ok (us, seen') →
    Acc doc.root seen seen' (shownUnits us) ∧ ∀ c ∈ e.cell.children, c.node.hasTag wTbl = true → c.path ∈ seen')
  (hany' : ∀ e ∈ els, ∀ seen us seen', any e.cell.children seen = .ok (us, seen') →
    (∀ c ∈ e.cell.children, c.node.hasTag wTbl = true → c.path ∈ seen) → seen' = seen ∧ shownUnits us = [])
  (horig : Originates els M)
include hany hany' horig

theorem row_acc {r : Nat} {row : List Nat} (hrow : M[r]? = some row) : ∀ (suf pre : List Nat) (seen : Seen) (cells : List HCell) (seen' : Seen),
    row = pre ++ suf → Visited els M r pre.length seen → mapSt (parseSlot any els) suf seen = .ok (cells, seen') →
    Acc doc.root seen seen' (shownRow r pre.length cells) ∧ Visited els M r row.length seen' := by
  intro suf
  induction suf with
  | nil =>
    intro pre seen cells seen' hr hv h
    rw [mapSt] at h; cases h
    rw [hr, List.append_nil]
    exact ⟨Acc.refl _ _, hv⟩
  | cons k suf ih =>
    intro pre seen cells seen' hr hv h
    obtain ⟨cell, s1, cells', s2, h1, h2, h3⟩ := mapSt_cons h
    cases h3
    have hslot : slot M r pre.length = some k := by
      unfold slot; rw [hrow, Option.bind_some, hr]; simp
    obtain ⟨e, he, t, l, ht, hl, hlt, ho⟩ := horig _ _ _ hslot
    unfold parseSlot at h1
    rw [he] at h1
    obtain ⟨⟨us, s1'⟩, h4, h1⟩ := except_bind_ok h1
    cases h1
    have hmem : e ∈ els := List.mem_iff_getElem?.2 ⟨k, he⟩
    have hA := hany e hmem _ _ _ h4
    have hstep : Acc doc.root seen s1' (if e.left = (pre.length : Int) ∧ e.top = (r : Int) then shownUnits us else []) := by
      by_cases hc : e.left = (pre.length : Int) ∧ e.top = (r : Int)
      · rw [if_pos hc]; exact hA.1
      · rw [if_neg hc]
        have hv' := hv t l k e ho he (by
          rcases hlt with h | ⟨h, h'⟩
          · exact .inl h
          · refine .inr ⟨h, ?_⟩
            rcases Nat.lt_or_ge l pre.length with h'' | h''
            · exact h''
            · exfalso; exact hc ⟨by omega, by omega⟩)
        obtain ⟨h5, -⟩ := hany' e hmem _ _ _ h4 hv'
        rw [h5]; exact Acc.refl _ _
    have hv1 : Visited els M r (pre ++ [k]).length s1' := by
      intro r' c' k' e' hs he' hlt' ch hch htag
      by_cases hold : r' < r ∨ (r' = r ∧ c' < pre.length)
      · exact hstep.mono (hv r' c' k' e' hs he' hold ch hch htag)
      · have hr' : r' = r := by omega
        have hc' : c' = pre.length := by
          rw [List.length_append, List.length_singleton] at hlt'
          omega
        subst hr'; subst hc'
        rw [hslot] at hs; cases hs
        rw [he] at he'; cases he'
        exact hA.2 ch hch htag
    obtain ⟨h6, h7⟩ := ih (pre ++ [k]) _ _ _ (by rw [hr]; simp) hv1 h2
    refine ⟨?_, h7⟩
    rw [shownRow]
    rw [List.length_append, List.length_singleton] at h6
    exact hstep.trans h6

theorem rows_acc : ∀ (suf pre : List (List Nat)) (seen : Seen) (rows : List (List HCell)) (seen' : Seen),
    M = pre ++ suf → Visited els M pre.length 0 seen → mapSt (mapSt (parseSlot any els)) suf seen = .ok (rows, seen') →
    Acc doc.root seen seen' (shownRows pre.length rows) := by
  intro suf
  induction suf with
  | nil =>
    intro pre seen rows seen' hM hv h
    rw [mapSt] at h; cases h
    exact Acc.refl _ _
  | cons row suf ih =>
    intro pre seen rows seen' hM hv h
    obtain ⟨cells, s1, rows', s2, h1, h2, h3⟩ := mapSt_cons h
    cases h3
    have hrow : M[pre.length]? = some row := by rw [hM]; simp
    obtain ⟨h4, h5⟩ := row_acc hany hany' horig hrow row [] seen cells s1 rfl hv h1
    have hv1 : Visited els M (pre ++ [row]).length 0 s1 := by
      intro r' c' k' e' hs he' hlt' ch hch htag
      rw [List.length_append, List.length_singleton] at hlt'
      refine h5 r' c' k' e' hs he' ?_ ch hch htag
      by_cases hr : r' < pre.length
      · exact .inl hr
      · right
        have : r' = pre.length := by omega
        refine ⟨this, ?_⟩
        subst this
        unfold slot at hs
        rw [hrow, Option.bind_some] at hs
        by_contra hc
        rw [List.getElem?_eq_none (by omega)] at hs
        cases hs
    have h6 := ih (pre ++ [row]) _ _ _ (by rw [hM]; simp) hv1 h2
    rw [List.length_append, List.length_singleton] at h6
    rw [shownRows]
    exact h4.trans h6
end rows

theorem gridSpan_nonneg {root : Node} (hn : NoNegativeSpan root) {tbl : LNode} (hd : InDoc root tbl) :
    ∀ tr ∈ tbl.childs wTr, ∀ tc ∈ tr.childs wTc, ∀ v, tcGridSpan tc.node = .ok v → 0 ≤ v := by
  intro tr htr tc htc v hv
  obtain ⟨h1, -⟩ := mem_childs htr
  obtain ⟨h3, h4⟩ := mem_childs htc
  obtain ⟨j, hp, -⟩ := children_path h3
  have hin : InDoc root tc := (hd.child h1).child h3
  have hmem : tc ∈ descendants wTc [] root := by
    rw [mem_descendants]
    cases hpath : tc.path with
    | nil => rw [hpath] at hp; simp at hp
    | cons i p => exact ⟨i, p, by simp, by rw [← hpath]; exact hin, h4⟩
  unfold tcGridSpan at hv
  cases hs : tc.node.attrFirst [wTcPr, c!"w:gridSpan"] aVal with
  | none => rw [hs] at hv; cases hv; omega
  | some s => rw [hs] at hv; exact hn tc hmem s v hs ((C96_number s v).1 hv)

theorem parse_acc {doc : WordDoc} (hn : NoNegativeSpan doc.root) (n : Nat) :
    (∀ tbl seen us seen', InDoc doc.root tbl → tbl.path ≠ [] → parseTable doc n tbl seen = .ok (us, seen') →
      Acc doc.root seen seen' (shownUnits us) ∧ tbl.path ∈ seen') ∧
    (∀ stream seen us seen', (∀ c ∈ stream, InDoc doc.root c ∧ c.path ≠ []) → parseAny doc n stream seen = .ok (us, seen') →
      Acc doc.root seen seen' (shownUnits us) ∧ ∀ c ∈ stream, c.node.hasTag wTbl = true → c.path ∈ seen') := by
  induction n with
  | zero =>
    refine ⟨fun tbl seen us seen' _ _ h => ?_, fun s seen us seen' _ h => ?_⟩
    · rw [parseTable] at h; cases h
    · rw [parseAny] at h; cases h
  | succ n ih =>
    refine ⟨?_, ?_⟩
    · intro tbl seen us seen' hd hp h
      rw [parseTable] at h
      by_cases ht : tbl.node.hasTag wTbl = true
      · rw [if_pos ht] at h
        by_cases hs : tbl.path ∈ seen
        · rw [if_pos hs] at h; cases h
          exact ⟨Acc.refl _ _, hs⟩
        · rw [if_neg hs] at h
          obtain ⟨g, h1, h⟩ := except_bind_ok h
          obtain ⟨⟨rows, s2⟩, h2, h⟩ := except_bind_ok h
          cases h
          obtain ⟨hcells, horig⟩ := grid_cells_origin h1
          have hloc : ∀ e ∈ g.els, ∀ c ∈ e.cell.children, InDoc doc.root c ∧ c.path ≠ [] := by
            intro e he c hc
            obtain ⟨tr, htr, htc⟩ := hcells e he
            refine ⟨((hd.child (mem_childs htr).1).child (mem_childs htc).1).child hc, ?_⟩
            obtain ⟨j, hj, -⟩ := children_path hc
            rw [hj]; simp
          have hrows := rows_acc (doc := doc) (any := parseAny doc n) (els := g.els) (M := g.matrix)
            (fun e he seen us seen' h => ih.2 _ _ _ _ (hloc e he) h)
            (fun e _ seen us seen' h h' => parseAny_seen n _ _ _ _ h h')
            (horig (gridSpan_nonneg hn hd)) g.matrix [] _ _ _ rfl
            (fun r' c' k e _ _ hlt => by simp at hlt) h2
          have hfirst : Acc doc.root seen (tbl.path :: seen) [HUnit.table tbl.path (findId rows) rows] := by
            refine ⟨.refl _, fun h => List.nodup_cons.2 ⟨hs, h⟩, ?_⟩
            intro u hu
            rw [List.mem_singleton] at hu
            subst hu
            exact List.mem_map.2 ⟨tbl, mem_docTables.2 ⟨hd, hp, ht⟩, rfl⟩
          refine ⟨?_, hrows.mono List.mem_cons_self⟩
          show Acc doc.root seen s2 (shownUnits [HUnit.table tbl.path (findId rows) rows])
          rw [shownUnits_table]
          exact hfirst.trans hrows
      · rw [if_neg ht] at h; cases h
    · intro stream seen us seen' hd h
      cases stream with
      | nil =>
        rw [parseAny] at h; cases h
        exact ⟨Acc.refl _ _, fun c hc => by cases hc⟩
      | cons c rest =>
        have hrest : ∀ d ∈ rest, InDoc doc.root d ∧ d.path ≠ [] := fun d hd' => hd d (List.mem_cons_of_mem _ hd')
        rw [parseAny] at h
        by_cases ht : c.node.hasTag wTbl = true
        · rw [if_pos ht] at h
          obtain ⟨⟨t, s1⟩, h1, h⟩ := except_bind_ok h
          obtain ⟨⟨us', s2⟩, h2, h⟩ := except_bind_ok h
          cases h
          obtain ⟨hc1, hc2⟩ := hd c List.mem_cons_self
          obtain ⟨h3, h4⟩ := ih.1 _ _ _ _ hc1 hc2 h1
          obtain ⟨h5, h6⟩ := ih.2 _ _ _ _ hrest h2
          refine ⟨?_, fun d hd' htag => ?_⟩
          · rw [shownUnits_append]; exact h3.trans h5
          · rcases List.mem_cons.1 hd' with rfl | hd'
            · exact h5.mono h4
            · exact h6 d hd' htag
        · rw [if_neg ht] at h
          have hskip : ∀ {seen'' : Seen}, (∀ d ∈ rest, d.node.hasTag wTbl = true → d.path ∈ seen'') →
              ∀ d ∈ c :: rest, d.node.hasTag wTbl = true → d.path ∈ seen'' := by
            intro seen'' h d hd' htag
            rcases List.mem_cons.1 hd' with rfl | hd'
            · exact absurd htag ht
            · exact h d hd' htag
          by_cases hp : c.node.hasTag wP = true
          · rw [if_pos hp] at h
            obtain ⟨isList, h1, h⟩ := except_bind_ok h
            cases isList with
            | true =>
              simp only [if_true] at h
              obtain ⟨⟨it, rest'⟩, h2, h⟩ := except_bind_ok h
              obtain ⟨⟨us', s2⟩, h3, h⟩ := except_bind_ok h
              obtain ⟨a, l, props, items, ps, g1, g2, g3, g4, g5⟩ := C42_list h2 h1
              simp only [g1] at h
              cases h
              have hrr : rest = ps ++ rest' := by simpa using g2
              obtain ⟨h5, h6⟩ := ih.2 _ _ _ _ (fun d hd' => hrest d (by rw [hrr]; exact List.mem_append_right _ hd')) h3
              refine ⟨?_, hskip ?_⟩
              · rw [shownUnits, HUnit.shown, List.nil_append]; exact h5
              · intro d hd' htag
                rw [hrr] at hd'
                rcases List.mem_append.1 hd' with hd' | hd'
                · obtain ⟨m, -, hm⟩ := g5.2.1 d (List.mem_cons_of_mem _ hd')
                  have := hm.para
                  cases hdn : d.node with
                  | text s => rw [hdn] at this; cases this
                  | elem tg as ks =>
                    rw [hdn] at this htag
                    simp only [Node.hasTag, beq_iff_eq] at this htag
                    rw [this] at htag
                    exact absurd htag (by decide)
                · exact h6 d hd' htag
            | false =>
              simp only [Bool.false_eq_true, if_false] at h
              obtain ⟨ps, h2, h⟩ := except_bind_ok h
              obtain ⟨⟨us', s2⟩, h3, h⟩ := except_bind_ok h
              cases h
              obtain ⟨h5, h6⟩ := ih.2 _ _ _ _ hrest h3
              refine ⟨?_, hskip h6⟩
              have : shownUnits ps = [] := by
                unfold parseParagraph at h2
                obtain ⟨spans, -, h2⟩ := except_bind_ok h2
                split at h2 <;> cases h2
                · rfl
                · rfl
              rw [shownUnits_append, this, List.nil_append]
              exact h5
          · rw [if_neg hp] at h
            obtain ⟨h5, h6⟩ := ih.2 _ _ _ _ hrest h
            exact ⟨h5, hskip h6⟩

/-- C49: in a conversion which succeeds, every table of the Word document is shown exactly once, on its own or inside the
cell which contains it, and nothing else is shown as a table. -/
theorem C49_each_table_once {doc : WordDoc} {us : List HUnit} (hn : NoNegativeSpan doc.root) (h : parseWord doc = .ok us) :
    ((shownUnits us).map HUnit.src).Perm ((docTables doc.root).map (·.path)) := by
  unfold parseWord at h
  obtain ⟨⟨uss, seen⟩, h1, h⟩ := except_bind_ok h
  cases h
  have hloc : ∀ t ∈ docTables doc.root, InDoc doc.root t ∧ t.path ≠ [] := fun t ht =>
    ⟨(mem_docTables.1 ht).1, (mem_docTables.1 ht).2.1⟩
  have gen : ∀ (ts : List LNode), (∀ t ∈ ts, InDoc doc.root t ∧ t.path ≠ []) → ∀ (s : Seen) (uss : List (List HUnit)) (s' : Seen),
      mapSt (parseTable doc (docFuel doc.root)) ts s = .ok (uss, s') →
      Acc doc.root s s' (shownUnits uss.flatten) ∧ ∀ t ∈ ts, t.path ∈ s' := by
    intro ts
    induction ts with
    | nil =>
      intro _ s uss s' h
      rw [mapSt] at h; cases h
      exact ⟨Acc.refl _ _, fun t ht => by cases ht⟩
    | cons t ts ih =>
      intro hts s uss s' h
      obtain ⟨b, s1, bs, s2, h2, h3, h4⟩ := mapSt_cons h
      cases h4
      obtain ⟨g1, g2⟩ := hts t List.mem_cons_self
      obtain ⟨h5, h6⟩ := (parse_acc hn _).1 _ _ _ _ g1 g2 h2
      obtain ⟨h7, h8⟩ := ih (fun t ht => hts t (List.mem_cons_of_mem _ ht)) _ _ _ h3
      refine ⟨?_, fun t' ht' => ?_⟩
      · rw [List.flatten_cons, shownUnits_append]; exact h5.trans h7
      · rcases List.mem_cons.1 ht' with rfl | ht'
        · exact h7.mono h6
        · exact h8 t' ht'
  obtain ⟨h2, h3⟩ := gen _ hloc _ _ _ h1
  have hperm : seen.Perm ((shownUnits uss.flatten).map HUnit.src) := by simpa using h2.perm
  refine hperm.symm.trans ?_
  rw [List.perm_ext_iff_of_nodup (h2.nodup List.nodup_nil) (docTables_nodup _)]
  intro p
  constructor
  · intro hp
    obtain ⟨u, hu, rfl⟩ := List.mem_map.1 (hperm.mem_iff.1 hp)
    exact h2.indoc u hu
  · intro hp
    obtain ⟨t, ht, rfl⟩ := List.mem_map.1 hp
    exact h3 t ht

/-- C49: the tables which are not shown inside another one appear in the order of the document. -/
theorem C49_document_order_partial {doc : WordDoc} {us : List HUnit} (h : parseWord doc = .ok us) :
    (us.map HUnit.src).Sublist ((docTables doc.root).map (·.path)) := by
  unfold parseWord at h
  obtain ⟨⟨uss, seen⟩, h1, h'⟩ := except_bind_ok h
  cases h'
  clear h
  generalize docTables doc.root = ts at h1
  generalize ([] : Seen) = s at h1
  induction ts generalizing s uss seen with
  | nil => rw [mapSt] at h1; cases h1; exact .slnil
  | cons t ts ih =>
    obtain ⟨b, s1, bs, s2, h2, h3, h4⟩ := mapSt_cons h1
    cases h4
    have hb : b = [] ∨ ∃ id rows, b = [.table t.path id rows] := by
      unfold docFuel at h2
      rw [parseTable] at h2
      by_cases ht : t.node.hasTag wTbl = true
      · rw [if_pos ht] at h2
        by_cases hs : t.path ∈ s
        · rw [if_pos hs] at h2; cases h2; exact .inl rfl
        · rw [if_neg hs] at h2
          obtain ⟨g, g1, h2⟩ := except_bind_ok h2
          obtain ⟨⟨rows, s3⟩, g2, h2⟩ := except_bind_ok h2
          cases h2
          exact .inr ⟨_, _, rfl⟩
      · rw [if_neg ht] at h2; cases h2
    have := ih _ _ _ h3
    rcases hb with rfl | ⟨id, rows, rfl⟩
    · exact this.cons _
    · exact this.cons_cons _

/-! ### Examples and counterexamples -/

/-- a document with the given tables -/
def exDocOf (tables : List Node) : WordDoc :=
  ⟨.elem c!"w:document" [] [.elem c!"w:body" [] tables], none, .elem c!"w:styles" [] []⟩

def exTr (cells : List Node) : Node := .elem wTr [] cells

/-- a cell with the given properties and content -/
def exCell (props content : List Node) : Node := .elem wTc [] (.elem wTcPr [] props :: content)

def exPara (s : String) : Node := .elem wP [] [.elem wR [] [.elem wT [] [.text s.toList]]]

/-- a table with one cell -/
def exInner (s : String) : Node := .elem wTbl [] [exTr [exCell [] [exPara s]]]

def exVMerge : Node := .elem c!"w:vMerge" [] []
def exVRestart : Node := .elem c!"w:vMerge" [(aVal, c!"restart")] []
def exGridSpan (s : String) : Node := .elem c!"w:gridSpan" [(aVal, s.toList)] []

/-- two tables; the first has a cell over two columns and two rows with a table inside, and a table behind a content
control, which is not found inside the cell -/
def exTablesDoc : WordDoc := exDocOf
  [.elem wTbl [] [exTr [exCell [exGridSpan "2", exVRestart] [exInner "a", exPara "b"], exCell [] [exInner "c"]],
      exTr [exCell [exGridSpan "2", exVMerge] [], exCell [] [.elem c!"w:sdt" [] [exInner "d"]]]],
   exInner "e"]

def placesOf (r : Except Exn (List HUnit)) : Option (List (List Nat)) :=
  match r with
  | .ok us => some ((shownUnits us).map HUnit.src)
  | .error _ => none

example : letI := Uni.ascii
    placesOf (parseWord exTablesDoc) = some [[0, 0], [0, 0, 0, 0, 1], [0, 0, 0, 1, 1], [0, 0, 1, 1, 1, 0], [0, 1]] ∧
    (docTables exTablesDoc.root).map (·.path) =
      [[0, 0], [0, 0, 0, 0, 1], [0, 0, 0, 1, 1], [0, 0, 1, 1, 1, 0], [0, 1]] := by decide +kernel

omit [Uni] in
theorem placesOf_some {r : Except Exn (List HUnit)} {ps : List (List Nat)} (h : placesOf r = some ps) :
    ∃ us, r = .ok us ∧ (shownUnits us).map HUnit.src = ps := by
  cases r with
  | error e => cases h
  | ok us => exact ⟨us, rfl, by simpa [placesOf] using h⟩

/-- a table inside a cell which continues the cell above, before another table -/
def exOrderDoc : WordDoc := exDocOf
  [.elem wTbl [] [exTr [exCell [exVRestart] [exPara "a"]], exTr [exCell [exVMerge] [exInner "b"]], exTr [exCell [] [exInner "c"]]]]

end Spex

namespace Spex

/-- C49, false: the tables are not always shown in the order of the document. A table in a cell which continues the one
above is shown on its own, after the table which contains it. -/
theorem C49_document_order_false : letI := Uni.ascii
    ∃ doc us, NoNegativeSpan doc.root ∧ parseWord doc = .ok us ∧ (shownUnits us).map HUnit.src ≠ (docTables doc.root).map (·.path) := by
  let _ := Uni.ascii
  obtain ⟨us, h1, h2⟩ := placesOf_some (show placesOf (parseWord exOrderDoc) = some [[0, 0], [0, 0, 2, 0, 1], [0, 0, 1, 0, 1]] by decide +kernel)
  refine ⟨exOrderDoc, us, ?_, h1, ?_⟩
  · have : (descendants wTc [] exOrderDoc.root).all (fun tc => (tc.node.attrFirst [wTcPr, c!"w:gridSpan"] aVal).isNone) = true := by
      decide +kernel
    intro tc htc s v hs
    have := List.all_eq_true.1 this tc htc
    rw [hs] at this; cases this
  · rw [h2]; decide +kernel

/-- a cell with a negative span, and a table in the next cell -/
def exNegativeDoc : WordDoc := exDocOf
  [.elem wTbl [] [exTr [exCell [exGridSpan "-1"] [], exCell [] [exInner "a"]]]]

/-- C49, false without the condition on the spans: after a cell with a negative span the next cell is not shown, and a
table in it is lost. -/
theorem C49_negative_span_false : letI := Uni.ascii
    ∃ doc us, parseWord doc = .ok us ∧ ¬ ((shownUnits us).map HUnit.src).Perm ((docTables doc.root).map (·.path)) := by
  let _ := Uni.ascii
  obtain ⟨us, h1, h2⟩ := placesOf_some (show placesOf (parseWord exNegativeDoc) = some [[0, 0]] by decide +kernel)
  refine ⟨exNegativeDoc, us, h1, ?_⟩
  rw [h2]
  intro h
  have := h.length_eq
  exact absurd this (by decide +kernel)

end Spex
