import Verif.Model.RowIter
/-
Lemmas about row iteration: pending cells and the merged rows.
-/
set_option autoImplicit false
namespace Spex

theorem dropRowspan_attr (td : Node) (name : Str) (h : name ≠ aRowspan) : (dropRowspan td).attr? name = td.attr? name := by
  cases td with
  | text s => rfl
  | elem t as ks =>
    simp only [dropRowspan, Node.attr?]
    induction as with
    | nil => rfl
    | cons kv as ih =>
      obtain ⟨k, v⟩ := kv
      by_cases hk : k = aRowspan
      · have h2 : (name == k) = false := by
          rw [beq_eq_false_iff_ne]; rw [hk]; exact h
        rw [List.filter_cons_of_neg (by simp [hk]), List.lookup_cons, h2]
        exact ih
      · rw [List.filter_cons_of_pos (by simpa using hk), List.lookup_cons, List.lookup_cons, ih]

theorem dropRowspan_rowspan (td : Node) : (dropRowspan td).attr? aRowspan = none := by
  cases td with
  | text s => rfl
  | elem t as ks =>
    simp only [dropRowspan, Node.attr?]
    induction as with
    | nil => rfl
    | cons kv as ih =>
      obtain ⟨k, v⟩ := kv
      by_cases hk : k = aRowspan
      · rw [List.filter_cons_of_neg (by simp [hk])]; exact ih
      · rw [List.filter_cons_of_pos (by simpa using hk), List.lookup_cons]
        have h2 : (aRowspan == k) = false := by
          rw [beq_eq_false_iff_ne]; exact fun e => hk e.symm
        rw [h2]; exact ih

theorem dropRowspan_idem (td : Node) : dropRowspan (dropRowspan td) = dropRowspan td := by
  cases td with
  | text s => rfl
  | elem t as ks => simp [dropRowspan, List.filter_filter]

theorem dropRowspan_hasTag (td : Node) (t : Str) : (dropRowspan td).hasTag t = td.hasTag t := by
  cases td <;> rfl

theorem dropRowspan_kids (td : Node) : (dropRowspan td).kids = td.kids := by
  cases td <;> rfl

section
variable [Uni]

theorem colspan_dropRowspan (td : Node) : colspan (dropRowspan td) = colspan td := by
  unfold colspan spanAttr
  rw [dropRowspan_attr td aColspan (by decide)]

theorem rowspan_dropRowspan (td : Node) : rowspan (dropRowspan td) = .ok 1 := by
  unfold rowspan spanAttr
  rw [dropRowspan_rowspan td]

/-- A cell of the visual row: first column, the element, width, number of rows it still covers (this one included), and
whether it belongs to this row of the source. -/
structure Slot where
  col : Int
  td : Node
  w : Int
  rem : Int
  own : Bool

/-- the cells lie side by side from column `c` on -/
def Side : Int → List Slot → Prop
  | _, [] => True
  | c, s :: ss => s.col = c ∧ 1 ≤ s.w ∧ Side (c + s.w) ss

/-- the cells handed down to the next row -/
def handDown (L : List Slot) : List Slot :=
  (L.filter (fun s => s.rem > 1)).map (fun s => ⟨s.col, dropRowspan s.td, s.w, s.rem - 1, false⟩)

/-- a cell is described correctly -/
def SlotOk (s : Slot) : Prop :=
  s.td.hasTag tTd = true ∧ colspan s.td = .ok s.w ∧ 1 ≤ s.w ∧ 1 ≤ s.rem ∧
  (if s.own then rowspan s.td = .ok s.rem else dropRowspan s.td = s.td)

/-- a list of visual rows, below the row `prev` -/
def Rows : List Slot → List (List Slot) → Prop
  | _, [] => True
  | prev, L :: Ls => Side 0 L ∧ (∀ s ∈ L, SlotOk s) ∧ L.filter (fun s => !s.own) = handDown prev ∧ Rows L Ls

/-- the list `ALST` which belongs to cells handed down -/
def pendOf (L : List Slot) : List Pend := (L.filter (fun s => !s.own)).map (fun s => (s.col, s.td, s.rem))

omit [Uni] in
theorem side_le {c : Int} {L : List Slot} (h : Side c L) : ∀ s ∈ L, c ≤ s.col := by
  induction L generalizing c with
  | nil => simp
  | cons s L ih =>
    obtain ⟨h1, h2, h3⟩ := h
    intro t ht
    rcases List.mem_cons.mp ht with rfl | ht
    · omega
    · have := ih h3 t ht; omega

theorem sorted_head (off : Int) (tds : List Node) (n : Node) (k w : Int) (alst : List Pend) (hw : colspan n = .ok w)
    (ha : tds = [] → ∀ p ∈ alst.head?, p.1 = off + w) :
    sortedRowChildren off tds ((off, n, k) :: alst) =
      match sortedRowChildren (off + w) tds alst with
      | .error e => .error e
      | .ok l => .ok (n :: l) := by
  cases tds with
  | nil =>
    simp only [sortedRowChildren, if_true]
    cases alst with
    | nil => simp
    | cons p r => simp [ha rfl p (by simp)]
  | cons td tds =>
    simp only [sortedRowChildren, emitPending, if_true, hw]
    cases emitPending (off + w) alst with
    | error e => rfl
    | ok x =>
      obtain ⟨out, off', rest'⟩ := x
      simp only
      cases colspan td with
      | error e => rfl
      | ok w' =>
        simp only
        cases sortedRowChildren (off' + w') tds rest' with
        | error e => rfl
        | ok l => rfl

theorem sorted_side (L : List Slot) (c : Int) (hs : Side c L) (hok : ∀ s ∈ L, SlotOk s) :
    sortedRowChildren c ((L.filter (·.own)).map (·.td)) (pendOf L) = .ok (L.map (·.td)) := by
  induction L generalizing c with
  | nil => rfl
  | cons s L ih =>
    obtain ⟨h1, h2, h3⟩ := hs
    have ih' := ih (c + s.w) h3 (fun t ht => hok t (List.mem_cons_of_mem _ ht))
    obtain ⟨-, hw, -, -, -⟩ := hok s (by simp)
    cases ho : s.own with
    | false =>
      rw [List.filter_cons_of_neg (by simp [ho])]
      have hp : pendOf (s :: L) = (c, s.td, s.rem) :: pendOf L := by
        unfold pendOf
        rw [List.filter_cons_of_pos (by simp [ho])]
        simp [h1]
      rw [hp, sorted_head c _ s.td s.rem s.w (pendOf L) hw, ih']
      · rfl
      · intro htd p hp
        cases L with
        | nil => simp [pendOf] at hp
        | cons t L =>
          have hto : t.own = false := by
            cases hh : t.own with
            | false => rfl
            | true => rw [List.filter_cons_of_pos (by simp [hh])] at htd; simp at htd
          unfold pendOf at hp
          rw [List.filter_cons_of_pos (by simp [hto])] at hp
          simp only [List.map_cons, List.head?_cons, Option.mem_def, Option.some.injEq] at hp
          rw [← hp]
          exact h3.1
    | true =>
      rw [List.filter_cons_of_pos (by simp [ho]), List.map_cons]
      have hp : pendOf (s :: L) = pendOf L := by
        unfold pendOf
        rw [List.filter_cons_of_neg (by simp [ho])]
      rw [hp]
      have he : emitPending c (pendOf L) = .ok ([], c, pendOf L) := by
        cases hq : pendOf L with
        | nil => rfl
        | cons p r =>
          have hm : p ∈ pendOf L := by rw [hq]; simp
          unfold pendOf at hm
          obtain ⟨t, ht, rfl⟩ := List.mem_map.mp hm
          have := side_le h3 t (List.mem_filter.mp ht).1
          simp only [emitPending]
          rw [if_neg (by omega)]
      simp only [sortedRowChildren, he, hw, ih', List.nil_append, List.map_cons]

/-- the pending list after storing the cells of the row (before counting down) -/
def stored (L : List Slot) : List Pend :=
  (L.filter (fun s => !s.own || s.rem > 1)).map (fun s => (s.col, dropRowspan s.td, s.rem))

omit [Uni] in
theorem alstInsert_mid (A B : List Pend) (c : Int) (n : Node) (k : Int) (hA : ∀ p ∈ A, p.1 ≤ c) (hB : ∀ p ∈ B, c < p.1) :
    alstInsert (A ++ B) c n k = A ++ (c, n, k) :: B := by
  induction A with
  | nil =>
    cases B with
    | nil => rfl
    | cons p B => simp [alstInsert, hB p (by simp)]
  | cons p A ih =>
    simp only [List.cons_append, alstInsert]
    rw [if_neg (by have := hA p (by simp); omega), ih (fun q hq => hA q (List.mem_cons_of_mem _ hq))]

theorem storeSpans_side (Q : List Slot) (c : Int) (A : List Pend) (hs : Side c Q) (hok : ∀ s ∈ Q, SlotOk s)
    (hA : ∀ p ∈ A, p.1 ≤ c) :
    storeSpans c (Q.map (·.td)) (A ++ pendOf Q) = .ok (A ++ stored Q) := by
  induction Q generalizing c A with
  | nil => simp [storeSpans, pendOf, stored]
  | cons s Q ih =>
    obtain ⟨h1, h2, h3⟩ := hs
    obtain ⟨-, hw, -, hr, hown⟩ := hok s (by simp)
    have hok' : ∀ t ∈ Q, SlotOk t := fun t ht => hok t (List.mem_cons_of_mem _ ht)
    have hA' : ∀ x : Pend, x.1 = c → ∀ p ∈ A ++ [x], p.1 ≤ c + s.w := by
      intro x hx p hp
      rcases List.mem_append.mp hp with hp | hp
      · have := hA p hp; omega
      · rw [List.mem_singleton] at hp; subst hp; omega
    rw [List.map_cons, storeSpans]
    cases ho : s.own with
    | false =>
      rw [ho] at hown
      simp only [Bool.false_eq_true, if_false] at hown
      rw [← hown, rowspan_dropRowspan, colspan_dropRowspan, hw]
      simp only
      rw [if_neg (by omega)]
      have hp : pendOf (s :: Q) = (c, s.td, s.rem) :: pendOf Q := by
        unfold pendOf
        rw [List.filter_cons_of_pos (by simp [ho])]
        simp [h1]
      have hst : stored (s :: Q) = (c, s.td, s.rem) :: stored Q := by
        unfold stored
        rw [List.filter_cons_of_pos (by simp [ho])]
        simp [h1, hown]
      rw [hp, hst]
      have := ih (c + s.w) (A ++ [(c, s.td, s.rem)]) h3 hok' (hA' _ rfl)
      simpa using this
    | true =>
      rw [ho] at hown
      simp only [if_true] at hown
      rw [hown, hw]
      simp only
      have hp : pendOf (s :: Q) = pendOf Q := by
        unfold pendOf
        rw [List.filter_cons_of_neg (by simp [ho])]
      rw [hp]
      by_cases hr1 : s.rem > 1
      · rw [if_pos hr1, alstInsert_mid A (pendOf Q) c _ _ hA]
        · have hst : stored (s :: Q) = (c, dropRowspan s.td, s.rem) :: stored Q := by
            unfold stored
            rw [List.filter_cons_of_pos (by simp [hr1])]
            simp [h1]
          rw [hst]
          have := ih (c + s.w) (A ++ [(c, dropRowspan s.td, s.rem)]) h3 hok' (hA' _ rfl)
          simpa using this
        · intro p hp
          unfold pendOf at hp
          obtain ⟨t, ht, rfl⟩ := List.mem_map.mp hp
          have := side_le h3 t (List.mem_filter.mp ht).1
          simp only
          omega
      · rw [if_neg hr1]
        have hst : stored (s :: Q) = stored Q := by
          unfold stored
          rw [List.filter_cons_of_neg (by simp [ho]; omega)]
        rw [hst]
        exact ih (c + s.w) A h3 hok' (fun p hp => by have := hA p hp; omega)

omit [Uni] in
theorem decr_stored (L : List Slot) : alstCountDecr (stored L) = (handDown L).map (fun s => (s.col, s.td, s.rem)) := by
  unfold alstCountDecr stored handDown
  induction L with
  | nil => rfl
  | cons s L ih =>
    by_cases h : s.rem > 1
    · rw [List.filter_cons_of_pos (by simp [h]), List.map_cons, List.filter_cons_of_pos (by simpa using h), List.map_cons,
        ih, List.filter_cons_of_pos (by simpa using h), List.map_cons, List.map_cons]
    · rw [List.filter_cons_of_neg (p := fun s : Slot => decide (s.rem > 1)) (by simpa using h)]
      by_cases ho : s.own
      · rw [List.filter_cons_of_neg (by simp [ho]; omega), ih]
      · rw [List.filter_cons_of_pos (by simp [ho]), List.map_cons, List.filter_cons_of_neg (by simpa using h), ih]

omit [Uni] in
theorem handDown_own (L : List Slot) : (handDown L).filter (fun s => !s.own) = handDown L := by
  rw [List.filter_eq_self]
  intro s hs
  unfold handDown at hs
  obtain ⟨t, -, rfl⟩ := List.mem_map.mp hs
  rfl

/-- the rows without header cells, as the lists of their data cells -/
def dataCells (rows : List Row) : List (List Node) :=
  (rows.filter (fun r => !containsTh r.node)).map (fun r => r.node.childs tTd)

/-- Row iteration over rows whose own cells are those of the visual rows hands out the cells of the visual rows. -/
theorem rowIterGo_rows (rows : List Row) (prev : List Slot) (Ls : List (List Slot)) (hrows : Rows prev Ls)
    (helem : ∀ r ∈ rows, r.node.isElem = true)
    (hown : dataCells rows = Ls.map (fun L => (L.filter (·.own)).map (·.td))) :
    (rowIterGo ((handDown prev).map (fun s => (s.col, s.td, s.rem))) rows).2 = none ∧
    dataCells (rowIterGo ((handDown prev).map (fun s => (s.col, s.td, s.rem))) rows).1 = Ls.map (·.map (·.td)) := by
  induction rows generalizing prev Ls with
  | nil =>
    simp only [dataCells, List.filter_nil, List.map_nil] at hown
    have : Ls = [] := by simpa using hown.symm
    subst this
    exact ⟨rfl, rfl⟩
  | cons r rows ih =>
    have helem' : ∀ r ∈ rows, r.node.isElem = true := fun x hx => helem x (List.mem_cons_of_mem _ hx)
    by_cases hth : containsTh r.node = true
    · have hd : dataCells (r :: rows) = dataCells rows := by
        unfold dataCells
        rw [List.filter_cons_of_neg (by simp [hth])]
      rw [hd] at hown
      obtain ⟨h1, h2⟩ := ih prev Ls hrows helem' hown
      simp only [rowIterGo, if_pos hth]
      refine ⟨h1, ?_⟩
      rw [← h2]
      unfold dataCells
      rw [List.filter_cons_of_neg (by simp [hth])]
    · have hd : dataCells (r :: rows) = r.node.childs tTd :: dataCells rows := by
        unfold dataCells
        rw [List.filter_cons_of_pos (by simpa using hth)]
        rfl
      rw [hd] at hown
      cases Ls with
      | nil => simp at hown
      | cons L Ls =>
        obtain ⟨hside, hok, hhd, hrest⟩ := hrows
        rw [List.map_cons, List.cons.injEq] at hown
        obtain ⟨hown1, hown2⟩ := hown
        have hp : (handDown prev).map (fun s => (s.col, s.td, s.rem)) = pendOf L := by
          unfold pendOf; rw [hhd]
        have hmem : ∀ s ∈ L, s.td.hasTag tTd = true := fun s hs => (hok s hs).1
        have hrb : ∃ row', rebuildRow r (pendOf L) = .ok row' ∧ row'.node.childs tTd = L.map (·.td) ∧
            containsTh row'.node = false := by
          unfold rebuildRow
          cases hpe : (pendOf L).isEmpty with
          | true =>
            refine ⟨r, by simp, ?_, by simpa using hth⟩
            rw [hown1]
            have hall : L.filter (fun s => s.own) = L := by
              rw [List.filter_eq_self]
              intro s hs
              cases ho : s.own with
              | true => rfl
              | false =>
                exfalso
                unfold pendOf at hpe
                rw [List.isEmpty_iff, List.map_eq_nil_iff, List.filter_eq_nil_iff] at hpe
                exact hpe s hs (by simp [ho])
            rw [hall]
          | false =>
            rw [if_neg (by simp), hown1, sorted_side L 0 hside hok]
            have he := helem r (by simp)
            cases hn : r.node with
            | text t => rw [hn] at he; simp [Node.isElem] at he
            | elem t as ks =>
              refine ⟨_, rfl, ?_, ?_⟩
              · simp only [Node.childs, Node.kids]
                rw [List.filter_eq_self]
                intro n hnm
                obtain ⟨s, hs, rfl⟩ := List.mem_map.mp hnm
                exact hmem s hs
              · unfold containsTh
                simp only [Node.childs, Node.kids]
                rw [List.filter_eq_nil_iff.mpr]
                · rfl
                · intro n hnm
                  obtain ⟨s, hs, rfl⟩ := List.mem_map.mp hnm
                  have := hmem s hs
                  cases htd : s.td with
                  | text _ => simp [Node.hasTag]
                  | elem t _ _ =>
                    rw [htd] at this
                    simp only [Node.hasTag, beq_iff_eq] at this ⊢
                    rw [this]
                    decide
        obtain ⟨row', hr1, hr2, hr3⟩ := hrb
        have hst := storeSpans_side L 0 [] hside hok (by simp)
        rw [List.nil_append, List.nil_append] at hst
        obtain ⟨h1, h2⟩ := ih L Ls hrest helem' hown2
        simp only [rowIterGo, if_neg hth, hp, hr1, hr2, hst, decr_stored]
        refine ⟨h1, ?_⟩
        rw [List.map_cons, ← h2]
        unfold dataCells
        rw [List.filter_cons_of_pos (by simpa using hr3), List.map_cons, hr2]

end
end Spex
