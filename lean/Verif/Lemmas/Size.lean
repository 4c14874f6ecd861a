import Verif.Lemmas.RowIter
import Verif.Model.Document
/-
Nested tables are smaller than the tables which contain them.
-/
set_option autoImplicit false
namespace Spex

theorem size_pos (n : Node) : 0 < n.size := by
  cases n <;> simp [Node.size]; omega

theorem mem_sizes {k : Node} {ks : List Node} (h : k ∈ ks) : k.size ≤ Node.sizes ks := by
  induction ks with
  | nil => simp at h
  | cons x xs ih =>
    simp only [Node.sizes]
    rcases List.mem_cons.mp h with rfl | h
    · omega
    · have := ih h
      omega

theorem mem_kids_size {k n : Node} (h : k ∈ n.kids) : k.size < n.size := by
  cases n with
  | text s => simp [Node.kids] at h
  | elem t as ks =>
    have := mem_sizes (ks := ks) h
    simp only [Node.size]
    omega

theorem mem_childs_size {k n : Node} {t : Str} (h : k ∈ n.childs t) : k.size < n.size :=
  mem_kids_size (List.mem_filter.mp h).1

theorem sizes_filter (p : Node → Bool) (ks : List Node) : Node.sizes (ks.filter p) ≤ Node.sizes ks := by
  induction ks with
  | nil => simp [Node.sizes]
  | cons k ks ih =>
    simp only [List.filter_cons, Node.sizes]
    split
    · simp only [Node.sizes]; omega
    · omega

theorem dropRowspan_size (td : Node) : (dropRowspan td).size = td.size := by
  cases td <;> simp [dropRowspan, Node.size]

theorem nthChild_mem {n c : Node} {t : Str} {i : Nat} (h : n.nthChild t i = some c) : c ∈ n.childs t :=
  List.mem_of_getElem? h

variable [Uni]

/-- a cell which comes from a cell of the source, perhaps without its row span -/
theorem sorted_mem {P : Node → Prop} (off : Int) (tds : List Node) (alst : List Pend) (l : List Node)
    (h : sortedRowChildren off tds alst = .ok l) (h1 : ∀ td ∈ tds, P td) (h2 : ∀ p ∈ alst, P p.2.1) : ∀ td ∈ l, P td := by
  have hem : ∀ (alst : List Pend) off out off' alst', (∀ p ∈ alst, P p.2.1) → emitPending off alst = .ok (out, off', alst') →
      (∀ td ∈ out, P td) ∧ ∀ p ∈ alst', P p.2.1 := by
    intro alst
    induction alst with
    | nil =>
      intro off out off' alst' _ h
      simp only [emitPending, Except.ok.injEq, Prod.mk.injEq] at h
      obtain ⟨rfl, _, rfl⟩ := h
      simp
    | cons p rest ih =>
      intro off out off' alst' hp h
      simp only [emitPending] at h
      split at h
      · split at h
        · simp at h
        · split at h
          · simp at h
          · rename_i hh
            simp only [Except.ok.injEq, Prod.mk.injEq] at h
            obtain ⟨rfl, _, rfl⟩ := h
            obtain ⟨k1, k2⟩ := ih _ _ _ _ (fun q hq => hp q (List.mem_cons_of_mem _ hq)) hh
            refine ⟨?_, k2⟩
            intro td htd
            rcases List.mem_cons.mp htd with rfl | htd
            · exact hp p (List.mem_cons_self ..)
            · exact k1 td htd
      · simp only [Except.ok.injEq, Prod.mk.injEq] at h
        obtain ⟨rfl, _, rfl⟩ := h
        exact ⟨by simp, hp⟩
  induction tds generalizing off alst l with
  | nil =>
    unfold sortedRowChildren at h
    split at h
    · simp only [Except.ok.injEq] at h
      subst h; simp
    · rename_i p rest
      simp only [Except.ok.injEq] at h
      subst h
      intro td htd
      rcases List.mem_append.mp htd with htd | htd
      · split at htd
        · simp only [List.mem_singleton] at htd
          exact htd ▸ h2 p (List.mem_cons_self ..)
        · simp at htd
      · obtain ⟨q, hq, rfl⟩ := List.mem_map.mp htd
        exact h2 q (List.mem_cons_of_mem _ hq)
  | cons td tds ih =>
    simp only [sortedRowChildren] at h
    split at h
    · simp at h
    · rename_i out off' alst' he
      split at h
      · simp at h
      · split at h
        · simp at h
        · rename_i hh
          simp only [Except.ok.injEq] at h
          obtain ⟨k1, k2⟩ := hem _ _ _ _ _ h2 he
          have := ih _ _ _ hh (fun x hx => h1 x (List.mem_cons_of_mem _ hx)) k2
          subst h
          intro x hx
          rcases List.mem_append.mp hx with hx | hx
          · exact k1 x hx
          · rcases List.mem_cons.mp hx with rfl | hx
            · exact h1 x (List.mem_cons_self ..)
            · exact this x hx

theorem storeSpans_mem {P : Node → Prop} (hP : ∀ td, P td → P (dropRowspan td)) (tds : List Node) (off : Int)
    (alst alst' : List Pend) (h : storeSpans off tds alst = .ok alst') (h1 : ∀ td ∈ tds, P td) (h2 : ∀ p ∈ alst, P p.2.1) :
    ∀ p ∈ alst', P p.2.1 := by
  have hins : ∀ (alst : List Pend) ndx elem count, P elem → (∀ p ∈ alst, P p.2.1) →
      ∀ p ∈ alstInsert alst ndx elem count, P p.2.1 := by
    intro alst
    induction alst with
    | nil => intro ndx elem count he _ p hp; simp only [alstInsert, List.mem_singleton] at hp; subst hp; exact he
    | cons q rest ih =>
      intro ndx elem count he hq p hp
      simp only [alstInsert] at hp
      split at hp
      · rcases List.mem_cons.mp hp with rfl | hp
        · exact he
        · exact hq p hp
      · rcases List.mem_cons.mp hp with rfl | hp
        · exact hq p (List.mem_cons_self ..)
        · exact ih _ _ _ he (fun x hx => hq x (List.mem_cons_of_mem _ hx)) p hp
  induction tds generalizing off alst with
  | nil =>
    simp only [storeSpans, Except.ok.injEq] at h
    subst h; exact h2
  | cons td tds ih =>
    simp only [storeSpans] at h
    split at h
    · simp at h
    · split at h
      · simp at h
      · refine ih _ _ h (fun x hx => h1 x (List.mem_cons_of_mem _ hx)) ?_
        split
        · exact hins _ _ _ _ (hP _ (h1 td (List.mem_cons_self ..))) h2
        · exact h2

/-- every cell handed out is a cell of the table, perhaps without its row span -/
theorem rowIter_cells {P : Node → Prop} (hP : ∀ td, P td → P (dropRowspan td)) (tbl : Node)
    (h : ∀ tr ∈ tbl.childs tTr, ∀ td ∈ tr.childs tTd, P td) : ∀ row ∈ (rowIter tbl).1, ∀ td ∈ row.node.childs tTd, P td := by
  have hc : ∀ ks : List Node, (∀ tr ∈ ks.filter (Node.hasTag tTr), ∀ td ∈ tr.childs tTd, P td) →
      ∀ row ∈ candidateRows ks, ∀ td ∈ row.node.childs tTd, P td := by
    intro ks
    induction ks with
    | nil => intro _ row hr; simp [candidateRows] at hr
    | cons k ks ih =>
      intro hk row hr
      simp only [candidateRows] at hr
      have ih := ih (fun tr htr => hk tr (by
        simp only [List.filter_cons]; split
        · exact List.mem_cons_of_mem _ htr
        · exact htr))
      split at hr
      · rename_i hcond
        rw [Bool.and_eq_true] at hcond
        rcases List.mem_cons.mp hr with rfl | hr
        · exact hk k (by simp [hcond.1])
        · exact ih row hr
      · exact ih row hr
  have key : ∀ (rows : List Row) (alst : List Pend), (∀ row ∈ rows, ∀ td ∈ row.node.childs tTd, P td) → (∀ p ∈ alst, P p.2.1) →
      ∀ row ∈ (rowIterGo alst rows).1, ∀ td ∈ row.node.childs tTd, P td := by
    intro rows
    induction rows with
    | nil => intro alst _ _ row hr; simp [rowIterGo] at hr
    | cons r rows ih =>
      intro alst h1 h2 row hr
      have h1' := fun x hx => h1 x (List.mem_cons_of_mem r hx)
      simp only [rowIterGo] at hr
      split at hr
      · rcases List.mem_cons.mp hr with rfl | hr
        · exact h1 row (List.mem_cons_self ..)
        · exact ih alst h1' h2 row hr
      · cases hrb : rebuildRow r alst with
        | error e => rw [hrb] at hr; simp at hr
        | ok row' =>
          have hrow' : ∀ td ∈ row'.node.childs tTd, P td := by
            unfold rebuildRow at hrb
            split at hrb
            · simp only [Except.ok.injEq] at hrb
              subst hrb
              exact h1 _ (List.mem_cons_self ..)
            · split at hrb
              · simp at hrb
              · rename_i tds htds
                simp only [Except.ok.injEq] at hrb
                subst hrb
                have := sorted_mem _ _ _ _ htds (h1 r (List.mem_cons_self ..)) h2
                intro td htd
                cases hn : r.node with
                | text s => rw [hn] at htd; simp [Node.childs, Node.kids] at htd
                | elem t as ks =>
                  rw [hn] at htd
                  exact this td (List.mem_filter.mp htd).1
          rw [hrb] at hr
          simp only at hr
          cases hst : storeSpans 0 (row'.node.childs tTd) alst with
          | error e => rw [hst] at hr; simp at hr
          | ok alst' =>
            rw [hst] at hr
            rcases List.mem_cons.mp hr with rfl | hr
            · exact hrow'
            · refine ih _ h1' ?_ row hr
              have := storeSpans_mem hP _ _ _ _ hst hrow' h2
              intro p hp
              unfold alstCountDecr at hp
              obtain ⟨q, hq, rfl⟩ := List.mem_map.mp hp
              exact this q (List.mem_filter.mp hq).1
  exact key _ _ (hc tbl.kids h) (by simp)

theorem nested_smaller {tbl t td : Node} {row : Row} (hr : row ∈ (rowIter tbl).1) (htd : td ∈ row.node.childs tTd)
    (ht : t ∈ td.childs tTable) : t.size < tbl.size := by
  have h1 := rowIter_cells (P := fun td => td.size < tbl.size) (fun td h => by rwa [dropRowspan_size]) tbl
    (fun tr htr td htd => Nat.lt_trans (mem_childs_size htd) (mem_childs_size htr)) row hr td htd
  have := mem_childs_size ht
  omega

theorem following_smaller {tbl : Node} {row : Row} (hr : row ∈ (rowIter tbl).1) :
    (Node.elem tTable [] row.following).size < tbl.size := by
  have hc : ∀ ks : List Node, ∀ row ∈ candidateRows ks, Node.sizes row.following + row.node.size ≤ Node.sizes ks := by
    intro ks
    induction ks with
    | nil => intro row hr; simp [candidateRows] at hr
    | cons k ks ih =>
      intro row hr
      simp only [candidateRows] at hr
      simp only [Node.sizes]
      split at hr
      · rcases List.mem_cons.mp hr with rfl | hr
        · have := sizes_filter Node.isElem ks
          simp only
          omega
        · have := ih row hr
          omega
      · have := ih row hr
        omega
  have key : ∀ (rows : List Row) (alst : List Pend), ∀ row ∈ (rowIterGo alst rows).1,
      row.following = [] ∨ row ∈ rows := by
    intro rows
    induction rows with
    | nil => intro alst row hr; simp [rowIterGo] at hr
    | cons r rows ih =>
      intro alst row hr
      simp only [rowIterGo] at hr
      split at hr
      · rcases List.mem_cons.mp hr with rfl | hr
        · exact .inr (List.mem_cons_self ..)
        · exact (ih _ row hr).imp id (List.mem_cons_of_mem _)
      · cases hrb : rebuildRow r alst with
        | error e => rw [hrb] at hr; simp at hr
        | ok row' =>
          rw [hrb] at hr
          simp only at hr
          split at hr
          · simp at hr
          · rcases List.mem_cons.mp hr with rfl | hr
            · unfold rebuildRow at hrb
              split at hrb
              · simp only [Except.ok.injEq] at hrb
                exact .inr (hrb ▸ List.mem_cons_self ..)
              · split at hrb
                · simp at hrb
                · simp only [Except.ok.injEq] at hrb
                  exact .inl (by rw [← hrb])
            · exact (ih _ row hr).imp id (List.mem_cons_of_mem _)
  have hne : candidateRows tbl.kids ≠ [] := by
    intro h
    unfold rowIter at hr
    rw [h] at hr
    simp [rowIterGo] at hr
  obtain ⟨r0, hr0⟩ := List.exists_mem_of_ne_nil _ hne
  have h0 := hc _ _ hr0
  have hp0 := size_pos r0.node
  have hs : tbl.size = 1 + Node.sizes tbl.kids := by
    cases tbl with
    | text s => simp [Node.kids, candidateRows] at hne
    | elem t as ks => simp [Node.size, Node.kids]
  simp only [Node.size]
  rcases key _ _ row hr with h | h
  · rw [h, hs]
    simp only [Node.sizes]
    omega
  · have := hc _ _ h
    have := size_pos row.node
    omega

end Spex
