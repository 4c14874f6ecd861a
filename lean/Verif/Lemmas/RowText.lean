import Verif.Props.CellReads
/-
The text of a data row: there is nothing but its cells in it, and white space.
-/
set_option autoImplicit false
namespace Spex

/-- nothing but cells and white space -/
def OnlyCells (r : Node) : Prop := r.isElem = true ∧ ∀ k ∈ r.kids, k.hasTag tTd = true ∨ k.isBlank = true

section
variable [Uni]

theorem emitPending_mem {alst : List Pend} : ∀ {off off' : Int} {out : List Node} {rest : List Pend}, emitPending off alst = .ok (out, off', rest) →
    (∀ n ∈ out, ∃ p ∈ alst, n = p.2.1) ∧ ∀ p ∈ rest, p ∈ alst := by
  induction alst with
  | nil =>
    intro off off' out rest h
    rw [emitPending] at h
    cases h
    exact ⟨fun n hn => (by cases hn), fun p hp => hp⟩
  | cons q alst ih =>
    intro off off' out rest h
    rw [emitPending] at h
    by_cases hq : q.1 = off
    · rw [if_pos hq] at h
      cases hc : colspan q.2.1 with
      | error e => rw [hc] at h; cases h
      | ok w =>
        rw [hc] at h
        simp only at h
        cases he : emitPending (off + w) alst with
        | error e => rw [he] at h; cases h
        | ok t =>
          obtain ⟨o1, o2, o3⟩ := t
          rw [he] at h
          cases h
          obtain ⟨g1, g2⟩ := ih he
          refine ⟨fun n hn => ?_, fun p hp => List.mem_cons_of_mem _ (g2 p hp)⟩
          rcases List.mem_cons.1 hn with rfl | hn
          · exact ⟨q, List.mem_cons_self, rfl⟩
          · obtain ⟨p, hp, e⟩ := g1 n hn
            exact ⟨p, List.mem_cons_of_mem _ hp, e⟩
    · rw [if_neg hq] at h
      cases h
      exact ⟨fun n hn => (by cases hn), fun p hp => hp⟩

theorem sortedRowChildren_mem {tds : List Node} : ∀ {off : Int} {alst : List Pend} {out : List Node}, sortedRowChildren off tds alst = .ok out →
    ∀ n ∈ out, n ∈ tds ∨ ∃ p ∈ alst, n = p.2.1 := by
  induction tds with
  | nil =>
    intro off alst out h n hn
    rw [sortedRowChildren.eq_def] at h
    simp only at h
    cases alst with
    | nil => cases h; cases hn
    | cons p rest =>
      cases h
      rcases List.mem_append.1 hn with hn | hn
      · split at hn
        · cases List.mem_singleton.1 hn
          exact .inr ⟨p, List.mem_cons_self, rfl⟩
        · cases hn
      · obtain ⟨q, hq, rfl⟩ := List.mem_map.1 hn
        exact .inr ⟨q, List.mem_cons_of_mem _ hq, rfl⟩
  | cons td tds ih =>
    intro off alst out h n hn
    rw [sortedRowChildren] at h
    cases he : emitPending off alst with
    | error e => rw [he] at h; cases h
    | ok t =>
      obtain ⟨o1, o2, o3⟩ := t
      rw [he] at h
      simp only at h
      cases hc : colspan td with
      | error e => rw [hc] at h; cases h
      | ok w =>
        rw [hc] at h
        simp only at h
        cases hs : sortedRowChildren (o2 + w) tds o3 with
        | error e => rw [hs] at h; cases h
        | ok out' =>
          rw [hs] at h
          cases h
          obtain ⟨g1, g2⟩ := emitPending_mem he
          rcases List.mem_append.1 hn with hn | hn
          · exact .inr (g1 n hn)
          · rcases List.mem_cons.1 hn with rfl | hn
            · exact .inl List.mem_cons_self
            · rcases ih hs n hn with h1 | ⟨p, hp, e⟩
              · exact .inl (List.mem_cons_of_mem _ h1)
              · exact .inr ⟨p, g2 p hp, e⟩

omit [Uni] in
theorem alstInsert_mem {alst : List Pend} {i : Int} {n : Node} {k : Int} {p : Pend} (h : p ∈ alstInsert alst i n k) : p ∈ alst ∨ p = (i, n, k) := by
  induction alst with
  | nil => exact .inr (List.mem_singleton.1 h)
  | cons q alst ih =>
    rw [alstInsert] at h
    split at h
    · rcases List.mem_cons.1 h with h | h
      · exact .inr h
      · exact .inl h
    · rcases List.mem_cons.1 h with rfl | h
      · exact .inl List.mem_cons_self
      · rcases ih h with h | h
        · exact .inl (List.mem_cons_of_mem _ h)
        · exact .inr h

theorem storeSpans_from {tds : List Node} : ∀ {off : Int} {alst out : List Pend}, storeSpans off tds alst = .ok out →
    ∀ p ∈ out, p ∈ alst ∨ ∃ td ∈ tds, p.2.1 = dropRowspan td := by
  induction tds with
  | nil =>
    intro off alst out h p hp
    rw [storeSpans] at h
    cases h
    exact .inl hp
  | cons td tds ih =>
    intro off alst out h p hp
    rw [storeSpans] at h
    cases hr : rowspan td with
    | error e => rw [hr] at h; cases h
    | ok rs =>
      rw [hr] at h
      simp only at h
      cases hc : colspan td with
      | error e => rw [hc] at h; cases h
      | ok w =>
        rw [hc] at h
        simp only at h
        rcases ih h p hp with h1 | ⟨x, hx, e⟩
        · split at h1
          · rcases alstInsert_mem h1 with h1 | rfl
            · exact .inl h1
            · exact .inr ⟨td, List.mem_cons_self, rfl⟩
          · exact .inl h1
        · exact .inr ⟨x, List.mem_cons_of_mem _ hx, e⟩

/-- each row handed out is a row of the table, or has nothing but cells -/
theorem rowIterGo_only {rows : List Row} (he : ∀ r ∈ rows, r.node.isElem = true) : ∀ {alst : List Pend}, (∀ p ∈ alst, p.2.1.hasTag tTd = true) →
    ∀ r ∈ (rowIterGo alst rows).1, r ∈ rows ∨ OnlyCells r.node := by
  induction rows with
  | nil => intro alst _ r hr; rw [rowIterGo] at hr; cases hr
  | cons row rows ih =>
    intro alst ha r hr
    have he' : ∀ r ∈ rows, r.node.isElem = true := fun r hr => he r (List.mem_cons_of_mem _ hr)
    rw [rowIterGo] at hr
    by_cases hth : containsTh row.node = true
    · rw [if_pos hth] at hr
      rcases List.mem_cons.1 hr with rfl | hr
      · exact .inl List.mem_cons_self
      · rcases ih he' ha r hr with h | h
        · exact .inl (List.mem_cons_of_mem _ h)
        · exact .inr h
    · rw [if_neg hth] at hr
      cases hb : rebuildRow row alst with
      | error e => rw [hb] at hr; cases hr
      | ok row' =>
        rw [hb] at hr
        simp only at hr
        have hrow : row' ∈ row :: rows ∨ OnlyCells row'.node := by
          unfold rebuildRow at hb
          by_cases hemp : alst.isEmpty = true
          · rw [if_pos hemp] at hb
            cases hb
            exact .inl List.mem_cons_self
          · rw [if_neg hemp] at hb
            cases hs : sortedRowChildren 0 (row.node.childs tTd) alst with
            | error e => rw [hs] at hb; cases hb
            | ok tds =>
              rw [hs] at hb
              simp only [Except.ok.injEq] at hb
              have hel := he row List.mem_cons_self
              subst hb
              cases hn : row.node with
              | text s => rw [hn] at hel; cases hel
              | elem t as ks =>
                refine .inr ⟨rfl, fun k hk => .inl ?_⟩
                rcases sortedRowChildren_mem hs k hk with h | ⟨p, hp, rfl⟩
                · exact (List.mem_filter.1 h).2
                · exact ha p hp
        cases hst : storeSpans 0 (row'.node.childs tTd) alst with
        | error e => rw [hst] at hr; cases hr
        | ok alst' =>
          rw [hst] at hr
          rcases List.mem_cons.1 hr with rfl | hr
          · exact hrow
          · have ha' : ∀ p ∈ alstCountDecr alst', p.2.1.hasTag tTd = true := by
              intro p hp
              obtain ⟨q, hq, rfl⟩ := List.mem_map.1 hp
              rcases storeSpans_from hst q (List.mem_filter.1 hq).1 with h | ⟨td, htd, e⟩
              · exact ha q h
              · simp only
                rw [e, dropRowspan_hasTag]
                exact (List.mem_filter.1 htd).2
            rcases ih he' ha' r hr with h | h
            · exact .inl (List.mem_cons_of_mem _ h)
            · exact .inr h

omit [Uni] in
theorem candidateRows_mem {ks : List Node} {r : Row} (h : r ∈ candidateRows ks) : r.node ∈ ks ∧ r.node.hasTag tTr = true := by
  induction ks with
  | nil => cases h
  | cons k ks ih =>
    rw [candidateRows] at h
    split at h
    · rename_i hk
      rcases List.mem_cons.1 h with rfl | h
      · exact ⟨List.mem_cons_self, (Bool.and_eq_true _ _ ▸ hk).1⟩
      · exact ⟨List.mem_cons_of_mem _ (ih h).1, (ih h).2⟩
    · exact ⟨List.mem_cons_of_mem _ (ih h).1, (ih h).2⟩

/-- each row handed out is a row of the table, or has nothing but cells -/
theorem rowIter_only {n : Node} {r : Row} (h : r ∈ (rowIter n).1) : r.node ∈ n.childs tTr ∨ OnlyCells r.node := by
  unfold rowIter at h
  rcases rowIterGo_only (fun r hr => hasTag_isElem (candidateRows_mem hr).2) (by simp) r h with h | h
  · exact .inl (List.mem_filter.2 (candidateRows_mem h))
  · exact .inr h

/-- the rows of a table on the page have nothing but cells, if they have no header cells -/
theorem shown_only {doc : WordDoc} {cls : Classes} {rows : List (List WCell)} {n : Node} (hs : ShowsTable doc cls rows n.clean) {tr : Node}
    (htr : tr ∈ n.childs tTr) (hth : tr.childs tTh = []) : OnlyCells tr := by
  refine ⟨hasTag_isElem (List.mem_filter.1 htr).2, fun k hk => ?_⟩
  obtain ⟨i, hi⟩ := List.mem_iff_getElem?.1 htr
  have hlt : i < rows.length := by
    obtain ⟨id, trs, hn, hl, -⟩ := hs
    have h1 := childs_clean hn (by decide) tTr
    have := congrArg List.length h1
    rw [List.length_map] at this
    have h2 := List.length_filter_le (Node.hasTag tTr) (trs.map (Node.elem c!"tr" []))
    rw [List.length_map] at h2
    have h3 := (List.getElem?_eq_some_iff.1 hi).1
    omega
  obtain ⟨tr', ks, ns, a1, a2, a3, a4, a5⟩ := shown_tr hs (List.getElem?_eq_getElem hlt)
  rw [hi] at a1
  cases a1
  subst a2
  by_cases hb : k.isBlank = true
  · exact .inr hb
  · have hk' : k.clean ∈ ns := by
      rw [← a3]
      clear a3 hi htr hth
      replace hk : k ∈ ks := hk
      induction ks with
      | nil => cases hk
      | cons x ks ih =>
        rw [cleans]
        rcases List.mem_cons.1 hk with rfl | hk
        · rw [if_neg hb]; exact List.mem_cons_self
        · have := ih hk
          split
          · exact this
          · exact List.mem_cons_of_mem _ this
    obtain ⟨c, -, hc⟩ := forall2_right a5 hk'
    obtain ⟨tag, fill, h, elems, -, ht, -, -, he⟩ := hc
    have hkt : k.hasTag tag = true := by
      rw [← hasTag_clean, he]; simp [Node.hasTag]
    rcases ht with ⟨rfl, -⟩ | ⟨rfl, -⟩
    · exfalso
      have : k ∈ (Node.elem c!"tr" [] ks).childs tTh := List.mem_filter.2 ⟨hk, hkt⟩
      rw [hth] at this
      cases this
    · exact .inl hkt

omit [Uni] in
theorem OnlyCells.woven {r : Node} (h : OnlyCells r) {tss : List (List Str)}
    (hf : List.Forall₂ (fun td ts => Woven ts td.flat) (r.childs tTd) tss) : Woven tss.flatten r.flat := by
  obtain ⟨h1, h2⟩ := h
  cases r with
  | text s => cases h1
  | elem t as ks =>
    rw [Node.flat]
    replace hf : List.Forall₂ (fun td ts => Woven ts td.flat) (ks.filter (Node.hasTag tTd)) tss := hf
    replace h2 : ∀ k ∈ ks, k.hasTag tTd = true ∨ k.isBlank = true := h2
    clear h1
    induction ks generalizing tss with
    | nil =>
      cases hf
      rw [Node.flats]; exact .done (by simp)
    | cons k ks ih =>
      rw [Node.flats]
      by_cases hk : k.hasTag tTd = true
      · rw [List.filter_cons_of_pos hk] at hf
        cases hf with
        | cons g1 g2 => exact g1.append (ih g2 (fun k hk => h2 k (List.mem_cons_of_mem _ hk)))
      · rw [List.filter_cons_of_neg hk] at hf
        refine Woven.blank ?_ (ih hf (fun k hk => h2 k (List.mem_cons_of_mem _ hk)))
        have hb := (h2 k List.mem_cons_self).resolve_left hk
        cases k with
        | elem t as kk => cases hb
        | text w => exact List.all_eq_true.1 hb

end

end Spex
