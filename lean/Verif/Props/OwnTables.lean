import Verif.Props.Table
/-
C80 (first part): which tables of a Word document are tables of their own on the page.
-/
set_option autoImplicit false
namespace Spex
section
variable [Uni]

/-! ### Specification -/

/-- the table `t` stands in a cell of the table `s`, and this cell does not continue the one above -/
def InCell (s t : LNode) : Prop :=
  ∃ rows c, WordTable s rows ∧ c ∈ rows.flatten ∧ c.cont = false ∧ t ∈ c.tc.children ∧ t.node.hasTag wTbl = true

/-- the merges of all tables of the Word document are rectangular -/
def Regular (doc : WordDoc) : Prop := ∀ t ∈ docTables doc.root, ∃ rows, WordTable t rows

/-- `ts` are the tables of the Word document which do not stand in a cell of another one, in the order of the document. Tables in cells which continue the one
above are among them, and tables in something else than a cell. -/
structure OwnTables (doc : WordDoc) (ts : List LNode) : Prop where
  order : ts.Sublist (docTables doc.root)
  which : ∀ t ∈ docTables doc.root, t ∈ ts ↔ ∀ s ∈ docTables doc.root, ¬ InCell s t

/-! ### Proof: the tables met -/

/-- what becomes of the tables met, when those with `P` are looked for -/
structure OwnStep (doc : WordDoc) (P : LNode → Prop) (s s' : Seen) : Prop where
  mono : ∀ p ∈ s, p ∈ s'
  inside : ∀ t ∈ docTables doc.root, t.path ∈ s' → t.path ∉ s → ∀ u, InCell t u → u.path ∈ s'
  from' : ∀ t ∈ docTables doc.root, t.path ∈ s' → t.path ∈ s ∨ P t ∨ ∃ r ∈ docTables doc.root, InCell r t

theorem OwnStep.refl (doc : WordDoc) (P : LNode → Prop) (s : Seen) : OwnStep doc P s s :=
  ⟨fun _ h => h, fun _ _ h h' => absurd h h', fun _ _ h => .inl h⟩

theorem OwnStep.trans {doc : WordDoc} {P : LNode → Prop} {s s' s'' : Seen} (h : OwnStep doc P s s') (h' : OwnStep doc P s' s'') : OwnStep doc P s s'' := by
  refine ⟨fun p hp => h'.mono p (h.mono p hp), fun t ht h1 h2 u hu => ?_, fun t ht h1 => ?_⟩
  · by_cases h3 : t.path ∈ s'
    · exact h'.mono _ (h.inside t ht h3 h2 u hu)
    · exact h'.inside t ht h1 h3 u hu
  · rcases h'.from' t ht h1 with h3 | h3
    · exact h.from' t ht h3
    · exact .inr h3

theorem OwnStep.weaken {doc : WordDoc} {P Q : LNode → Prop} {s s' : Seen} (h : OwnStep doc P s s')
    (hpq : ∀ t ∈ docTables doc.root, P t → Q t ∨ ∃ r ∈ docTables doc.root, InCell r t) : OwnStep doc Q s s' := by
  refine ⟨h.mono, h.inside, fun t ht h1 => ?_⟩
  rcases h.from' t ht h1 with h2 | h2 | h2
  · exact .inl h2
  · exact .inr (hpq t ht h2)
  · exact .inr (.inr h2)

theorem mapSt_step {α β : Type} {doc : WordDoc} {P : LNode → Prop} {f : α → Seen → Except Exn (β × Seen)} {Q : α → Seen → Prop}
    (hQ : ∀ a s s', Q a s → (∀ p ∈ s, p ∈ s') → Q a s') {as : List α}
    (hf : ∀ a ∈ as, ∀ s b s', f a s = .ok (b, s') → OwnStep doc P s s' ∧ Q a s') : ∀ {s : Seen} {bs : List β} {s' : Seen},
    mapSt f as s = .ok (bs, s') → OwnStep doc P s s' ∧ ∀ a ∈ as, Q a s' := by
  induction as with
  | nil => intro s bs s' h; rw [mapSt] at h; cases h; exact ⟨OwnStep.refl _ _ _, fun a ha => by cases ha⟩
  | cons a as ih =>
    intro s bs s' h
    obtain ⟨b, s1, bs', s2, h1, h2, h3⟩ := mapSt_cons h
    cases h3
    obtain ⟨g1, g2⟩ := hf a List.mem_cons_self _ _ _ h1
    obtain ⟨g3, g4⟩ := ih (fun a ha => hf a (List.mem_cons_of_mem _ ha)) h2
    refine ⟨g1.trans g3, fun x hx => ?_⟩
    rcases List.mem_cons.1 hx with rfl | hx
    · exact hQ _ _ _ g2 g3.mono
    · exact g4 x hx

/-- the tables in the cells of a table -/
theorem parse_step {doc : WordDoc} (hreg : Regular doc) (n : Nat) :
    (∀ tbl seen us seen', InDoc doc.root tbl → tbl.path ≠ [] → parseTable doc n tbl seen = .ok (us, seen') →
      OwnStep doc (fun t => t = tbl) seen seen' ∧ tbl.path ∈ seen') ∧
    (∀ stream seen us seen', (∀ c ∈ stream, InDoc doc.root c ∧ c.path ≠ []) → parseAny doc n stream seen = .ok (us, seen') →
      OwnStep doc (fun t => t ∈ stream) seen seen' ∧ ∀ c ∈ stream, c.node.hasTag wTbl = true → c.path ∈ seen') := by
  induction n with
  | zero =>
    refine ⟨fun tbl seen us seen' _ _ h => ?_, fun s seen us seen' _ h => ?_⟩
    · rw [parseTable] at h; cases h
    · rw [parseAny] at h; cases h
  | succ n ih =>
    refine ⟨?_, ?_⟩
    · intro tbl seen us seen' hd hp h
      rw [parseTable] at h
      by_cases ht : tbl.node.hasTag wTbl = true
      · rw [if_pos ht] at h
        by_cases hs : tbl.path ∈ seen
        · rw [if_pos hs] at h; cases h
          exact ⟨OwnStep.refl _ _ _, hs⟩
        · rw [if_neg hs] at h
          obtain ⟨g, h1, h⟩ := except_bind_ok h
          obtain ⟨⟨rows, s2⟩, h2, h⟩ := except_bind_ok h
          cases h
          have hmem : tbl ∈ docTables doc.root := mem_docTables.2 ⟨hd, hp, ht⟩
          have hlaid : ∀ rs, WordTable tbl rs → LaidOut rs g := by
            intro rs hW
            obtain ⟨g', e, hL⟩ := C39_tiling_partial tbl rs hW
            rw [h1] at e
            cases e
            exact hL
          obtain ⟨rs, hW⟩ := hreg tbl hmem
          obtain ⟨hcells, -⟩ := grid_cells_origin h1
          have hloc : ∀ e ∈ g.els, ∀ c ∈ e.cell.children, InDoc doc.root c ∧ c.path ≠ [] := by
            intro e he c hc
            obtain ⟨tr, htr, htc⟩ := hcells e he
            refine ⟨((hd.child (mem_childs htr).1).child (mem_childs htc).1).child hc, ?_⟩
            obtain ⟨j, hj, -⟩ := children_path hc
            rw [hj]; simp
          have hin : ∀ e ∈ g.els, ∀ c ∈ e.cell.children, c.node.hasTag wTbl = true → InCell tbl c := by
            intro e he c hc hct
            have hm : (e.cell, e.top, e.left, e.colspan) ∈ g.els.map (fun e => (e.cell, e.top, e.left, e.colspan)) :=
              List.mem_map_of_mem (f := fun e : GridEl => (e.cell, e.top, e.left, e.colspan)) he
            rw [(hlaid rs hW).own, List.mem_flatten] at hm
            obtain ⟨l, hl, hm⟩ := hm
            obtain ⟨i, hi⟩ := List.getElem?_of_mem hl
            rw [List.getElem?_mapIdx] at hi
            cases hr : rs[i]? with
            | none => rw [hr] at hi; cases hi
            | some row =>
              rw [hr] at hi
              simp only [Option.map_some, Option.some.injEq] at hi
              subst hi
              obtain ⟨w, hw, he'⟩ := List.mem_map.1 hm
              obtain ⟨w1, w2⟩ := List.mem_filter.1 hw
              have e1 : w.tc = e.cell := (Prod.mk.inj he').1
              exact ⟨rs, w, hW, List.mem_flatten.2 ⟨row, List.mem_of_getElem? hr, w1⟩, by simpa using w2, by rw [e1]; exact hc, hct⟩
          obtain ⟨a1, a2⟩ := mapSt_step (doc := doc) (P := fun t => t = tbl)
            (Q := fun (row : List Nat) s => ∀ k ∈ row, ∀ e, g.els[k]? = some e → ∀ c ∈ e.cell.children, c.node.hasTag wTbl = true → c.path ∈ s)
            (by intro a s s' hq hm k hk e he c hc hct; exact hm _ (hq k hk e he c hc hct)) (as := g.matrix) (fun row _ s b s' hb =>
              mapSt_step (doc := doc) (P := fun t => t = tbl)
                (Q := fun k s => ∀ e, g.els[k]? = some e → ∀ c ∈ e.cell.children, c.node.hasTag wTbl = true → c.path ∈ s)
                (by intro a s s' hq hm e he c hc hct; exact hm _ (hq e he c hc hct)) (as := row) (fun k _ s b s' hb => by
                  unfold parseSlot at hb
                  cases hk : g.els[k]? with
                  | none => rw [hk] at hb; cases hb
                  | some e =>
                    rw [hk] at hb
                    obtain ⟨⟨us, s1⟩, h4, hb⟩ := except_bind_ok hb
                    cases hb
                    have hem := List.mem_of_getElem? hk
                    obtain ⟨q1, q2⟩ := ih.2 _ _ _ _ (hloc e hem) h4
                    refine ⟨q1.weaken fun t htt hts => .inr ⟨tbl, hmem, hin e hem t hts (mem_docTables.1 htt).2.2⟩, fun e' he' => ?_⟩
                    cases he'
                    exact q2) hb) h2
          have hin' : ∀ u, InCell tbl u → u.path ∈ s2 := by
            rintro u ⟨rs', w, hW', hw, hc, hu, hut⟩
            obtain ⟨row, hrow, hwr⟩ := List.mem_flatten.1 hw
            obtain ⟨i, hi⟩ := List.getElem?_of_mem hrow
            obtain ⟨k, e, b1, b2, -, -, -, b3⟩ := own_element hW' (hlaid rs' hW') hi hwr hc
            have hsl := b3 0 (hW'.markup row hrow w hwr).span_pos
            unfold slot at hsl
            cases hM : g.matrix[i]? with
            | none => rw [hM] at hsl; cases hsl
            | some m =>
              rw [hM, Option.bind_some] at hsl
              exact a2 m (List.mem_of_getElem? hM) k (List.mem_of_getElem? hsl) e b1 u (by rw [b2]; exact hu) hut
          refine ⟨⟨fun p hp => a1.mono p (List.mem_cons_of_mem _ hp), fun t htt q1 q2 u hu => ?_, fun t htt q => ?_⟩, a1.mono _ List.mem_cons_self⟩
          · by_cases he : t.path = tbl.path
            · have := (mem_docTables.1 htt).1.unique hd he
              subst this
              exact hin' u hu
            · refine a1.inside t htt q1 (fun hc => ?_) u hu
              rcases List.mem_cons.1 hc with h | h
              · exact he h
              · exact q2 h
          · rcases a1.from' t htt q with q | q
            · rcases List.mem_cons.1 q with q | q
              · exact .inr (.inl ((mem_docTables.1 htt).1.unique hd q))
              · exact .inl q
            · exact .inr q
      · rw [if_neg ht] at h; cases h
    · intro stream seen us seen' hd h
      cases stream with
      | nil =>
        rw [parseAny] at h; cases h
        exact ⟨OwnStep.refl _ _ _, fun c hc => by cases hc⟩
      | cons c rest =>
        have hrest : ∀ d ∈ rest, InDoc doc.root d ∧ d.path ≠ [] := fun d hd' => hd d (List.mem_cons_of_mem _ hd')
        rw [parseAny] at h
        by_cases ht : c.node.hasTag wTbl = true
        · rw [if_pos ht] at h
          obtain ⟨⟨t, s1⟩, h1, h⟩ := except_bind_ok h
          obtain ⟨⟨us', s2⟩, h2, h⟩ := except_bind_ok h
          cases h
          obtain ⟨hc1, hc2⟩ := hd c List.mem_cons_self
          obtain ⟨h3, h4⟩ := ih.1 _ _ _ _ hc1 hc2 h1
          obtain ⟨h5, h6⟩ := ih.2 _ _ _ _ hrest h2
          refine ⟨(h3.weaken fun t _ q => .inl (by rw [q]; exact List.mem_cons_self)).trans
            (h5.weaken fun t _ q => .inl (List.mem_cons_of_mem _ q)), fun d hd' htag => ?_⟩
          rcases List.mem_cons.1 hd' with rfl | hd'
          · exact h5.mono _ h4
          · exact h6 d hd' htag
        · rw [if_neg ht] at h
          have hskip : ∀ {seen'' : Seen}, (∀ d ∈ rest, d.node.hasTag wTbl = true → d.path ∈ seen'') →
              ∀ d ∈ c :: rest, d.node.hasTag wTbl = true → d.path ∈ seen'' := by
            intro seen'' h d hd' htag
            rcases List.mem_cons.1 hd' with rfl | hd'
            · exact absurd htag ht
            · exact h d hd' htag
          by_cases hp : c.node.hasTag wP = true
          · rw [if_pos hp] at h
            obtain ⟨isList, h1, h⟩ := except_bind_ok h
            cases isList with
            | true =>
              simp only [if_true] at h
              obtain ⟨⟨it, rest'⟩, h2, h⟩ := except_bind_ok h
              obtain ⟨⟨us', s2⟩, h3, h⟩ := except_bind_ok h
              obtain ⟨a, l, props, items, ps, g1, g2, g3, g4, g5⟩ := C42_list h2 h1
              simp only [g1] at h
              cases h
              have hrr : rest = ps ++ rest' := by simpa using g2
              obtain ⟨h5, h6⟩ := ih.2 _ _ _ _ (fun d hd' => hrest d (by rw [hrr]; exact List.mem_append_right _ hd')) h3
              refine ⟨h5.weaken fun t _ q => .inl (List.mem_cons_of_mem _ (by rw [hrr]; exact List.mem_append_right _ q)), hskip ?_⟩
              intro d hd' htag
              rw [hrr] at hd'
              rcases List.mem_append.1 hd' with hd' | hd'
              · obtain ⟨m, -, hm⟩ := g5.2.1 d (List.mem_cons_of_mem _ hd')
                have := hm.para
                cases hdn : d.node with
                | text s => rw [hdn] at this; cases this
                | elem tg as ks =>
                  rw [hdn] at this htag
                  simp only [Node.hasTag, beq_iff_eq] at this htag
                  rw [this] at htag
                  exact absurd htag (by decide)
              · exact h6 d hd' htag
            | false =>
              simp only [Bool.false_eq_true, if_false] at h
              obtain ⟨ps, h2, h⟩ := except_bind_ok h
              obtain ⟨⟨us', s2⟩, h3, h⟩ := except_bind_ok h
              cases h
              obtain ⟨h5, h6⟩ := ih.2 _ _ _ _ hrest h3
              exact ⟨h5.weaken fun t _ q => .inl (List.mem_cons_of_mem _ q), hskip h6⟩
          · rw [if_neg hp] at h
            obtain ⟨h5, h6⟩ := ih.2 _ _ _ _ hrest h
            exact ⟨h5.weaken fun t _ q => .inl (List.mem_cons_of_mem _ q), hskip h6⟩

omit [Uni] in
/-- a table in a cell comes after the one around it -/
theorem InCell.path {s t : LNode} (h : InCell s t) : s.path <+: t.path ∧ s.path ≠ t.path := by
  obtain ⟨rows, c, hW, hc, -, ht, -⟩ := h
  obtain ⟨row, hrow, hcr⟩ := List.mem_flatten.1 hc
  have : c.tc ∈ ((s.childs wTr).map (·.childs wTc)).flatten := by
    rw [hW.source]
    exact List.mem_flatten.2 ⟨_, List.mem_map_of_mem hrow, List.mem_map_of_mem hcr⟩
  obtain ⟨l, hl, hcl⟩ := List.mem_flatten.1 this
  obtain ⟨tr, htr, rfl⟩ := List.mem_map.1 hl
  obtain ⟨j1, h1, -⟩ := children_path (mem_childs htr).1
  obtain ⟨j2, h2, -⟩ := children_path (mem_childs hcl).1
  obtain ⟨j3, h3, -⟩ := children_path ht
  rw [h3, h2, h1]
  refine ⟨⟨[j1] ++ [j2] ++ [j3], by simp⟩, fun h => ?_⟩
  have := congrArg List.length h
  simp at this

/-- **C80** Which tables of a Word document are tables of their own on the page, and in which order: just those which do not stand in a cell of another table, in the
order of the document. Tables in a cell which continues the one above, and those in a content control in a cell, are among them. It is `partial`, as it is for
documents where all merges are rectangular (see `C39_misaligned_false` for others). -/
theorem C80_own_tables_partial {doc : WordDoc} {us : List HUnit} (h : parseWord doc = .ok us) (hreg : Regular doc) {ts : List LNode}
    (hts : OwnTables doc ts) : us.map HUnit.src = ts.map (·.path) := by
  unfold parseWord at h
  obtain ⟨⟨uss, s⟩, h1, h'⟩ := except_bind_ok h
  cases h'
  clear h
  have gen : ∀ (b a : List LNode), docTables doc.root = a ++ b → ∀ (ts' : List LNode), ts'.Sublist b → (∀ t ∈ b, t ∈ ts' ↔ ∀ s ∈ docTables doc.root, ¬ InCell s t) →
      ∀ (s : Seen) (uss : List (List HUnit)) (s' : Seen), (∀ t ∈ a, t.path ∈ s) →
      (∀ t ∈ docTables doc.root, t.path ∈ s → ∀ u, InCell t u → u.path ∈ s) →
      (∀ t ∈ docTables doc.root, t.path ∈ s → t ∈ a ∨ ∃ r ∈ docTables doc.root, InCell r t) →
      mapSt (parseTable doc (docFuel doc.root)) b s = .ok (uss, s') → uss.flatten.map HUnit.src = ts'.map (·.path) := by
    intro b
    induction b with
    | nil =>
      intro a _ ts' hsub _ s uss s' _ _ _ hm
      rw [mapSt] at hm; cases hm
      rw [List.sublist_nil.1 hsub]; rfl
    | cons t b ih =>
      intro a hab ts' hsub hw s uss s' ha hin hfr hm
      obtain ⟨r, s1, bs', s2, g1, g2, g3⟩ := mapSt_cons hm
      cases g3
      have htm : t ∈ docTables doc.root := by rw [hab]; simp
      obtain ⟨td, tp, tt⟩ := mem_docTables.1 htm
      have hnd := docTables_nodup doc.root
      rw [hab, List.map_append, List.map_cons] at hnd
      have htb : t ∉ b := fun hc => (List.nodup_cons.1 (List.nodup_append.1 hnd).2.1).1 (List.mem_map_of_mem hc)
      have hta : t ∉ a := fun hc => (List.nodup_append.1 hnd).2.2 t.path (List.mem_map_of_mem hc) t.path List.mem_cons_self rfl
      obtain ⟨q1, q2⟩ := (parse_step hreg _).1 _ _ _ _ td tp g1
      have hrec := fun ts'' (hsub' : ts''.Sublist b) hw' => ih (a ++ [t]) (by rw [hab]; simp) ts'' hsub' hw' s1 bs' s' (by
          intro x hx
          rcases List.mem_append.1 hx with hx | hx
          · exact q1.mono _ (ha x hx)
          · rw [List.mem_singleton.1 hx]; exact q2) (by
          intro x hx hxs u hu
          by_cases hxs' : x.path ∈ s
          · exact q1.mono _ (hin x hx hxs' u hu)
          · exact q1.inside x hx hxs hxs' u hu) (by
          intro x hx hxs
          rcases q1.from' x hx hxs with h | h | h
          · rcases hfr x hx h with h | h
            · exact .inl (List.mem_append_left _ h)
            · exact .inr h
          · exact .inl (by rw [h]; simp)
          · exact .inr h) g2
      by_cases hown : ∀ s ∈ docTables doc.root, ¬ InCell s t
      · -- the table is met here
        have hs : t.path ∉ s := by
          intro hc
          rcases hfr t htm hc with h | ⟨x, hx, h⟩
          · exact hta h
          · exact hown x hx h
        have hr : ∃ id rows, r = [.table t.path id rows] := by
          unfold docFuel at g1
          rw [parseTable, if_pos tt, if_neg hs] at g1
          obtain ⟨g, -, g1⟩ := except_bind_ok g1
          obtain ⟨⟨rows, s3⟩, -, g1⟩ := except_bind_ok g1
          cases g1
          exact ⟨_, _, rfl⟩
        obtain ⟨id, rows, rfl⟩ := hr
        have hmem := (hw t List.mem_cons_self).2 hown
        cases hsub with
        | cons _ hsub => exact absurd (hsub.subset hmem) htb
        | @cons_cons ts'' _ _ hsub =>
          rw [List.flatten_cons, List.map_append, List.map_cons (l := ts''), hrec ts'' hsub fun x hx => ?_]
          · rfl
          · rw [← hw x (List.mem_cons_of_mem _ hx), List.mem_cons]
            exact ⟨.inr, fun h => h.resolve_left fun e => htb (e ▸ hx)⟩
      · -- the table has been met
        have hs : t.path ∈ s := by
          simp only [not_forall, Classical.not_not] at hown
          obtain ⟨x, hx, hi⟩ := hown
          have hxa := docTables_order hab hx hi.path.1 hi.path.2
          exact hin x hx (ha x hxa) t hi
        have hr : r = [] := by
          unfold docFuel at g1
          rw [parseTable, if_pos tt, if_pos hs] at g1
          cases g1; rfl
        subst hr
        have hmem : t ∉ ts' := fun hc => hown ((hw t List.mem_cons_self).1 hc)
        cases hsub with
        | cons _ hsub =>
          rw [List.flatten_cons, List.nil_append, hrec ts' hsub fun x hx => hw x (List.mem_cons_of_mem _ hx)]
        | cons_cons _ hsub => exact absurd List.mem_cons_self hmem
  exact gen _ [] rfl ts hts.order hts.which [] uss s (fun t ht => by cases ht) (fun t _ ht => by cases ht) (fun t _ ht => by cases ht) h1

end

end Spex
