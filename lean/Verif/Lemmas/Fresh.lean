import Verif.Lemmas.Word
import Verif.Props.WordTables
import Verif.Props.Lists
/-
The tables which have been met while a Word document is parsed: with a table all tables around it.
-/
set_option autoImplicit false
namespace Spex

/-! ### The order of the tables of a document -/

mutual
theorem descendants_order {t : Str} {path : List Nat} : (n : Node) →
    (descendants t path n).Pairwise (fun a b => ¬ b.path <+: a.path)
  | .text s => by rw [descendants]; exact .nil
  | .elem tg as ks => by rw [descendants]; exact descendantsKids_order ks
theorem descendantsKids_order {t : Str} {path : List Nat} {i : Nat} : (ks : List Node) →
    (descendantsKids t path i ks).Pairwise (fun a b => ¬ b.path <+: a.path)
  | [] => by rw [descendantsKids]; exact .nil
  | k :: ks => by
    have hone : ∀ a ∈ (if k.hasTag t then [(⟨path ++ [i], k⟩ : LNode)] else []), a.path = path ++ [i] := by
      intro a ha
      by_cases hk : k.hasTag t = true
      · rw [if_pos hk] at ha
        rw [List.mem_singleton.1 ha]
      · rw [if_neg hk] at ha; cases ha
    rw [descendantsKids, List.pairwise_append, List.pairwise_append]
    refine ⟨⟨?_, descendants_order k, ?_⟩, descendantsKids_order ks, ?_⟩
    · split
      · exact List.pairwise_singleton _ _
      · exact .nil
    · intro a ha b hb h
      obtain ⟨j, p, h1, -⟩ := (mem_descendants k).1 hb
      have := h.length_le
      rw [hone a ha, h1] at this
      simp at this
    · intro a ha b hb h
      obtain ⟨j, p, k', h1, -⟩ := (mem_descendantsKids ks).1 hb
      have hpa : ∃ p', a.path = path ++ i :: p' := by
        rcases List.mem_append.1 ha with ha | ha
        · exact ⟨[], hone a ha⟩
        · obtain ⟨j', p', h2, -⟩ := (mem_descendants k).1 ha
          exact ⟨j' :: p', by rw [h2]; simp⟩
      obtain ⟨p', h2⟩ := hpa
      rw [h1, h2, List.prefix_append_right_inj, List.cons_prefix_cons] at h
      omega
end

/-- a table around another one comes first -/
theorem docTables_order {root : Node} {a b : List LNode} {t t' : LNode} (h : docTables root = a ++ t :: b) (ht : t' ∈ docTables root)
    (hp : t'.path <+: t.path) (hne : t'.path ≠ t.path) : t' ∈ a := by
  have ho : (docTables root).Pairwise (fun a b => ¬ b.path <+: a.path) := descendants_order root
  rw [h] at ht ho
  rcases List.mem_append.1 ht with ht | ht
  · exact ht
  · rcases List.mem_cons.1 ht with rfl | ht
    · exact absurd rfl hne
    · exact absurd hp (List.rel_of_pairwise_cons (List.pairwise_append.1 ho).2.1 ht)

/-! ### The tables met -/

/-- with a table all tables around it have been met -/
def Closed (doc : WordDoc) (s : Seen) : Prop := ∀ t ∈ docTables doc.root, ∀ p ∈ s, t.path <+: p → t.path ∈ s

/-- all tables around this place have been met -/
def Above (doc : WordDoc) (s : Seen) (q : List Nat) : Prop := ∀ t ∈ docTables doc.root, t.path <+: q → t.path ≠ q → t.path ∈ s

theorem Above.mono {doc : WordDoc} {s s' : Seen} {q : List Nat} (h : Above doc s q) (hs : ∀ p ∈ s, p ∈ s') : Above doc s' q :=
  fun t ht h1 h2 => hs _ (h t ht h1 h2)

/-- nothing in a table which has not been met has been met -/
theorem Closed.fresh {doc : WordDoc} {s : Seen} (h : Closed doc s) {t : LNode} (ht : t ∈ docTables doc.root) (hs : t.path ∉ s) :
    ∀ p ∈ s, ¬ t.path <+: p := fun p hp hpre => hs (h t ht p hp hpre)

theorem Closed.cons {doc : WordDoc} {s : Seen} (h : Closed doc s) {q : List Nat} (ha : Above doc s q) : Closed doc (q :: s) := by
  intro t ht p hp hpre
  rcases List.mem_cons.1 hp with rfl | hp
  · by_cases he : t.path = p
    · rw [he]; exact List.mem_cons_self
    · exact List.mem_cons_of_mem _ (ha t ht hpre he)
  · exact List.mem_cons_of_mem _ (h t ht p hp hpre)

theorem InDoc.unique {root : Node} {a b : LNode} (ha : InDoc root a) (hb : InDoc root b) (h : a.path = b.path) : a = b := by
  unfold InDoc at ha hb
  cases a; cases b
  simp only at h
  subst h
  simp only at ha hb
  rw [ha] at hb
  cases hb
  rfl

theorem prefix_snoc {α : Type} {p q : List α} {x : α} (h : p <+: q ++ [x]) : p = q ++ [x] ∨ p <+: q := by
  rcases List.prefix_concat_iff.1 h with h | h
  · exact .inl h
  · exact .inr h

/-- the tables around the content of a cell: those around its table, and this table -/
theorem Above.cell {doc : WordDoc} {s : Seen} {tbl tr tc c : LNode} (h : Above doc s tbl.path) (ht : tbl.path ∈ s) (hd : InDoc doc.root tbl)
    (htr : tr ∈ tbl.childs wTr) (htc : tc ∈ tr.childs wTc) (hc : c ∈ tc.children) : Above doc s c.path := by
  intro t htt hp hne
  obtain ⟨j1, h1, -⟩ := children_path (mem_childs htr).1
  obtain ⟨j2, h2, -⟩ := children_path (mem_childs htc).1
  obtain ⟨j3, h3, -⟩ := children_path hc
  have d1 := hd.child (mem_childs htr).1
  have d2 := d1.child (mem_childs htc).1
  obtain ⟨dt, -, tg⟩ := mem_docTables.1 htt
  have tags : ∀ {n : Node} {a b : Str}, n.hasTag a = true → n.hasTag b = true → a = b := by
    intro n a b ha hb
    cases n with
    | text s => cases ha
    | elem t as ks =>
      simp only [Node.hasTag, beq_iff_eq] at ha hb
      rw [← ha, ← hb]
  rw [h3] at hp hne
  rcases prefix_snoc hp with e | hp
  · exact absurd e hne
  · rw [h2] at hp
    rcases prefix_snoc hp with e | hp
    · rw [← h2] at e
      have := dt.unique d2 e
      rw [this] at tg
      exact absurd (tags tg (mem_childs htc).2) (by decide)
    · rw [h1] at hp
      rcases prefix_snoc hp with e | hp
      · rw [← h1] at e
        have := dt.unique d1 e
        rw [this] at tg
        exact absurd (tags tg (mem_childs htr).2) (by decide)
      · by_cases he : t.path = tbl.path
        · rw [he]; exact ht
        · exact h t htt hp he

theorem mapSt_inv {α β σ : Type} {f : α → σ → Except Exn (β × σ)} {I : σ → Prop} {P : β → Prop} {as : List α}
    (hf : ∀ a ∈ as, ∀ s b s', I s → f a s = .ok (b, s') → I s' ∧ P b) : ∀ {s : σ} {bs : List β} {s' : σ}, I s →
    mapSt f as s = .ok (bs, s') → I s' ∧ ∀ b ∈ bs, P b := by
  induction as with
  | nil => intro s bs s' hi h; rw [mapSt] at h; cases h; exact ⟨hi, fun b hb => by cases hb⟩
  | cons a as ih =>
    intro s bs s' hi h
    obtain ⟨b, s1, bs', s2, h1, h2, h3⟩ := mapSt_cons h
    cases h3
    obtain ⟨i1, p1⟩ := hf a List.mem_cons_self _ _ _ hi h1
    obtain ⟨i2, p2⟩ := ih (fun a ha => hf a (List.mem_cons_of_mem _ ha)) i1 h2
    refine ⟨i2, fun c hc => ?_⟩
    rcases List.mem_cons.1 hc with rfl | hc
    · exact p1
    · exact p2 c hc

section
variable [Uni]

omit [Uni] in
theorem mapSt_seen {α β : Type} {f : α → Seen → Except Exn (β × Seen)} {P : List Nat → Prop} {as : List α}
    (hf : ∀ a ∈ as, ∀ s b s', f a s = .ok (b, s') → ∀ p ∈ s', p ∈ s ∨ P p) : ∀ {s : Seen} {bs : List β} {s' : Seen},
    mapSt f as s = .ok (bs, s') → ∀ p ∈ s', p ∈ s ∨ P p := by
  induction as with
  | nil => intro s bs s' h; rw [mapSt] at h; cases h; exact fun p hp => .inl hp
  | cons a as ih =>
    intro s bs s' h p hp
    obtain ⟨b, s1, bs', s2, h1, h2, h3⟩ := mapSt_cons h
    cases h3
    rcases ih (fun a ha => hf a (List.mem_cons_of_mem _ ha)) h2 p hp with h | h
    · exact hf a List.mem_cons_self _ _ _ h1 p h
    · exact .inr h

/-- the tables met by the parser are below the ones it was called with -/
theorem parse_seen {doc : WordDoc} (n : Nat) :
    (∀ tbl seen us seen', parseTable doc n tbl seen = .ok (us, seen') → ∀ p ∈ seen', p ∈ seen ∨ tbl.path <+: p) ∧
    (∀ stream seen us seen', parseAny doc n stream seen = .ok (us, seen') → ∀ p ∈ seen', p ∈ seen ∨ ∃ c ∈ stream, c.path <+: p) := by
  induction n with
  | zero =>
    refine ⟨fun tbl seen us seen' h => ?_, fun s seen us seen' h => ?_⟩
    · rw [parseTable] at h; cases h
    · rw [parseAny] at h; cases h
  | succ n ih =>
    refine ⟨?_, ?_⟩
    · intro tbl seen us seen' h
      rw [parseTable] at h
      by_cases ht : tbl.node.hasTag wTbl = true
      · rw [if_pos ht] at h
        by_cases hs : tbl.path ∈ seen
        · rw [if_pos hs] at h; cases h; exact fun p hp => .inl hp
        · rw [if_neg hs] at h
          obtain ⟨g, h1, h⟩ := except_bind_ok h
          obtain ⟨⟨rows, s2⟩, h2, h⟩ := except_bind_ok h
          cases h
          obtain ⟨hcells, -⟩ := grid_cells_origin h1
          have := mapSt_seen (P := fun p => tbl.path <+: p) (as := g.matrix) ?_ h2
          · intro p hp
            rcases this p hp with h | h
            · rcases List.mem_cons.1 h with rfl | h
              · exact .inr (List.prefix_refl _)
              · exact .inl h
            · exact .inr h
          · intro row _ s cells s' hrow
            refine mapSt_seen (P := fun p => tbl.path <+: p) (as := row) ?_ hrow
            intro k _ s b s' hk p hp
            unfold parseSlot at hk
            cases he : g.els[k]? with
            | none => rw [he] at hk; cases hk
            | some e =>
              rw [he] at hk
              obtain ⟨⟨us, s1⟩, h4, hk⟩ := except_bind_ok hk
              cases hk
              rcases ih.2 _ _ _ _ h4 p hp with h | ⟨c, hc, h⟩
              · exact .inl h
              · right
                obtain ⟨tr, htr, htc⟩ := hcells e (List.mem_of_getElem? he)
                obtain ⟨j1, hj1, -⟩ := children_path (mem_childs htr).1
                obtain ⟨j2, hj2, -⟩ := children_path (mem_childs htc).1
                obtain ⟨j3, hj3, -⟩ := children_path hc
                refine List.IsPrefix.trans ?_ h
                rw [hj3, hj2, hj1]
                exact ⟨[j1] ++ [j2] ++ [j3], by simp⟩
      · rw [if_neg ht] at h; cases h
    · intro stream seen us seen' h
      cases stream with
      | nil => rw [parseAny] at h; cases h; exact fun p hp => .inl hp
      | cons c rest =>
        have lift : ∀ {s : Seen} {rest' : List LNode} {p : List Nat}, (∀ d ∈ rest', d ∈ rest) → (p ∈ s ∨ ∃ d ∈ rest', d.path <+: p) →
            p ∈ s ∨ ∃ d ∈ c :: rest, d.path <+: p := by
          rintro s rest' p hr (h | ⟨d, h1, h2⟩)
          · exact .inl h
          · exact .inr ⟨d, List.mem_cons_of_mem _ (hr d h1), h2⟩
        rw [parseAny] at h
        by_cases ht : c.node.hasTag wTbl = true
        · rw [if_pos ht] at h
          obtain ⟨⟨t, s1⟩, h1, h⟩ := except_bind_ok h
          obtain ⟨⟨us', s2⟩, h2, h⟩ := except_bind_ok h
          cases h
          intro p hp
          rcases ih.2 _ _ _ _ h2 p hp with h | h
          · rcases ih.1 _ _ _ _ h1 p h with h | h
            · exact .inl h
            · exact .inr ⟨c, List.mem_cons_self, h⟩
          · exact lift (fun d hd => hd) (.inr h)
        · rw [if_neg ht] at h
          by_cases hp : c.node.hasTag wP = true
          · rw [if_pos hp] at h
            obtain ⟨isList, h1, h⟩ := except_bind_ok h
            cases isList with
            | true =>
              simp only [if_true] at h
              obtain ⟨⟨it, rest'⟩, h2, h⟩ := except_bind_ok h
              obtain ⟨⟨us', s2⟩, h3, h⟩ := except_bind_ok h
              obtain ⟨a, l, props, items, ps, g1, g2, -⟩ := (parseList_spec doc _).1 _ _ _ _ h2 h1
              simp only [g1] at h
              cases h
              intro p hp
              exact lift (fun d hd => by rw [g2]; exact List.mem_append_right _ hd) (ih.2 _ _ _ _ h3 p hp)
            | false =>
              simp only [Bool.false_eq_true, if_false] at h
              obtain ⟨ps, h2, h⟩ := except_bind_ok h
              obtain ⟨⟨us', s2⟩, h3, h⟩ := except_bind_ok h
              cases h
              intro p hp
              exact lift (fun d hd => hd) (ih.2 _ _ _ _ h3 p hp)
          · rw [if_neg hp] at h
            intro p hp
            exact lift (fun d hd => hd) (ih.2 _ _ _ _ h p hp)

end

end Spex
