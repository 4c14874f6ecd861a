import Verif.Lemmas.Word
import Verif.Props.WordTables
/-
C64: the conversion of a Word document terminates.
-/
set_option autoImplicit false
namespace Spex
variable [Uni]

/-- sizes of located elements, added up -/
def streamSize : List LNode → Nat
  | [] => 0
  | c :: cs => c.node.size + streamSize cs

omit [Uni] in
theorem streamSize_append (a b : List LNode) : streamSize (a ++ b) = streamSize a + streamSize b := by
  induction a with
  | nil => simp [streamSize]
  | cons c a ih => rw [List.cons_append, streamSize, streamSize, ih]; omega

omit [Uni] in
theorem streamSize_mem {c : LNode} {cs : List LNode} (h : c ∈ cs) : c.node.size ≤ streamSize cs := by
  induction cs with
  | nil => cases h
  | cons d cs ih =>
    rw [streamSize]
    rcases List.mem_cons.1 h with rfl | h
    · omega
    · have := ih h; omega

omit [Uni] in
theorem streamSize_kidsFrom (path : List Nat) (i : Nat) (ks : List Node) : streamSize (kidsFrom path i ks) ≤ Node.sizes ks := by
  induction ks generalizing i with
  | nil => simp [kidsFrom, streamSize, Node.sizes]
  | cons k ks ih =>
    rw [kidsFrom, Node.sizes]
    have := ih (i + 1)
    split
    · rw [streamSize]; simp only; omega
    · omega

omit [Uni] in
theorem streamSize_children (l : LNode) : streamSize l.children + 1 ≤ l.node.size := by
  unfold LNode.children
  have := streamSize_kidsFrom l.path 0 l.node.kids
  cases hn : l.node with
  | text s => simp [Node.kids, kidsFrom, streamSize, Node.size]
  | elem t as ks =>
    rw [hn] at this
    simp only [Node.kids] at this ⊢
    rw [Node.size]; omega

omit [Uni] in
theorem mapSt_congr {α β σ : Type} {f g : α → σ → Except Exn (β × σ)} {as : List α} (h : ∀ a ∈ as, ∀ s, f a s = g a s) :
    ∀ s, mapSt f as s = mapSt g as s := by
  induction as with
  | nil => intro s; rfl
  | cons a as ih =>
    intro s
    rw [mapSt, mapSt, h a List.mem_cons_self s]
    congr 1
    funext r
    rw [ih (fun a ha => h a (List.mem_cons_of_mem _ ha))]

omit [Uni] in
theorem except_bind_congr {α β : Type} {x : Except Exn α} {f g : α → Except Exn β} (h : ∀ a, x = .ok a → f a = g a) :
    (x >>= f) = (x >>= g) := by
  cases x with
  | error e => rfl
  | ok a => exact h a rfl

/-- lists: one more step of fuel changes nothing -/
theorem parseListElems_fuel {doc : WordDoc} (L : Nat) : ∀ s : List LNode, s.length ≤ L → ∀ n, 3 * L + 2 ≤ n → ∀ a l,
    parseListElems doc (n + 1) a l s = parseListElems doc n a l s := by
  induction L with
  | zero =>
    intro s hs n hn a l
    have : s = [] := List.length_eq_zero_iff.1 (by omega)
    subst this
    obtain ⟨m, rfl⟩ : ∃ m, n = m + 1 := ⟨n - 1, by omega⟩
    rw [parseListElems, parseListElems]
  | succ L ih =>
    intro s hs n hn a l
    obtain ⟨m, rfl⟩ : ∃ m, n = m + 1 := ⟨n - 1, by omega⟩
    cases s with
    | nil => rw [parseListElems, parseListElems]
    | cons p s =>
      have hlen : s.length ≤ L := by simpa using hs
      rw [parseListElems, parseListElems]
      by_cases ht : p.node.hasTag wP = true
      rotate_left
      · rw [if_neg ht, if_neg ht]
      rw [if_pos ht, if_pos ht]
      refine except_bind_congr fun isList h1 => ?_
      cases isList with
      | false => rfl
      | true =>
        simp only [if_true]
        refine except_bind_congr fun st h2 => ?_
        by_cases ha : st.1 = a
        rotate_left
        · rw [if_neg ha, if_neg ha]
        rw [if_pos ha, if_pos ha]
        refine except_bind_congr fun lvl h3 => ?_
        by_cases hgt : l < lvl
        · rw [if_pos hgt, if_pos hgt]
          obtain ⟨k, rfl⟩ : ∃ k, m = k + 1 + 1 := ⟨m - 2, by omega⟩
          have hlist : parseList doc (k + 1 + 1 + 1) (p :: s) = parseList doc (k + 1 + 1) (p :: s) := by
            rw [parseList, parseList, if_pos ht, if_pos ht, h2]
            refine except_bind_congr fun st' e => ?_
            cases e
            rw [h3]
            refine except_bind_congr fun lvl' e => ?_
            cases e
            refine except_bind_congr fun props h4 => ?_
            have : parseListElems doc (k + 1 + 1) st.1 lvl (p :: s) = parseListElems doc (k + 1) st.1 lvl (p :: s) := by
              rw [parseListElems, parseListElems, if_pos ht, if_pos ht, h1]
              refine except_bind_congr fun isList e => ?_
              cases e
              simp only [if_true]
              rw [h2]
              refine except_bind_congr fun st' e => ?_
              cases e
              simp only [if_true]
              rw [h3]
              refine except_bind_congr fun lvl' e => ?_
              cases e
              simp only [Int.lt_irrefl, if_false]
              refine except_bind_congr fun spans h5 => ?_
              rw [ih s hlen k (by omega)]
            rw [this]
          rw [hlist]
          refine except_bind_congr fun r h4 => ?_
          obtain ⟨_, _, _, _, ps, _, e, _⟩ := (parseList_spec doc _).1 _ _ r.1 r.2 h4 h1
          rw [ih r.2 (by rw [e, List.length_append] at hlen; omega) (k + 1 + 1) (by omega)]
        · rw [if_neg hgt, if_neg hgt]
          by_cases hlt : lvl < l
          · rw [if_pos hlt, if_pos hlt]
          · rw [if_neg hlt, if_neg hlt]
            refine except_bind_congr fun spans h5 => ?_
            rw [ih s hlen m (by omega)]

/-- C64: a list of any length and nesting is parsed within the steps provided: more of them change nothing. -/
theorem C64_list_terminates (doc : WordDoc) (stream : List LNode) (n : Nat) (h : listFuel stream ≤ n) :
    parseList doc n stream = parseList doc (listFuel stream) stream := by
  induction n with
  | zero => unfold listFuel at h; omega
  | succ n ih =>
    rcases Nat.eq_or_lt_of_le h with h | h
    · rw [h]
    · rw [← ih (by omega)]
      unfold listFuel at h
      obtain ⟨m, rfl⟩ : ∃ m, n = m + 1 := ⟨n - 1, by omega⟩
      cases stream with
      | nil => rw [parseList, parseList]
      | cons p s =>
        rw [parseList, parseList]
        by_cases ht : p.node.hasTag wP = true
        · rw [if_pos ht, if_pos ht]
          refine except_bind_congr fun st h2 => ?_
          refine except_bind_congr fun lvl h3 => ?_
          refine except_bind_congr fun props h4 => ?_
          rw [parseListElems_fuel _ (p :: s) (Nat.le_refl _) m (by omega)]
        · rw [if_neg ht, if_neg ht]

/-- tables: one more step of fuel changes nothing -/
theorem parse_fuel {doc : WordDoc} (n : Nat) :
    (∀ tbl seen, 2 * tbl.node.size ≤ n → parseTable doc (n + 1) tbl seen = parseTable doc n tbl seen) ∧
    (∀ stream seen, 2 * streamSize stream + 1 ≤ n → parseAny doc (n + 1) stream seen = parseAny doc n stream seen) := by
  induction n with
  | zero =>
    refine ⟨fun tbl seen h => ?_, fun stream seen h => by omega⟩
    have := streamSize_children tbl
    omega
  | succ n ih =>
    refine ⟨?_, ?_⟩
    · intro tbl seen h
      rw [parseTable, parseTable]
      by_cases ht : tbl.node.hasTag wTbl = true
      rotate_left
      · rw [if_neg ht, if_neg ht]
      rw [if_pos ht, if_pos ht]
      by_cases hs : tbl.path ∈ seen
      · rw [if_pos hs, if_pos hs]
      rw [if_neg hs, if_neg hs]
      refine except_bind_congr fun g hg => ?_
      have : ∀ s, mapSt (mapSt (parseSlot (parseAny doc (n + 1)) g.els)) g.matrix s =
          mapSt (mapSt (parseSlot (parseAny doc n) g.els)) g.matrix s := by
        refine mapSt_congr fun row _ => mapSt_congr fun k _ s => ?_
        unfold parseSlot
        cases hk : g.els[k]? with
        | none => rfl
        | some e =>
          obtain ⟨tr, htr, htc⟩ := (grid_cells_origin hg).1 e (List.mem_iff_getElem?.2 ⟨k, hk⟩)
          have h1 := streamSize_children tbl
          have h2 := streamSize_mem (mem_childs htr).1
          have h3 := streamSize_children tr
          have h4 := streamSize_mem (mem_childs htc).1
          have h5 := streamSize_children e.cell
          simp only
          rw [ih.2 _ s (by omega)]
      rw [this]
    · intro stream seen h
      cases stream with
      | nil => rw [parseAny, parseAny]
      | cons c rest =>
        rw [streamSize] at h
        have hc := streamSize_children c
        rw [parseAny, parseAny]
        by_cases ht : c.node.hasTag wTbl = true
        · rw [if_pos ht, if_pos ht, ih.1 c seen (by omega)]
          refine except_bind_congr fun t _ => ?_
          rw [ih.2 rest t.2 (by omega)]
        rw [if_neg ht, if_neg ht]
        by_cases hp : c.node.hasTag wP = true
        · rw [if_pos hp, if_pos hp]
          refine except_bind_congr fun isList h1 => ?_
          cases isList with
          | true =>
            simp only [if_true]
            refine except_bind_congr fun l h2 => ?_
            obtain ⟨_, _, _, _, ps, _, e, _⟩ := (parseList_spec doc _).1 _ _ l.1 l.2 h2 h1
            rw [e, streamSize_append] at h
            rw [ih.2 l.2 seen (by omega)]
          | false =>
            simp only [Bool.false_eq_true, if_false]
            refine except_bind_congr fun ps _ => ?_
            rw [ih.2 rest seen (by omega)]
        · rw [if_neg hp, if_neg hp, ih.2 rest seen (by omega)]

mutual
theorem descendants_size {t : Str} {path : List Nat} {c : LNode} : (n : Node) → c ∈ descendants t path n → c.node.size ≤ n.size
  | .text s, h => by simp [descendants] at h
  | .elem tg as ks, h => by
    rw [descendants] at h
    rw [Node.size]
    have := descendantsKids_size ks h
    omega
theorem descendantsKids_size {t : Str} {path : List Nat} {i : Nat} {c : LNode} : (ks : List Node) →
    c ∈ descendantsKids t path i ks → c.node.size ≤ Node.sizes ks
  | [], h => by simp [descendantsKids] at h
  | k :: ks, h => by
    rw [descendantsKids, List.mem_append, List.mem_append] at h
    rw [Node.sizes]
    rcases h with (h | h) | h
    · split at h
      · rw [List.mem_singleton] at h
        subst h
        simp only; omega
      · cases h
    · have := descendants_size k h; omega
    · have := descendantsKids_size ks h; omega
end

/-- C64: a document of any size and nesting is parsed within the steps provided: more of them change nothing. -/
theorem C64_document_terminates (doc : WordDoc) (n : Nat) (h : docFuel doc.root ≤ n) :
    mapSt (parseTable doc n) (docTables doc.root) [] = mapSt (parseTable doc (docFuel doc.root)) (docTables doc.root) [] := by
  refine mapSt_congr (fun tbl htbl s => ?_) []
  have hsize := descendants_size doc.root htbl
  induction n with
  | zero => unfold docFuel at h; omega
  | succ n ih =>
    rcases Nat.eq_or_lt_of_le h with h | h
    · rw [h]
    · rw [← ih (by omega)]
      unfold docFuel at h
      exact (parse_fuel n).1 tbl s (by omega)

example : docFuel exTablesDoc.root = 110 ∧ listFuel exStream = 18 := by decide +kernel

end Spex
