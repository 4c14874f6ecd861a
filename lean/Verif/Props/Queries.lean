import Verif.Lemmas.Word
import Verif.Model.WordParse
/-
C92: which elements and attributes of a Word document count: those at the end of a path of names, in the order of the document.
-/
set_option autoImplicit false
namespace Spex

/-! ### Specification -/

/-- the element `m` is reached from `n` by the children at the positions `p`, whose names are `ts` -/
inductive Along : Node → List Nat → List Str → Node → Prop where
  | here (n : Node) : Along n [] [] n
  | step {tag t : Str} {attrs as : List (Str × Str)} {kids ks : List Node} {i : Nat} {p : List Nat} {ts : List Str} {m : Node}
      (kid : kids[i]? = some (.elem t as ks)) (rest : Along (.elem t as ks) p ts m) : Along (.elem tag attrs kids) (i :: p) (t :: ts) m

/-- the element at the first place begins before that at the second one in the text of the document -/
inductive Earlier : List Nat → List Nat → Prop where
  | outer (i : Nat) (q : List Nat) : Earlier [] (i :: q)
  | less {i j : Nat} (h : i < j) (p q : List Nat) : Earlier (i :: p) (j :: q)
  | same (i : Nat) {p q : List Nat} (h : Earlier p q) : Earlier (i :: p) (i :: q)

/-- the element has the attribute with this value -/
def Carries (m : Node) (a v : Str) : Prop := ∃ t as ks, m = .elem t as ks ∧ as.lookup a = some v

/-! ### Proofs -/

theorem carries_iff (m : Node) (a v : Str) : m.attr? a = some v ↔ Carries m a v := by
  cases m with
  | text s => exact ⟨fun h => (by cases h), fun ⟨_, _, _, h, _⟩ => (by cases h)⟩
  | elem t as ks => exact ⟨fun h => ⟨t, as, ks, rfl, h⟩, fun ⟨_, _, _, h, h'⟩ => by cases h; exact h'⟩

theorem kids_places (t : Str) (ts : List Str)
    (ih : ∀ n : Node, ∃ L : List (List Nat × Node), L.map (·.2) = n.steps ts ∧ L.Pairwise (fun a b => Earlier a.1 b.1) ∧
      ∀ p m, (p, m) ∈ L ↔ Along n p ts m) (ks : List Node) (i : Nat) :
    ∃ L : List (List Nat × Node), L.map (·.2) = (ks.filter (Node.hasTag t)).flatMap (Node.steps ts) ∧
      L.Pairwise (fun a b => Earlier a.1 b.1) ∧
      ∀ p m, (p, m) ∈ L ↔ ∃ j q as kk, p = (i + j) :: q ∧ ks[j]? = some (.elem t as kk) ∧ Along (.elem t as kk) q ts m := by
  induction ks generalizing i with
  | nil => exact ⟨[], rfl, .nil, fun p m => ⟨fun h => (by cases h), fun ⟨_, _, _, _, _, h, _⟩ => (by simp at h)⟩⟩
  | cons k ks ihk =>
    obtain ⟨L, h1, h2, h3⟩ := ihk (i + 1)
    have later : ∀ p m, (p, m) ∈ L ↔
        ∃ j q as kk, p = (i + (j + 1)) :: q ∧ (k :: ks)[j + 1]? = some (.elem t as kk) ∧ Along (.elem t as kk) q ts m := by
      intro p m
      rw [h3]
      constructor <;> rintro ⟨j, q, as, kk, e, h, h'⟩ <;> exact ⟨j, q, as, kk, by rw [e]; congr 1; omega, by simpa using h, h'⟩
    by_cases hk : k.hasTag t = true
    · obtain ⟨K, g1, g2, g3⟩ := ih k
      obtain ⟨as, kk, rfl⟩ : ∃ as kk, k = .elem t as kk := by
        cases k with
        | text s => cases hk
        | elem t' as kk => simp only [Node.hasTag, beq_iff_eq] at hk; subst hk; exact ⟨as, kk, rfl⟩
      refine ⟨K.map (fun e => (i :: e.1, e.2)) ++ L, ?_, ?_, ?_⟩
      · rw [List.filter_cons_of_pos hk, List.flatMap_cons, List.map_append, h1, List.map_map, ← g1]; rfl
      · rw [List.pairwise_append, List.pairwise_map]
        refine ⟨g2.imp fun h => .same i h, h2, ?_⟩
        intro a ha b hb
        obtain ⟨e, -, rfl⟩ := List.mem_map.1 ha
        obtain ⟨j, q, _, _, h, -⟩ := (h3 b.1 b.2).1 hb
        rw [h]
        exact .less (by omega) _ _
      · intro p m
        rw [List.mem_append, later]
        constructor
        · rintro (h | ⟨j, q, r⟩)
          · obtain ⟨⟨q, m'⟩, hK, e⟩ := List.mem_map.1 h
            cases e
            exact ⟨0, q, as, kk, rfl, rfl, (g3 q m').1 hK⟩
          · exact ⟨j + 1, q, r⟩
        · rintro ⟨j, q, as', kk', e, h, h'⟩
          cases j with
          | zero => cases h; subst e; exact .inl (List.mem_map.2 ⟨(q, m), (g3 q m).2 h', rfl⟩)
          | succ j => exact .inr ⟨j, q, as', kk', e, h, h'⟩
    · refine ⟨L, by rw [List.filter_cons_of_neg hk, h1], h2, ?_⟩
      intro p m
      rw [later]
      constructor
      · rintro ⟨j, q, r⟩; exact ⟨j + 1, q, r⟩
      · rintro ⟨j, q, as, kk, e, h, h'⟩
        cases j with
        | zero => cases h; exact absurd (by simp [Node.hasTag]) hk
        | succ j => exact ⟨j, q, as, kk, e, h, h'⟩

theorem steps_places (ts : List Str) (n : Node) : ∃ L : List (List Nat × Node), L.map (·.2) = n.steps ts ∧
    L.Pairwise (fun a b => Earlier a.1 b.1) ∧ ∀ p m, (p, m) ∈ L ↔ Along n p ts m := by
  induction ts generalizing n with
  | nil =>
    refine ⟨[([], n)], rfl, List.pairwise_singleton _ _, fun p m => ?_⟩
    rw [List.mem_singleton]
    exact ⟨fun h => by cases h; exact .here n, fun h => by cases h; rfl⟩
  | cons t ts ih =>
    obtain ⟨L, h1, h2, h3⟩ := kids_places t ts ih n.kids 0
    refine ⟨L, h1, h2, fun p m => ?_⟩
    rw [h3]
    constructor
    · rintro ⟨j, q, as, kk, rfl, h, h'⟩
      cases n with
      | text s => simp [Node.kids] at h
      | elem tag attrs kids => rw [Nat.zero_add]; exact .step h h'
    · intro h
      cases h with
      | step kid rest => exact ⟨_, _, _, _, by rw [Nat.zero_add], kid, rest⟩

theorem earlier_irrefl {p : List Nat} : ¬ Earlier p p := by
  induction p with
  | nil => intro h; cases h
  | cons i p ih =>
    intro h
    cases h with
    | less h => omega
    | same _ h => exact ih h

theorem earlier_asymm {p q : List Nat} (h : Earlier p q) : ¬ Earlier q p := by
  induction h with
  | outer => intro h; cases h
  | less h =>
    intro h'
    cases h' with
    | less h' => omega
    | same => omega
  | same i h ih =>
    intro h'
    cases h' with
    | less h' => omega
    | same _ h' => exact ih h'

/-- the first of the places which has some property -/
theorem findSome_places {α : Type} (f : Node → Option α) (L : List (List Nat × Node)) (h : L.Pairwise (fun a b => Earlier a.1 b.1)) (v : α) :
    (L.map (·.2)).findSome? f = some v ↔
      ∃ p m, (p, m) ∈ L ∧ f m = some v ∧ ∀ q m', (q, m') ∈ L → Earlier q p → f m' = none := by
  induction L with
  | nil => exact ⟨fun h => (by cases h), fun ⟨_, _, h, _⟩ => (by cases h)⟩
  | cons e L ih =>
    obtain ⟨pe, me⟩ := e
    rw [List.pairwise_cons] at h
    rw [List.map_cons, List.findSome?_cons]
    cases hf : f me with
    | some w =>
      simp only [Option.some.injEq]
      constructor
      · rintro rfl
        refine ⟨pe, me, List.mem_cons_self, hf, fun q m' hq he => ?_⟩
        rcases List.mem_cons.1 hq with hq | hq
        · cases hq; exact absurd he earlier_irrefl
        · exact absurd he (earlier_asymm (h.1 _ hq))
      · rintro ⟨p, m, hp, hv, hn⟩
        rcases List.mem_cons.1 hp with hp | hp
        · cases hp; rw [hf] at hv; exact Option.some.inj hv
        · rw [hn pe me List.mem_cons_self (h.1 _ hp)] at hf; cases hf
    | none =>
      simp only
      rw [ih h.2]
      constructor
      · rintro ⟨p, m, hp, hv, hn⟩
        refine ⟨p, m, List.mem_cons_of_mem _ hp, hv, fun q m' hq he => ?_⟩
        rcases List.mem_cons.1 hq with hq | hq
        · cases hq; exact hf
        · exact hn q m' hq he
      · rintro ⟨p, m, hp, hv, hn⟩
        rcases List.mem_cons.1 hp with hp | hp
        · cases hp; rw [hf] at hv; cases hv
        · exact ⟨p, m, hp, hv, fun q m' hq he => hn q m' (List.mem_cons_of_mem _ hq) he⟩

/-! ### Property theorems -/

/-- C92: the value of a property (`./a/b/@c`) is that of the first element of the document which is reached by the names and has the
attribute; elements which lie deeper, have other names or lack the attribute do not count. -/
theorem C92_attribute (n : Node) (ts : List Str) (a v : Str) :
    n.attrFirst ts a = some v ↔
      ∃ p m, Along n p ts m ∧ Carries m a v ∧ ∀ q m', Along n q ts m' → Earlier q p → ¬ ∃ w, Carries m' a w := by
  obtain ⟨L, h1, h2, h3⟩ := steps_places ts n
  rw [Node.attrFirst, ← h1, findSome_places _ L h2]
  have hnone : ∀ m' : Node, m'.attr? a = none ↔ ¬ ∃ w, Carries m' a w := by
    intro m'
    cases hm : m'.attr? a with
    | none => exact ⟨fun _ ⟨w, hw⟩ => (by rw [(carries_iff _ _ _).2 hw] at hm; cases hm), fun _ => rfl⟩
    | some w => exact ⟨fun h => (by cases h), fun h => absurd ⟨w, (carries_iff _ _ _).1 hm⟩ h⟩
  constructor
  · rintro ⟨p, m, hp, hv, hn⟩
    exact ⟨p, m, (h3 p m).1 hp, (carries_iff _ _ _).1 hv, fun q m' hq he => (hnone m').1 (hn q m' ((h3 q m').2 hq) he)⟩
  · rintro ⟨p, m, hp, hv, hn⟩
    exact ⟨p, m, (h3 p m).2 hp, (carries_iff _ _ _).2 hv, fun q m' hq he => (hnone m').2 (hn q m' ((h3 q m').1 hq) he)⟩

/-- C92: the property counts as missing just if no element which is reached by the names has the attribute. -/
theorem C92_missing (n : Node) (ts : List Str) (a : Str) :
    n.attrFirst ts a = none ↔ ∀ p m v, Along n p ts m → ¬ Carries m a v := by
  obtain ⟨L, h1, h2, h3⟩ := steps_places ts n
  rw [Node.attrFirst, ← h1, List.findSome?_eq_none_iff]
  constructor
  · intro h p m v hp hv
    have := h m (List.mem_map.2 ⟨(p, m), (h3 p m).2 hp, rfl⟩)
    rw [(carries_iff _ _ _).2 hv] at this
    cases this
  · intro h m hm
    obtain ⟨⟨p, m'⟩, hp, rfl⟩ := List.mem_map.1 hm
    cases ha : m'.attr? a with
    | none => rfl
    | some v => exact absurd ((carries_iff _ _ _).1 ha) (h p m' v ((h3 p m').1 hp))

/-- C92: the element of a query (`./a/b`) is the first one of the document which is reached by the names. -/
theorem C92_element (n : Node) (ts : List Str) (m : Node) :
    n.first ts = some m ↔ ∃ p, Along n p ts m ∧ ∀ q m', Along n q ts m' → ¬ Earlier q p := by
  obtain ⟨L, h1, h2, h3⟩ := steps_places ts n
  have hh : n.first ts = (L.map (·.2)).findSome? some := by
    rw [Node.first, ← h1]
    cases L.map (·.2) <;> rfl
  rw [hh, findSome_places some L h2]
  constructor
  · rintro ⟨p, m', hp, hm, hn⟩
    cases hm
    exact ⟨p, (h3 p m).1 hp, fun q m' hq he => by have := hn q m' ((h3 q m').2 hq) he; cases this⟩
  · rintro ⟨p, hp, hn⟩
    exact ⟨p, m, (h3 p m).2 hp, rfl, fun q m' hq he => absurd he (hn q m' ((h3 q m').1 hq))⟩

theorem nodeAt_along {n m : Node} {p : List Nat} (h : nodeAt n p = some m) (hm : m.isElem = true) : ∃ ts, Along n p ts m := by
  induction p generalizing n with
  | nil => cases h; exact ⟨[], .here _⟩
  | cons i p ih =>
    rw [nodeAt] at h
    cases hk : n.kids[i]? with
    | none => rw [hk] at h; cases h
    | some k =>
      rw [hk, Option.bind_some] at h
      obtain ⟨ts, hts⟩ := ih h
      cases n with
      | text s => simp [Node.kids] at hk
      | elem tag attrs kids =>
        cases k with
        | text s =>
          cases p with
          | nil => cases h; cases hm
          | cons j p => simp [nodeAt, Node.kids] at h
        | elem t as ks => exact ⟨t :: ts, .step hk hts⟩

theorem along_nodeAt {n m : Node} {p : List Nat} {ts : List Str} (h : Along n p ts m) : nodeAt n p = some m := by
  induction h with
  | here n => rfl
  | step kid _ ih => rw [nodeAt, Node.kids, kid]; exact ih

theorem along_last {n m : Node} {p : List Nat} {ts : List Str} (h : Along n p ts m) (hp : p ≠ []) :
    ∃ ts' t, ts = ts' ++ [t] ∧ m.hasTag t = true := by
  induction h with
  | here n => exact absurd rfl hp
  | @step tag t attrs as kids ks i p ts m kid rest ih =>
    cases rest with
    | here n => exact ⟨[], t, rfl, by simp [Node.hasTag]⟩
    | step kid' rest' =>
      obtain ⟨ts', t', e, h⟩ := ih (by simp)
      exact ⟨t :: ts', t', by rw [e]; rfl, h⟩

theorem along_length {n m : Node} {p : List Nat} {ts : List Str} (h : Along n p ts m) : p.length = ts.length := by
  induction h with
  | here n => rfl
  | step _ _ ih => rw [List.length_cons, ih, List.length_cons]

theorem hasTag_unique {m : Node} {t t' : Str} (h : m.hasTag t = true) (h' : m.hasTag t' = true) : t = t' := by
  cases m with
  | text s => cases h
  | elem tag as ks =>
    simp only [Node.hasTag, beq_iff_eq] at h h'
    rw [← h, h']

theorem earlier_append (path : List Nat) {p q : List Nat} (h : Earlier p q) : Earlier (path ++ p) (path ++ q) := by
  induction path with
  | nil => exact h
  | cons i path ih => exact .same i ih

mutual
theorem descendants_earlier {t : Str} {path : List Nat} : (n : Node) →
    (descendants t path n).Pairwise (fun a b => Earlier a.path b.path)
  | .text s => by rw [descendants]; exact .nil
  | .elem tg as ks => by rw [descendants]; exact descendantsKids_earlier ks
theorem descendantsKids_earlier {t : Str} {path : List Nat} {i : Nat} : (ks : List Node) →
    (descendantsKids t path i ks).Pairwise (fun a b => Earlier a.path b.path)
  | [] => by rw [descendantsKids]; exact .nil
  | k :: ks => by
    have hone : ∀ a ∈ (if k.hasTag t then [(⟨path ++ [i], k⟩ : LNode)] else []), a.path = path ++ [i] := by
      intro a ha
      by_cases hk : k.hasTag t = true
      · rw [if_pos hk] at ha
        rw [List.mem_singleton.1 ha]
      · rw [if_neg hk] at ha; cases ha
    rw [descendantsKids, List.pairwise_append, List.pairwise_append]
    refine ⟨⟨?_, descendants_earlier k, ?_⟩, descendantsKids_earlier ks, ?_⟩
    · split
      · exact List.pairwise_singleton _ _
      · exact .nil
    · intro a ha b hb
      obtain ⟨j, p, h1, -⟩ := (mem_descendants k).1 hb
      rw [hone a ha, h1, List.append_assoc]
      exact earlier_append _ (.same i (.outer _ _))
    · intro a ha b hb
      obtain ⟨j, p, k', h1, -⟩ := (mem_descendantsKids ks).1 hb
      have hpa : ∃ p', a.path = path ++ i :: p' := by
        rcases List.mem_append.1 ha with ha | ha
        · exact ⟨[], hone a ha⟩
        · obtain ⟨j', p', h2, -⟩ := (mem_descendants k).1 ha
          exact ⟨j' :: p', by rw [h2]; simp⟩
      obtain ⟨p', h2⟩ := hpa
      rw [h1, h2]
      exact earlier_append _ (.less (by omega) _ _)
end

/-- C92: all elements with a name (`.//t`) are found, at any depth, each at its place. -/
theorem C92_descendants (n : Node) (t : Str) (p : List Nat) (m : Node) :
    (⟨p, m⟩ : LNode) ∈ descendants t [] n ↔ ∃ ts, Along n p (ts ++ [t]) m := by
  rw [mem_descendants]
  constructor
  · rintro ⟨i, q, h1, h2, h3⟩
    have h1 : p = i :: q := h1
    subst h1
    obtain ⟨ts, h⟩ := nodeAt_along h2 (hasTag_isElem h3)
    obtain ⟨ts', t', rfl, ht⟩ := along_last h (by simp)
    rw [hasTag_unique h3 ht]
    exact ⟨ts', h⟩
  · rintro ⟨ts, h⟩
    have hl := along_length h
    cases p with
    | nil => simp at hl
    | cons i q =>
      obtain ⟨ts', t', e, ht⟩ := along_last h (by simp)
      have : t = t' := by
        have := congrArg List.getLast? e
        simpa using this
      subst this
      exact ⟨i, q, rfl, along_nodeAt h, ht⟩

/-- C92: they are met in the order of the document, none twice. -/
theorem C92_order (n : Node) (t : Str) : (descendants t [] n).Pairwise (fun a b => Earlier a.path b.path) := descendants_earlier n

/-! ### Examples -/

/-- run properties in which the colour is given three times: deeper, without the value, and with it -/
def exTwice : Node := .elem wRPr [] [.elem c!"w:rPrChange" [] [.elem c!"w:color" [(aVal, c!"00FF00")] []], .text c!" ",
  .elem c!"w:color" [(c!"w:themeColor", c!"text1")] [], .elem c!"w:color" [(aVal, c!"FF0000")] [], .elem c!"w:color" [(aVal, c!"0000FF")] []]

example : exTwice.attrFirst [c!"w:color"] aVal = some c!"FF0000" := by decide +kernel
example : ∃ m, Along exTwice [3] [c!"w:color"] m ∧ Carries m aVal c!"FF0000" :=
  ⟨_, .step rfl (.here _), _, _, _, rfl, by decide +kernel⟩
example : Along exTwice [0, 0] [c!"w:rPrChange", c!"w:color"] (.elem c!"w:color" [(aVal, c!"00FF00")] []) := .step rfl (.step rfl (.here _))
example : (descendants c!"w:color" [] exTwice).map (·.path) = [[0, 0], [2], [3], [4]] := by decide +kernel
example : ∀ p m v, Along exTwice p [c!"w:sz"] m → ¬ Carries m aVal v := (C92_missing _ _ _).1 (by decide +kernel)

end Spex
