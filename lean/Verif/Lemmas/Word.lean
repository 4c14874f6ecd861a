import Verif.Model.WordParse
import Mathlib.Data.List.Basic
import Mathlib.Data.List.Nodup
/-
Lemmas about places in a document.
-/
set_option autoImplicit false
namespace Spex

/-- the node at a place -/
def nodeAt : Node → List Nat → Option Node
  | n, [] => some n
  | n, i :: p => n.kids[i]?.bind (fun k => nodeAt k p)

/-- the located element is part of the document -/
def InDoc (root : Node) (l : LNode) : Prop := nodeAt root l.path = some l.node

theorem nodeAt_snoc (n : Node) (p : List Nat) (i : Nat) : nodeAt n (p ++ [i]) = (nodeAt n p).bind (fun m => m.kids[i]?) := by
  induction p generalizing n with
  | nil =>
    simp only [List.nil_append, nodeAt, Option.bind_some]
    cases n.kids[i]? <;> rfl
  | cons j p ih =>
    simp only [List.cons_append, nodeAt]
    cases n.kids[j]? with
    | none => rfl
    | some k => simp only [Option.bind_some, ih]

theorem mem_kidsFrom {path : List Nat} {ks : List Node} {i : Nat} {c : LNode} :
    c ∈ kidsFrom path i ks ↔ ∃ j, c.path = path ++ [i + j] ∧ ks[j]? = some c.node ∧ c.node.isElem = true := by
  induction ks generalizing i with
  | nil => simp [kidsFrom]
  | cons k ks ih =>
    rw [kidsFrom]
    have tail : c ∈ kidsFrom path (i + 1) ks ↔
        ∃ j, c.path = path ++ [i + (j + 1)] ∧ (k :: ks)[j + 1]? = some c.node ∧ c.node.isElem = true := by
      rw [ih]
      constructor
      · rintro ⟨j, h1, h2, h3⟩
        exact ⟨j, by rw [h1]; congr 2; omega, by simpa using h2, h3⟩
      · rintro ⟨j, h1, h2, h3⟩
        exact ⟨j, by rw [h1]; congr 2; omega, by simpa using h2, h3⟩
    constructor
    · intro h
      by_cases hk : k.isElem = true
      · rw [if_pos hk] at h
        rcases List.mem_cons.1 h with h | h
        · rw [h]; exact ⟨0, rfl, rfl, hk⟩
        · obtain ⟨j, h'⟩ := tail.1 h
          exact ⟨j + 1, h'⟩
      · rw [if_neg hk] at h
        obtain ⟨j, h'⟩ := tail.1 h
        exact ⟨j + 1, h'⟩
    · rintro ⟨j, h1, h2, h3⟩
      cases j with
      | zero =>
        simp only [List.getElem?_cons_zero, Option.some.injEq] at h2
        rw [h2, if_pos h3]
        refine List.mem_cons.2 (.inl ?_)
        obtain ⟨cp, cn⟩ := c
        simp only at h1
        rw [h1]; rfl
      | succ j =>
        have : c ∈ kidsFrom path (i + 1) ks := tail.2 ⟨j, h1, h2, h3⟩
        split
        · exact List.mem_cons_of_mem _ this
        · exact this

theorem children_path {l c : LNode} (h : c ∈ l.children) :
    ∃ j, c.path = l.path ++ [j] ∧ l.node.kids[j]? = some c.node ∧ c.node.isElem = true := by
  obtain ⟨j, h1, h2, h3⟩ := mem_kidsFrom.1 h
  exact ⟨j, by rw [h1, Nat.zero_add], h2, h3⟩

theorem InDoc.child {root : Node} {l c : LNode} (h : InDoc root l) (hc : c ∈ l.children) : InDoc root c := by
  obtain ⟨j, h1, h2, h3⟩ := children_path hc
  unfold InDoc at *
  rw [h1, nodeAt_snoc, h]
  exact h2

theorem mem_childs {l c : LNode} {t : Str} (h : c ∈ l.childs t) : c ∈ l.children ∧ c.node.hasTag t = true := by
  unfold LNode.childs at h
  rw [List.mem_filter] at h
  exact h

theorem hasTag_isElem {n : Node} {t : Str} (h : n.hasTag t = true) : n.isElem = true := by
  cases n with
  | text s => cases h
  | elem => rfl

mutual
theorem mem_descendants {t : Str} {path : List Nat} {c : LNode} : (n : Node) →
    (c ∈ descendants t path n ↔ ∃ i p, c.path = path ++ i :: p ∧ nodeAt n (i :: p) = some c.node ∧ c.node.hasTag t = true)
  | .text s => by simp [descendants, nodeAt, Node.kids]
  | .elem tg as ks => by
    rw [descendants, mem_descendantsKids ks]
    constructor
    · rintro ⟨j, p, k, h1, h2, h3, h4⟩
      refine ⟨j, p, by rw [h1, Nat.zero_add], ?_, h4⟩
      simp only [nodeAt, Node.kids, h2, Option.bind_some, h3]
    · rintro ⟨i, p, h1, h2, h3⟩
      simp only [nodeAt, Node.kids] at h2
      cases hk : ks[i]? with
      | none => rw [hk] at h2; cases h2
      | some k =>
        rw [hk, Option.bind_some] at h2
        exact ⟨i, p, k, by rw [h1, Nat.zero_add], hk, h2, h3⟩
theorem mem_descendantsKids {t : Str} {path : List Nat} {i : Nat} {c : LNode} : (ks : List Node) →
    (c ∈ descendantsKids t path i ks ↔
      ∃ j p k, c.path = path ++ (i + j) :: p ∧ ks[j]? = some k ∧ nodeAt k p = some c.node ∧ c.node.hasTag t = true)
  | [] => by simp [descendantsKids]
  | k :: ks => by
    rw [descendantsKids, List.mem_append, List.mem_append, mem_descendants k, mem_descendantsKids ks]
    constructor
    · rintro ((h | h) | h)
      · by_cases hk : k.hasTag t = true
        · rw [if_pos hk] at h
          have := List.mem_singleton.1 h
          subst this
          exact ⟨0, [], k, rfl, rfl, rfl, hk⟩
        · rw [if_neg hk] at h; cases h
      · obtain ⟨j, p, h1, h2, h3⟩ := h
        exact ⟨0, j :: p, k, by rw [h1]; simp, rfl, h2, h3⟩
      · obtain ⟨j, p, k', h1, h2, h3⟩ := h
        exact ⟨j + 1, p, k', by rw [h1]; congr 2; omega, by simpa using h2, h3⟩
    · rintro ⟨j, p, k', h1, h2, h3, h4⟩
      cases j with
      | succ j => exact .inr ⟨j, p, k', by rw [h1]; congr 2; omega, by simpa using h2, h3, h4⟩
      | zero =>
        simp only [List.getElem?_cons_zero, Option.some.injEq] at h2
        subst h2
        left
        cases p with
        | nil =>
          left
          simp only [nodeAt, Option.some.injEq] at h3
          rw [h3, if_pos h4]
          obtain ⟨cp, cn⟩ := c
          simp only at h1
          rw [h1]
          exact List.mem_singleton.2 rfl
        | cons j p => exact .inr ⟨j, p, by rw [h1]; simp, h3, h4⟩
end

/-- the tables of a document are the elements with this tag below the root -/
theorem mem_docTables {root : Node} {c : LNode} :
    c ∈ docTables root ↔ InDoc root c ∧ c.path ≠ [] ∧ c.node.hasTag wTbl = true := by
  unfold docTables InDoc
  rw [mem_descendants]
  constructor
  · rintro ⟨i, p, h1, h2, h3⟩
    rw [List.nil_append] at h1
    rw [h1]
    exact ⟨h2, by simp, h3⟩
  · rintro ⟨h1, h2, h3⟩
    cases hp : c.path with
    | nil => exact absurd hp h2
    | cons i p => exact ⟨i, p, by simp, by rw [← hp]; exact h1, h3⟩

mutual
theorem descendants_nodup {t : Str} {path : List Nat} : (n : Node) → ((descendants t path n).map (·.path)).Nodup
  | .text s => by simp [descendants]
  | .elem tg as ks => by rw [descendants]; exact descendantsKids_nodup ks
theorem descendantsKids_nodup {t : Str} {path : List Nat} {i : Nat} : (ks : List Node) →
    ((descendantsKids t path i ks).map (·.path)).Nodup
  | [] => by simp [descendantsKids]
  | k :: ks => by
    rw [descendantsKids, List.map_append, List.map_append, List.nodup_append, List.nodup_append]
    refine ⟨⟨?_, descendants_nodup k, ?_⟩, descendantsKids_nodup ks, ?_⟩
    · split <;> simp
    · intro x hx y hy hxy
      obtain ⟨c, hc, rfl⟩ := List.mem_map.1 hx
      obtain ⟨d, hd, rfl⟩ := List.mem_map.1 hy
      obtain ⟨j, p, h1, -⟩ := (mem_descendants k).1 hd
      by_cases hk : k.hasTag t = true
      · rw [if_pos hk] at hc
        have := List.mem_singleton.1 hc
        subst this
        rw [h1] at hxy
        have := congrArg List.length hxy
        simp at this
      · rw [if_neg hk] at hc; cases hc
    · intro x hx y hy hxy
      obtain ⟨d, hd, rfl⟩ := List.mem_map.1 hy
      obtain ⟨j, p, k', h1, -⟩ := (mem_descendantsKids ks).1 hd
      rw [← hxy] at h1
      rcases List.mem_append.1 hx with hx | hx
      · obtain ⟨c, hc, rfl⟩ := List.mem_map.1 hx
        by_cases hk : k.hasTag t = true
        · rw [if_pos hk] at hc
          have := List.mem_singleton.1 hc
          subst this
          simp at h1
          omega
        · rw [if_neg hk] at hc; cases hc
      · obtain ⟨c, hc, rfl⟩ := List.mem_map.1 hx
        obtain ⟨j', p', h2, -⟩ := (mem_descendants k).1 hc
        rw [h2] at h1
        simp at h1
        omega
end

theorem docTables_nodup (root : Node) : ((docTables root).map (·.path)).Nodup := descendants_nodup root

/-- the text before the first child element -/
theorem text?_ne_nil {n : Node} {s : Str} (h : n.text? = some s) : s ≠ [] := by
  unfold Node.text? at h
  split at h
  · cases h
  · rename_i s' hs
    cases h
    intro hc
    exact hs hc

end Spex
