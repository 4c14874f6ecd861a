import Verif.Model.XmlRead
import Mathlib.Data.List.Infix
/-
An XML document which is cut somewhere and can still be read has the same root element.
-/
set_option autoImplicit false
namespace Spex

theorem eolNorm_part (p q : Str) : ∃ q', eolNorm (p ++ q) = eolNorm p ++ q' := by
  induction p using eolNorm.induct with
  | case1 => exact ⟨eolNorm q, rfl⟩
  | case2 s ih =>
    obtain ⟨q', h⟩ := ih
    exact ⟨q', by simp only [List.cons_append, eolNorm, h]⟩
  | case3 s hne ih =>
    obtain ⟨q', h⟩ := ih
    cases s with
    | nil =>
      cases q with
      | nil => exact ⟨[], rfl⟩
      | cons c q =>
        by_cases hc : c = '\n'
        · subst hc
          exact ⟨eolNorm q, rfl⟩
        · refine ⟨eolNorm (c :: q), ?_⟩
          rw [List.cons_append, List.nil_append, eolNorm]
          · rfl
          · intro s h; exact hc (List.cons.inj h).1
    | cons c s =>
      refine ⟨q', ?_⟩
      have hc : c ≠ '\n' := fun e => hne s (by rw [e])
      rw [List.cons_append, eolNorm, h, eolNorm]
      · rfl
      · exact hne
      · intro s' h'; exact hc (List.cons.inj h').1
  | case4 c s h1 h2 ih =>
    obtain ⟨q', h⟩ := ih
    refine ⟨q', ?_⟩
    have hc : c ≠ '\r' := fun e => h2 e
    rw [List.cons_append, eolNorm, h, eolNorm]
    · rfl
    · exact h1
    · exact h2
    · intro s' e; exact absurd e hc
    · intro e; exact absurd e hc

theorem xmlRun_parts (st : Tree × Mode) (a b : Str) : xmlRun st (a ++ b) = (xmlRun st a).bind (xmlRun · b) := by
  induction a generalizing st with
  | nil => rfl
  | cons c a ih =>
    rw [List.cons_append, xmlRun, xmlRun]
    cases xmlStep st c with
    | none => rfl
    | some st' => exact ih st'

/-- the nodes outside of all elements which are open, the last one first -/
def Tree.base (t : Tree) : List Node :=
  match t.stack.getLast? with
  | none => t.kids
  | some o => o.before

theorem Tree.mem_base_add {t : Tree} {n : Node} {c : Char} (hn : n.isElem = true) (h : n ∈ t.base) : n ∈ (t.add c).base := by
  obtain ⟨st, kids⟩ := t
  unfold Tree.base Tree.add at *
  simp only at *
  cases hl : st.getLast? with
  | some o => rw [hl] at h; exact h
  | none =>
    rw [hl] at h
    simp only at *
    cases kids with
    | nil => cases h
    | cons k ks =>
      cases k with
      | elem tag as ns => exact List.mem_cons_of_mem _ h
      | text s =>
        rcases List.mem_cons.1 h with rfl | h
        · cases hn
        · exact List.mem_cons_of_mem _ h

theorem Tree.mem_base_void {t : Tree} {n : Node} {tag : Str} {as : List (Str × Str)} (h : n ∈ t.base) : n ∈ (t.void tag as).base := by
  unfold Tree.base Tree.void at *
  simp only at *
  cases hl : t.stack.getLast? with
  | some o => rw [hl] at h; exact h
  | none => rw [hl] at h; exact List.mem_cons_of_mem _ h

theorem Tree.mem_base_start {t : Tree} {n : Node} {tag : Str} {as : List (Str × Str)} (h : n ∈ t.base) : n ∈ (t.start tag as).base := by
  unfold Tree.base Tree.start at *
  simp only [List.getLast?_cons] at *
  cases hl : t.stack.getLast? with
  | some o => rw [hl] at h; exact h
  | none => rw [hl] at h; exact h

theorem Tree.mem_base_close {t t' : Tree} {n : Node} {tag : Str} (h : n ∈ t.base) (hc : t.close tag = some t') : n ∈ t'.base := by
  obtain ⟨st, kids⟩ := t
  unfold Tree.close at hc
  cases st with
  | nil => cases hc
  | cons o os =>
    simp only at hc
    split at hc
    · injection hc with hc
      subst hc
      unfold Tree.base at *
      simp only [List.getLast?_cons] at *
      cases hl : os.getLast? with
      | some o' => rw [hl] at h; exact h
      | none => rw [hl] at h; exact List.mem_cons_of_mem _ h
    · cases hc

theorem xmlStep_base {st st' : Tree × Mode} {c : Char} {n : Node} (hn : n.isElem = true) (h : n ∈ st.1.base) (hs : xmlStep st c = some st') :
    n ∈ st'.1.base := by
  obtain ⟨t, m⟩ := st
  have ok : ∀ {t' : Tree} {m' : Mode}, n ∈ t'.base → some (t', m') = some st' → n ∈ st'.1.base := by
    rintro t' m' h e; injection e with e; subst e; exact h
  have hmap : ∀ {α : Type} {x : Option α} {f : α → Tree × Mode}, x.map f = some st' → (∀ a, x = some a → n ∈ (f a).1.base) → n ∈ st'.1.base := by
    intro α x f e hf
    cases x with
    | none => cases e
    | some a => injection e with e; subst e; exact hf a rfl
  cases m <;> simp only [xmlStep] at hs
  all_goals (repeat' split at hs) 
  all_goals first
    | cases hs; done
    | exact ok h hs
    | exact ok (Tree.mem_base_add hn h) hs
    | exact ok (Tree.mem_base_void h) hs
    | exact ok (Tree.mem_base_start h) hs
    | exact hmap hs (fun a _ => Tree.mem_base_add hn h)
    | exact hmap hs (fun a _ => h)
    | exact hmap hs (fun a ha => Tree.mem_base_close h ha)

theorem xmlRun_keeps {st st' : Tree × Mode} {s : Str} {n : Node} (hn : n.isElem = true) (h : n ∈ st.1.base) (hs : xmlRun st s = some st') :
    n ∈ st'.1.base := by
  induction s generalizing st with
  | nil => injection hs with hs; subst hs; exact h
  | cons c s ih =>
    rw [xmlRun, Option.bind_eq_some_iff] at hs
    obtain ⟨st1, h1, h2⟩ := hs
    exact ih (xmlStep_base hn h h1) h2

/-- the root element is among the outermost nodes -/
theorem Tree.root_mem {t : Tree} {n : Node} (h : t.root = some n) : t.stack = [] ∧ n.isElem = true ∧ t.kids.filter (fun k => !k.isBlank) = [n] := by
  unfold Tree.root at h
  split at h
  · rename_i hs
    split at h
    · rename_i tag as ks hk
      injection h with h
      subst h
      exact ⟨List.isEmpty_iff.1 hs, rfl, hk⟩
    · cases h
  · cases h

/-- reading a document which was cut gives the same element, or nothing -/
theorem readXml_part {part text : Str} {a b : Node} (hp : part <+: text) (ha : readXml part = some a) (hb : readXml text = some b) : a = b := by
  obtain ⟨rest, rfl⟩ := hp
  unfold readXml at ha hb
  split at ha
  · split at hb
    · obtain ⟨q, hq⟩ := eolNorm_part part rest
      rw [hq, xmlRun_parts] at hb
      cases hr : xmlRun (⟨[], []⟩, .text) (eolNorm part) with
      | none => rw [hr] at ha; cases ha
      | some st =>
        obtain ⟨t, m⟩ := st
        rw [hr] at ha hb
        cases m <;> simp only [reduceCtorEq] at ha
        obtain ⟨h1, h2, h3⟩ := Tree.root_mem ha
        have hmem : a ∈ t.base := by
          unfold Tree.base
          rw [h1]
          have : a ∈ t.kids.filter (fun k => !k.isBlank) := by rw [h3]; exact List.mem_cons_self
          exact (List.mem_filter.1 this).1
        simp only [Option.bind_some] at hb
        split at hb
        · rename_i t' hr'
          obtain ⟨g1, g2, g3⟩ := Tree.root_mem hb
          have := xmlRun_keeps h2 hmem hr'
          unfold Tree.base at this
          rw [g1] at this
          have hf : a ∈ t'.kids.filter (fun k => !k.isBlank) := by
            refine List.mem_filter.2 ⟨this, ?_⟩
            cases a with
            | text s => cases h2
            | elem => rfl
          rw [g3, List.mem_singleton] at hf
          exact hf
        · cases hb
    · cases hb
  · cases ha

/-- the elements outside of all others, with the one which is still open -/
def Tree.outer (t : Tree) : Nat := (t.base.filter Node.isElem).length + if t.stack = [] then 0 else 1

theorem filter_addChar (c : Char) (ks : List Node) : ((addChar c ks).filter Node.isElem).length = (ks.filter Node.isElem).length := by
  cases ks with
  | nil => rfl
  | cons k ks => cases k <;> rfl

theorem Tree.outer_add (t : Tree) (c : Char) : (t.add c).outer = t.outer := by
  obtain ⟨st, kids⟩ := t
  unfold Tree.outer Tree.base Tree.add
  cases hl : st.getLast? with
  | some o => simp only [hl]
  | none => simp only [hl, filter_addChar]

theorem Tree.outer_void (t : Tree) (tag : Str) (as : List (Str × Str)) : t.outer ≤ (t.void tag as).outer := by
  obtain ⟨st, kids⟩ := t
  unfold Tree.outer Tree.base Tree.void
  cases hl : st.getLast? with
  | some o => simp only [hl]; exact Nat.le_refl _
  | none => simp only [hl, List.filter_cons, Node.isElem, if_true, List.length_cons]; omega

theorem Tree.outer_start (t : Tree) (tag : Str) (as : List (Str × Str)) : t.outer ≤ (t.start tag as).outer := by
  obtain ⟨st, kids⟩ := t
  unfold Tree.outer Tree.base Tree.start
  cases st with
  | nil => simp
  | cons o os => simp [List.getLast?_cons]

theorem Tree.outer_close {t t' : Tree} {tag : Str} (hc : t.close tag = some t') : t.outer ≤ t'.outer := by
  obtain ⟨st, kids⟩ := t
  unfold Tree.close at hc
  cases st with
  | nil => cases hc
  | cons o os =>
    simp only at hc
    split at hc
    · injection hc with hc
      subst hc
      unfold Tree.outer Tree.base
      cases os with
      | nil => simp [List.filter_cons, Node.isElem]
      | cons o' os => simp [List.getLast?_cons]
    · cases hc

theorem xmlStep_outer {st st' : Tree × Mode} {c : Char} (hs : xmlStep st c = some st') : st.1.outer ≤ st'.1.outer := by
  obtain ⟨t, m⟩ := st
  have ok : ∀ {t' : Tree} {m' : Mode}, t.outer ≤ t'.outer → some (t', m') = some st' → t.outer ≤ st'.1.outer := by
    rintro t' m' h e; injection e with e; subst e; exact h
  have hmap : ∀ {α : Type} {x : Option α} {f : α → Tree × Mode}, x.map f = some st' → (∀ a, x = some a → t.outer ≤ (f a).1.outer) →
      t.outer ≤ st'.1.outer := by
    intro α x f e hf
    cases x with
    | none => cases e
    | some a => injection e with e; subst e; exact hf a rfl
  cases m <;> simp only [xmlStep] at hs
  all_goals (repeat' split at hs)
  all_goals first
    | cases hs; done
    | exact ok (Nat.le_refl _) hs
    | exact ok (Nat.le_of_eq (Tree.outer_add _ _).symm) hs
    | exact ok (Tree.outer_void _ _ _) hs
    | exact ok (Tree.outer_start _ _ _) hs
    | exact hmap hs (fun a _ => Nat.le_of_eq (Tree.outer_add _ _).symm)
    | exact hmap hs (fun a _ => Nat.le_refl _)
    | exact hmap hs (fun a ha => Tree.outer_close ha)

theorem xmlRun_outer {st st' : Tree × Mode} {s : Str} (hs : xmlRun st s = some st') : st.1.outer ≤ st'.1.outer := by
  induction s generalizing st with
  | nil => injection hs with hs; subst hs; exact Nat.le_refl _
  | cons c s ih =>
    rw [xmlRun, Option.bind_eq_some_iff] at hs
    obtain ⟨st1, h1, h2⟩ := hs
    exact Nat.le_trans (xmlStep_outer h1) (ih h2)

theorem elems_filter (l : List Node) : l.filter Node.isElem = (l.filter (fun k => !k.isBlank)).filter Node.isElem := by
  rw [List.filter_filter]
  congr 1
  funext k
  cases k <;> simp [Node.isElem, Node.isBlank]

/-- what is being read is neither text nor a reference in text nor a declaration -/
def Mode.inTag : Mode → Bool
  | .text | .ref _ | .decl _ => false
  | _ => true

theorem Tree.outer_void_lt {t : Tree} (hs : t.stack = []) (tag : Str) (as : List (Str × Str)) : t.outer < (t.void tag as).outer := by
  obtain ⟨st, kids⟩ := t
  simp only at hs
  subst hs
  simp [Tree.outer, Tree.base, Tree.void, List.filter_cons, Node.isElem]

theorem Tree.outer_start_lt {t : Tree} (hs : t.stack = []) (tag : Str) (as : List (Str × Str)) : t.outer < (t.start tag as).outer := by
  obtain ⟨st, kids⟩ := t
  simp only at hs
  subst hs
  simp [Tree.outer, Tree.base, Tree.start]

theorem Tree.close_none {t : Tree} (hs : t.stack = []) (tag : Str) : t.close tag = none := by
  unfold Tree.close
  rw [hs]

/-- outside of all elements, once there is one: a tag goes on, or it is a further element -/
theorem xmlStep_inTag {t : Tree} {m : Mode} {st : Tree × Mode} {c : Char} (hs : t.stack = []) (hk : t.kids.all (fun k => !k.isElem) = false)
    (hm : m.inTag = true) (h : xmlStep (t, m) c = some st) : (st.1 = t ∧ st.2.inTag = true) ∨ t.outer < st.1.outer := by
  have ok : ∀ {m' : Mode}, m'.inTag = true → some (t, m') = some st → (st.1 = t ∧ st.2.inTag = true) ∨ t.outer < st.1.outer := by
    rintro m' hi e; injection e with e; subst e; exact .inl ⟨rfl, hi⟩
  have ok2 : ∀ {t' : Tree} {m' : Mode}, t.outer < t'.outer → some (t', m') = some st → (st.1 = t ∧ st.2.inTag = true) ∨ t.outer < st.1.outer := by
    rintro t' m' hi e; injection e with e; subst e; exact .inr hi
  have hmap : ∀ {α : Type} {x : Option α} {f : α → Tree × Mode}, x.map f = some st → (∀ a, (f a).1 = t ∧ (f a).2.inTag = true) →
      (st.1 = t ∧ st.2.inTag = true) ∨ t.outer < st.1.outer := by
    intro α x f e hf
    cases x with
    | none => cases e
    | some a => injection e with e; subst e; exact .inl (hf a)
  cases m <;> simp only [xmlStep, Tree.close_none hs, hk, Option.map_none, Bool.false_eq_true, and_false, if_false, hs] at h hm
  all_goals first
    | cases hm; done
    | skip
  all_goals (repeat' split at h)
  all_goals first
    | cases h; done
    | exact ok rfl h
    | exact ok2 (Tree.outer_void_lt hs _ _) h
    | exact ok2 (Tree.outer_start_lt hs _ _) h
    | exact hmap h (fun a => ⟨rfl, rfl⟩)

theorem xmlRun_inTag {t : Tree} {m : Mode} {t' : Tree} {s : Str} (hs : t.stack = []) (hk : t.kids.all (fun k => !k.isElem) = false)
    (hm : m.inTag = true) (h : xmlRun (t, m) s = some (t', .text)) : t.outer < t'.outer := by
  induction s generalizing m with
  | nil => injection h with h; injection h with h1 h2; subst h2; cases hm
  | cons c s ih =>
    rw [xmlRun, Option.bind_eq_some_iff] at h
    obtain ⟨⟨t1, m1⟩, h1, h2⟩ := h
    rcases xmlStep_inTag hs hk hm h1 with ⟨e, hm1⟩ | hlt
    · simp only at e hm1
      subst e
      exact ih hm1 h2
    · exact Nat.lt_of_lt_of_le hlt (xmlRun_outer h2)

theorem refNat_lt {b acc : Nat} {s : Str} (h : '<' ∈ s) : refNat b acc s = none := by
  induction s generalizing acc with
  | nil => cases h
  | cons c s ih =>
    rw [refNat]
    rcases List.mem_cons.1 h with rfl | h
    · rfl
    · cases xmlHexVal c with
      | none => rfl
      | some d =>
        simp only
        split
        · exact ih h
        · rfl

/-- no reference has a `<` in its name -/
theorem deref_lt {name : Str} (h : '<' ∈ name) : deref name = none := by
  unfold deref
  rw [if_neg (by rintro rfl; revert h; decide), if_neg (by rintro rfl; revert h; decide), if_neg (by rintro rfl; revert h; decide),
    if_neg (by rintro rfl; revert h; decide), if_neg (by rintro rfl; revert h; decide)]
  split
  · rename_i c s
    rw [refNat_lt]
    · rfl
    · rcases List.mem_cons.1 h with h | h
      · cases h
      · rcases List.mem_cons.1 h with h | h
        · cases h
        · exact h
  · rename_i c s _
    rw [refNat_lt]
    · rfl
    · rcases List.mem_cons.1 h with h | h
      · cases h
      · exact h
  · rfl

theorem xmlRun_ref_lt {t : Tree} {name : Str} {t' : Tree} {s : Str} (hn : '<' ∈ name) : xmlRun (t, .ref name) s ≠ some (t', .text) := by
  induction s generalizing name with
  | nil => intro h; injection h with h; injection h with h1 h2; cases h2
  | cons c s ih =>
    rw [xmlRun]
    simp only [xmlStep]
    by_cases hc : c = ';'
    · rw [if_pos hc, deref_lt hn]; intro h; cases h
    · rw [if_neg hc]
      exact ih (List.mem_append_left _ hn)

theorem addChar_elems (c : Char) (ks : List Node) : (addChar c ks).all (fun k => !k.isElem) = ks.all (fun k => !k.isElem) := by
  cases ks with
  | nil => rfl
  | cons k ks => cases k <;> rfl

/-- Outside of all elements, once there is one, no further `<` can be read without a further element. -/
theorem xmlRun_lt {t : Tree} {m : Mode} {t' : Tree} {s : Str} (hs : t.stack = []) (hk : t.kids.all (fun k => !k.isElem) = false)
    (hm : m = .text ∨ ∃ name, m = .ref name) (hl : '<' ∈ s) (h : xmlRun (t, m) s = some (t', .text)) : t.outer < t'.outer := by
  induction s generalizing t m with
  | nil => cases hl
  | cons c s ih =>
    rcases hm with rfl | ⟨name, rfl⟩
    · rw [xmlRun, Option.bind_eq_some_iff] at h
      obtain ⟨st1, h1, h2⟩ := h
      simp only [xmlStep] at h1
      by_cases hc : c = '<'
      · rw [if_pos hc] at h1
        injection h1 with h1
        subst h1
        exact xmlRun_inTag hs hk rfl h2
      · rw [if_neg hc] at h1
        have hl' : '<' ∈ s := by
          rcases List.mem_cons.1 hl with h | h
          · exact absurd h.symm hc
          · exact h
        split at h1
        · injection h1 with h1
          subst h1
          exact ih hs hk (.inr ⟨_, rfl⟩) hl' h2
        · split at h1
          · cases h1
          · injection h1 with h1
            subst h1
            rw [← Tree.outer_add t c]
            refine ih (t := t.add c) hs ?_ (.inl rfl) hl' h2
            unfold Tree.add
            rw [addChar_elems]
            exact hk
    · by_cases hc : c = '<'
      · rw [xmlRun, hc] at h
        exact absurd h (xmlRun_ref_lt (name := name ++ ['<']) (List.mem_append_right _ List.mem_cons_self))
      · have hl' : '<' ∈ s := by
          rcases List.mem_cons.1 hl with h | h
          · exact absurd h.symm hc
          · exact h
        rw [xmlRun, Option.bind_eq_some_iff] at h
        obtain ⟨st1, h1, h2⟩ := h
        simp only [xmlStep] at h1
        split at h1
        · cases hd : deref name with
          | none => rw [hd] at h1; cases h1
          | some d =>
            rw [hd] at h1
            injection h1 with h1
            subst h1
            rw [← Tree.outer_add t d]
            refine ih (t := t.add d) hs ?_ (.inl rfl) hl' h2
            unfold Tree.add
            rw [addChar_elems]
            exact hk
        · injection h1 with h1
          subst h1
          exact ih hs hk (.inr ⟨_, rfl⟩) hl' h2

theorem Tree.root_outer {t : Tree} {n : Node} (h : t.root = some n) : t.outer = 1 := by
  obtain ⟨h1, h2, h3⟩ := Tree.root_mem h
  unfold Tree.outer Tree.base
  rw [h1]
  simp only [List.getLast?_nil, if_true]
  rw [elems_filter, h3, List.filter_cons, if_pos h2]
  rfl

theorem eolNorm_count (s : Str) : (eolNorm s).count '<' = s.count '<' := by
  induction s using eolNorm.induct with
  | case1 => rfl
  | case2 s ih => simp [eolNorm, List.count_cons, ih]
  | case3 s hne ih => rw [eolNorm]; simp [List.count_cons, ih]; exact hne
  | case4 c s h1 h2 ih => rw [eolNorm]; simp [List.count_cons, ih]; exact h1; exact h2

/-- A document which can be read has no tag after any part of it which can be read: all of its `<` are in the part. -/
theorem readXml_tags {part text : Str} {a b : Node} (hp : part <+: text) (ha : readXml part = some a) (hb : readXml text = some b) :
    part.count '<' = text.count '<' := by
  obtain ⟨q, rfl⟩ := hp
  unfold readXml at ha hb
  split at ha
  · split at hb
    · obtain ⟨q', hq⟩ := eolNorm_part part q
      have hcount : (part ++ q).count '<' = part.count '<' + q'.count '<' := by
        rw [← eolNorm_count, hq, List.count_append, eolNorm_count]
      rw [hq, xmlRun_parts] at hb
      cases h1 : xmlRun (⟨[], []⟩, .text) (eolNorm part) with
      | none => rw [h1] at ha; cases ha
      | some st1 =>
        obtain ⟨t1, m1⟩ := st1
        rw [h1] at ha hb
        cases m1 <;> simp only [reduceCtorEq] at ha
        obtain ⟨s1, e1, k1⟩ := Tree.root_mem ha
        have hk : t1.kids.all (fun k => !k.isElem) = false := by
          have hm : a ∈ t1.kids.filter (fun k => !k.isBlank) := by rw [k1]; exact List.mem_cons_self
          refine List.all_eq_false.2 ⟨a, (List.mem_filter.1 hm).1, ?_⟩
          simp [e1]
        rw [Option.bind_some] at hb
        cases h2 : xmlRun (t1, .text) q' with
        | none => rw [h2] at hb; cases hb
        | some st2 =>
          obtain ⟨t2, m2⟩ := st2
          rw [h2] at hb
          cases m2 <;> simp only [reduceCtorEq] at hb
          by_cases hl : '<' ∈ q'
          · have := xmlRun_lt s1 hk (.inl rfl) hl h2
            rw [Tree.root_outer ha, Tree.root_outer hb] at this
            omega
          · rw [hcount, List.count_eq_zero_of_not_mem hl]; rfl
    · cases hb
  · cases ha

/-- Of a document which still lacks a tag no part can be read. -/
theorem readXml_unclosed {part text rest : Str} {b : Node} (hp : part <+: text) (hb : readXml (text ++ rest) = some b)
    (hr : '<' ∈ rest) : readXml part = none := by
  cases ha : readXml part with
  | none => rfl
  | some a =>
    exfalso
    have h := readXml_tags (hp.trans (List.prefix_append _ _)) ha hb
    have h1 := hp.sublist.count_le '<'
    have h2 := List.count_pos_iff.2 hr
    rw [List.count_append] at h
    omega

end Spex
