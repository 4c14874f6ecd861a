import Verif.Model.Css
import Verif.Model.Ascii
import Verif.Lemmas.Grid
import Verif.Props.JsonText
import Mathlib.Data.List.Nodup
import Mathlib.Data.List.Perm.Subperm
/-
C45 to C48: formatting.
-/
set_option autoImplicit false
namespace Spex

/-! ### C45: class names -/

theorem natStr_inj {a b : Nat} (h : natStr a = natStr b) : a = b := by
  have h1 := readNat_natStr a [] (by intro c hc; cases hc)
  have h2 := readNat_natStr b [] (by intro c hc; cases hc)
  rw [h] at h1
  rw [h1] at h2
  cases h2; rfl

/-- the state of a cache after any sequence of requests -/
structure CacheInv (c : CssCache) : Prop where
  counter : c.counter = c.entries.length
  names : ∀ (i : Nat) (e : Attrs × Str), c.entries[i]? = some e → e.2 = c.pre ++ natStr i
  keys : (c.entries.map (·.1)).Nodup

theorem cacheInv_init (p : Str) : CacheInv (.init p) := ⟨rfl, by simp [CssCache.init], by simp [CssCache.init]⟩

theorem lookup_none_iff {α β : Type} [BEq α] [LawfulBEq α] {l : List (α × β)} {a : α} : l.lookup a = none ↔ a ∉ l.map (·.1) := by
  induction l with
  | nil => simp
  | cons e l ih =>
    rw [List.lookup_cons]
    by_cases h : a = e.1
    · subst h; simp
    · rw [show (a == e.1) = false by simpa using h]
      simp only [ih, List.map_cons, List.mem_cons, not_or]
      exact ⟨fun h' => ⟨h, h'⟩, fun h' => h'.2⟩

theorem lookup_some_mem {α β : Type} [BEq α] [LawfulBEq α] {l : List (α × β)} {a : α} {b : β} (h : l.lookup a = some b) : (a, b) ∈ l := by
  induction l with
  | nil => cases h
  | cons e l ih =>
    rw [List.lookup_cons] at h
    split at h
    · rename_i he
      cases h
      have : a = e.1 := by simpa using he
      rw [this]; exact List.mem_cons_self
    · exact List.mem_cons_of_mem _ (ih h)

theorem lookup_eq_of_nodup {α β : Type} [BEq α] [LawfulBEq α] {l : List (α × β)} (hn : (l.map (·.1)).Nodup) {a : α} {b : β}
    (h : (a, b) ∈ l) : l.lookup a = some b := by
  induction l with
  | nil => cases h
  | cons e l ih =>
    rw [List.map_cons, List.nodup_cons] at hn
    rw [List.lookup_cons]
    rcases List.mem_cons.1 h with h | h
    · subst h; simp
    · have : a ≠ e.1 := by
        intro he
        apply hn.1
        rw [← he]
        exact List.mem_map.2 ⟨_, h, rfl⟩
      rw [show (a == e.1) = false by simpa using this]
      exact ih hn.2 h

theorem getClsname_inv {c : CssCache} (h : CacheInv c) (a : Attrs) :
    CacheInv (c.getClsname a).2 ∧ (c.getClsname a).2.pre = c.pre ∧ (∀ e ∈ c.entries, e ∈ (c.getClsname a).2.entries) ∧
      (∀ e ∈ (c.getClsname a).2.entries, e ∈ c.entries ∨ (e.1 = a ∧ a ≠ [])) ∧
      (a = [] → (c.getClsname a).1 = none) ∧ (a ≠ [] → ∃ n, (c.getClsname a).1 = some n ∧ (a, n) ∈ (c.getClsname a).2.entries) := by
  unfold CssCache.getClsname
  by_cases ha : a = []
  · subst ha
    exact ⟨h, rfl, fun e he => he, fun e he => .inl he, fun _ => rfl, fun h => absurd rfl h⟩
  · have : a.isEmpty = false := by cases a with
      | nil => exact absurd rfl ha
      | cons => rfl
    rw [this]
    simp only [Bool.false_eq_true, if_false]
    cases hl : c.entries.lookup a with
    | some n => exact ⟨h, rfl, fun e he => he, fun e he => .inl he, fun h => absurd h ha, fun _ => ⟨n, rfl, lookup_some_mem hl⟩⟩
    | none =>
      refine ⟨⟨?_, ?_, ?_⟩, rfl, ?_, ?_, fun h => absurd h ha, fun _ => ⟨_, rfl, by simp⟩⟩
      · simp [h.counter]
      · intro i e he
        simp only at he ⊢
        rcases Nat.lt_or_ge i c.entries.length with hi | hi
        · rw [List.getElem?_append_left hi] at he
          exact h.names i e he
        · rw [List.getElem?_append_right hi] at he
          have : i - c.entries.length = 0 := by
            by_contra hne
            rw [List.getElem?_eq_none (by simp; omega)] at he
            cases he
          rw [this] at he
          cases he
          have : i = c.entries.length := by omega
          rw [this, h.counter]
      · simp only [List.map_append, List.map_cons, List.map_nil]
        rw [List.nodup_append]
        refine ⟨h.keys, by simp, ?_⟩
        intro x hx y hy hxy
        simp at hy
        subst hy; subst hxy
        exact lookup_none_iff.1 hl hx
      · intro e he; exact List.mem_append_left _ he
      · intro e he
        rcases List.mem_append.1 he with he | he
        · exact .inl he
        · rw [List.mem_singleton] at he
          subst he
          exact .inr ⟨rfl, ha⟩

theorem requests_inv {c : CssCache} (h : CacheInv c) (as : List Attrs) :
    CacheInv (c.requests as).2 ∧ (c.requests as).2.pre = c.pre ∧ (∀ e ∈ c.entries, e ∈ (c.requests as).2.entries) ∧
      (∀ e ∈ (c.requests as).2.entries, e ∈ c.entries ∨ (e.1 ∈ as ∧ e.1 ≠ [])) ∧
      (c.requests as).1.length = as.length ∧
      ∀ (i : Nat) (a : Attrs), as[i]? = some a → (a = [] → (c.requests as).1[i]? = some none) ∧
        (a ≠ [] → ∃ n, (c.requests as).1[i]? = some (some n) ∧ (a, n) ∈ (c.requests as).2.entries) := by
  induction as generalizing c with
  | nil => exact ⟨h, rfl, fun e he => he, fun e he => .inl he, rfl, fun i a hi => by simp at hi⟩
  | cons a as ih =>
    obtain ⟨g1, g2, g3, g4, g5, g6⟩ := getClsname_inv h a
    obtain ⟨k1, k2, k3, k4, k5, k6⟩ := ih g1
    refine ⟨k1, by rw [← g2]; exact k2, fun e he => k3 e (g3 e he), ?_, ?_, ?_⟩
    · intro e he
      rcases k4 e he with h1 | h1
      · rcases g4 e h1 with h2 | h2
        · exact .inl h2
        · exact .inr ⟨by rw [h2.1]; exact List.mem_cons_self, by rw [h2.1]; exact h2.2⟩
      · exact .inr ⟨List.mem_cons_of_mem _ h1.1, h1.2⟩
    · show ((c.getClsname a).1 :: ((c.getClsname a).2.requests as).1).length = _
      rw [List.length_cons, k5, List.length_cons]
    · intro i b hi
      cases i with
      | zero =>
        cases hi
        refine ⟨fun hb => ?_, fun hb => ?_⟩
        · show some ((c.getClsname a).1) = _
          rw [g5 hb]
        · obtain ⟨n, h1, h2⟩ := g6 hb
          refine ⟨n, ?_, k3 _ h2⟩
          show some ((c.getClsname a).1) = _
          rw [h1]
      | succ i => exact k6 i b hi

/-- C45: a style cache starts empty and serves any sequence of requests. The answer is no class iff there is no
formatting to express; two formattings get the same class iff they are equal. -/
theorem C45_same_class_iff_equal (p : Str) (as : List Attrs) (i j : Nat) (a b : Attrs)
    (hi : as[i]? = some a) (hj : as[j]? = some b) :
    (((CssCache.init p).requests as).1[i]? = some none ↔ a = []) ∧
    (((CssCache.init p).requests as).1[i]? = ((CssCache.init p).requests as).1[j]? ↔ a = b) := by
  obtain ⟨h1, _, _, _, _, h6⟩ := requests_inv (cacheInv_init p) as
  have ha := h6 i a hi
  have hb := h6 j b hj
  constructor
  · refine ⟨fun h => ?_, ha.1⟩
    by_contra hne
    obtain ⟨n, hn, _⟩ := ha.2 hne
    rw [hn] at h; cases h
  · by_cases h0 : a = []
    · rw [ha.1 h0]
      by_cases h0' : b = []
      · rw [hb.1 h0']; exact ⟨fun _ => by rw [h0, h0'], fun _ => rfl⟩
      · obtain ⟨n, hn, _⟩ := hb.2 h0'
        rw [hn]
        exact ⟨fun h => (by cases h), fun h => absurd (h ▸ h0) h0'⟩
    · obtain ⟨n, hn, hm⟩ := ha.2 h0
      rw [hn]
      by_cases h0' : b = []
      · rw [hb.1 h0']; exact ⟨fun h => (by cases h), fun h => absurd (h.symm ▸ h0') h0⟩
      · obtain ⟨n', hn', hm'⟩ := hb.2 h0'
        rw [hn']
        constructor
        · intro h
          have hnn : n = n' := by injection h with h; injection h
          subst hnn
          obtain ⟨x, hx⟩ := List.getElem?_of_mem hm
          obtain ⟨y, hy⟩ := List.getElem?_of_mem hm'
          have e1 := h1.names x _ hx
          have e2 := h1.names y _ hy
          simp only at e1 e2
          rw [e1] at e2
          have := natStr_inj (List.append_cancel_left e2)
          subst this
          rw [hx] at hy
          cases hy; rfl
        · intro h
          subst h
          have e1 := lookup_eq_of_nodup h1.keys hm
          rw [lookup_eq_of_nodup h1.keys hm'] at e1
          cases e1; rfl

/-- C45: the style sheet written in the end has exactly one block for every class handed out, with the formatting it was
handed out for, and no other blocks. -/
theorem C45_sheet_defines_classes (p : Str) (as : List Attrs) :
    ((((CssCache.init p).requests as).2.rules).map (·.1)).Nodup ∧
    (∀ (i : Nat) (a : Attrs) (n : Str), as[i]? = some a → ((CssCache.init p).requests as).1[i]? = some (some n) →
      ('.' :: n, a) ∈ ((CssCache.init p).requests as).2.rules) ∧
    (∀ r ∈ ((CssCache.init p).requests as).2.rules, ∃ (i : Nat) (n : Str), as[i]? = some r.2 ∧ r.1 = '.' :: n ∧
      ((CssCache.init p).requests as).1[i]? = some (some n)) := by
  obtain ⟨h1, _, _, h4, h5, h6⟩ := requests_inv (cacheInv_init p) as
  refine ⟨?_, ?_, ?_⟩
  · unfold CssCache.rules
    rw [List.map_map, List.Nodup, List.pairwise_map, List.pairwise_iff_getElem]
    intro i j hi hj hij e
    have e1 := h1.names i _ (List.getElem?_eq_getElem hi)
    have e2 := h1.names j _ (List.getElem?_eq_getElem hj)
    simp only [Function.comp_apply, List.cons.injEq, true_and] at e
    rw [e1, e2] at e
    have := natStr_inj (List.append_cancel_left e)
    omega
  · intro i a n hi hn
    have ha := h6 i a hi
    have hne : a ≠ [] := by
      intro h
      rw [ha.1 h] at hn; cases hn
    obtain ⟨n', hn', hm⟩ := ha.2 hne
    rw [hn] at hn'
    cases hn'
    exact List.mem_map.2 ⟨_, hm, rfl⟩
  · intro r hr
    obtain ⟨e, he, rfl⟩ := List.mem_map.1 hr
    rcases h4 e he with h | h
    · cases h
    · obtain ⟨i, hi⟩ := List.getElem?_of_mem h.1
      obtain ⟨n, hn, hm⟩ := (h6 i e.1 hi).2 h.2
      refine ⟨i, n, hi, ?_, hn⟩
      have e1 := lookup_eq_of_nodup h1.keys hm
      have e2 := lookup_eq_of_nodup h1.keys (b := e.2) (a := e.1) he
      rw [e1] at e2
      cases e2; rfl

/-- C45: classes for text never coincide with classes for table cells. -/
theorem C45_caches_apart (as bs : List Attrs) (i j : Nat) (n m : Str)
    (hn : ((CssCache.init c!"txtfmt").requests as).1[i]? = some (some n))
    (hm : ((CssCache.init c!"tcell").requests bs).1[j]? = some (some m)) : n ≠ m := by
  have key : ∀ (p : Str) (as : List Attrs) (i : Nat) (n : Str), ((CssCache.init p).requests as).1[i]? = some (some n) → p <+: n := by
    intro p as i n hn
    obtain ⟨h1, h2, _, _, h5, h6⟩ := requests_inv (cacheInv_init p) as
    have hi : i < as.length := by
      rw [← h5]
      by_contra h
      rw [List.getElem?_eq_none (by omega)] at hn
      cases hn
    have ha := h6 i _ (List.getElem?_eq_getElem hi)
    by_cases h0 : as[i] = []
    · rw [ha.1 h0] at hn; cases hn
    · obtain ⟨n', hn', hm⟩ := ha.2 h0
      rw [hn] at hn'
      cases hn'
      obtain ⟨x, hx⟩ := List.getElem?_of_mem hm
      have := h1.names x _ hx
      simp only at this
      rw [this, h2]
      exact List.prefix_append _ _
  intro h
  subst h
  obtain ⟨t, ht⟩ := key _ _ _ _ hn
  obtain ⟨t', ht'⟩ := key _ _ _ _ hm
  rw [← ht] at ht'
  simp at ht'

example : ((CssCache.init c!"txtfmt").requests [[(c!"color", c!"#ff0000")], [], [(c!"font-weight", c!"bold")], [(c!"color", c!"#ff0000")]]).1 =
    [some c!"txtfmt0", none, some c!"txtfmt1", some c!"txtfmt0"] := by decide +kernel

example : ((CssCache.init c!"txtfmt").requests [[(c!"color", c!"#ff0000")], [], [(c!"font-weight", c!"bold")], [(c!"color", c!"#ff0000")]]).2.rules =
    [(c!".txtfmt0", [(c!"color", c!"#ff0000")]), (c!".txtfmt1", [(c!"font-weight", c!"bold")])] := by decide +kernel

/-! ### C46: merging -/

/-- formatting as it is read from a document: a colour has six characters -/
def RunProps.Proper (p : RunProps) : Prop := ∀ c, p.color = some c → c.length = 6

/-- no formatting -/
def RunProps.empty : RunProps := ⟨none, none, none, none, none, none⟩

theorem hexColor_proper {p : RunProps} (h : p.Proper) : hexColor p.color = p.color := by
  unfold hexColor
  cases hc : p.color with
  | none => rfl
  | some c => simp [h c hc]

theorem runPropsOf_proper {e : Node} {p : RunProps} (h : runPropsOf e = .ok p) : p.Proper := by
  unfold runPropsOf at h
  obtain ⟨u, _, h⟩ := except_bind_ok h
  obtain ⟨v, _, h⟩ := except_bind_ok h
  cases h
  intro c hc
  simp only at hc
  unfold hexColor at hc
  split at hc
  · cases hc
  · split at hc
    · cases hc
    · rename_i h; cases hc; simpa using h

theorem mergeWith_proper {a b : RunProps} (hb : b.Proper) : (a.mergeWith b).Proper := by
  intro c hc
  unfold RunProps.mergeWith at hc
  simp only at hc
  unfold override at hc
  split at hc
  · unfold hexColor at hc
    split at hc
    · cases hc
    · split at hc
      · cases hc
      · rename_i h; cases hc; simpa using h
  · rename_i h; cases hc; exact hb c h

theorem override_assoc {α : Type} (a b c : Option α) : override (override a b) c = override a (override b c) := by
  cases a <;> cases b <;> cases c <;> rfl

/-- C46: merging is associative. -/
theorem C46_assoc (a b c : RunProps) (ha : a.Proper) (hb : b.Proper) :
    (a.merge (some b)).merge (some c) = a.merge (some (b.merge (some c))) := by
  have h : hexColor (override a.color b.color) = override a.color b.color := by
    have := mergeWith_proper (a := a) hb
    have h2 := hexColor_proper this
    unfold RunProps.mergeWith at h2
    simp only [hexColor_proper ha] at h2
    exact h2
  show (a.mergeWith b).mergeWith c = a.mergeWith (b.mergeWith c)
  unfold RunProps.mergeWith
  simp only [hexColor_proper ha, hexColor_proper hb, override_assoc, h]

/-- C46: no formatting, on either side, changes nothing. -/
theorem C46_identity (a : RunProps) (ha : a.Proper) :
    a.merge (some .empty) = a ∧ RunProps.empty.merge (some a) = a ∧ a.merge none = a := by
  refine ⟨?_, ?_, rfl⟩
  · show a.mergeWith .empty = a
    unfold RunProps.mergeWith
    simp only [hexColor_proper ha]
    rfl
  · show RunProps.empty.mergeWith a = a
    unfold RunProps.mergeWith
    have : ∀ {α : Type} (o : Option α), override none o = o := by intro α o; cases o <;> rfl
    simp only [RunProps.empty, this, hexColor]

/-- the value of the last layer which has one -/
def lastSet {α : Type} (layers : List (Option α)) : Option α := layers.reverse.findSome? id

theorem lastSet_snoc {α : Type} (ls : List (Option α)) (o : Option α) : lastSet (ls ++ [o]) = override (lastSet ls) o := by
  unfold lastSet override
  rw [List.reverse_append]
  cases o <;> rfl

/-- C46: over any number of layers, each property is taken from the last layer which sets it. -/
theorem C46_last_layer (base : RunProps) (layers : List RunProps) (hb : base.Proper) (hl : ∀ l ∈ layers, l.Proper) :
    let r := layers.foldl (fun a l => a.merge (some l)) base
    r.bold = lastSet ((base :: layers).map (·.bold)) ∧ r.italics = lastSet ((base :: layers).map (·.italics)) ∧
    r.underline = lastSet ((base :: layers).map (·.underline)) ∧ r.strike = lastSet ((base :: layers).map (·.strike)) ∧
    r.vert = lastSet ((base :: layers).map (·.vert)) ∧ r.color = lastSet ((base :: layers).map (·.color)) := by
  have gen : ∀ rest : List RunProps, (∀ l ∈ rest, l.Proper) → ∀ done : List RunProps, ∀ a : RunProps, a.Proper →
      (a.bold = lastSet (done.map (·.bold)) ∧ a.italics = lastSet (done.map (·.italics)) ∧
        a.underline = lastSet (done.map (·.underline)) ∧ a.strike = lastSet (done.map (·.strike)) ∧
        a.vert = lastSet (done.map (·.vert)) ∧ a.color = lastSet (done.map (·.color))) →
      let r := rest.foldl (fun a l => a.merge (some l)) a
      r.bold = lastSet ((done ++ rest).map (·.bold)) ∧ r.italics = lastSet ((done ++ rest).map (·.italics)) ∧
        r.underline = lastSet ((done ++ rest).map (·.underline)) ∧ r.strike = lastSet ((done ++ rest).map (·.strike)) ∧
        r.vert = lastSet ((done ++ rest).map (·.vert)) ∧ r.color = lastSet ((done ++ rest).map (·.color)) := by
    intro rest
    induction rest with
    | nil => intro _ done a _ h; simpa using h
    | cons l rest ih =>
      intro hl done a ha h
      have := ih (fun x hx => hl x (List.mem_cons_of_mem _ hx)) (done ++ [l]) (a.mergeWith l)
        (mergeWith_proper (hl l List.mem_cons_self)) (by
          simp only [List.map_append, List.map_cons, List.map_nil, lastSet_snoc]
          obtain ⟨h1, h2, h3, h4, h5, h6⟩ := h
          unfold RunProps.mergeWith
          simp only [hexColor_proper ha]
          rw [← h1, ← h2, ← h3, ← h4, ← h5, ← h6]
          exact ⟨rfl, rfl, rfl, rfl, rfl, rfl⟩)
      rw [show done ++ l :: rest = done ++ [l] ++ rest by simp]
      exact this
  have one : ∀ {α : Type} (o : Option α), lastSet [o] = o := by intro α o; cases o <;> rfl
  exact gen layers hl [base] base hb ⟨(one _).symm, (one _).symm, (one _).symm, (one _).symm, (one _).symm, (one _).symm⟩

example : RunProps.Proper ⟨some true, none, none, some false, some .subscript, some c!"ff0000"⟩ ∧
    (RunProps.merge ⟨some true, none, none, some false, some .subscript, some c!"ff0000"⟩
      (some ⟨some false, some true, none, none, none, none⟩)) = ⟨some false, some true, none, some false, some .subscript, some c!"ff0000"⟩ := by
  refine ⟨?_, by decide⟩
  intro c hc; cases hc; rfl

/-! ### C47: decorations -/

/-- the value of `text-decoration-line` -/
def decorationLine (p : RunProps) : Option Str := p.cssAttrs.lookup c!"text-decoration-line"

theorem decorationLine_eq (p : RunProps) : decorationLine p = (decorationAttr (decorations p)).lookup c!"text-decoration-line" := by
  obtain ⟨b, i, u, s, v, c⟩ := p
  unfold decorationLine RunProps.cssAttrs decorations
  cases b <;> cases i <;> cases u <;> cases s <;> cases v <;> cases c <;> rfl

/-- C47 is false: a run with `<w:u w:val="none"/>` and `<w:strike w:val="0"/>`, which switch off what its style sets, is
rendered underlined and struck through. -/
theorem C47_disabled_false :
    (runPropsOf (.elem wRPr [] [.elem c!"w:u" [(aVal, c!"none")] [], .elem c!"w:strike" [(aVal, c!"0")] []])).toOption.map
      (fun p => (p.underline, p.strike, decorationLine p)) = some (some false, some false, some c!"underline line-through") := by
  decide +kernel

/-- C47, what holds: a run which neither sets nor clears a decoration is rendered without it, a run which sets it is
rendered with it. Not shown: what C47 asks of runs which clear it (see `C47_disabled_false`). -/
theorem C47_decorations_partial (p : RunProps) :
    (p.underline = none → p.strike = none → decorationLine p = none) ∧
    (p.underline = some true → p.strike = none → decorationLine p = some c!"underline") ∧
    (p.underline = none → p.strike = some true → decorationLine p = some c!"line-through") ∧
    (p.underline = some true → p.strike = some true → decorationLine p = some c!"underline line-through") := by
  refine ⟨?_, ?_, ?_, ?_⟩ <;> intro h1 h2 <;> rw [decorationLine_eq, decorations, h1, h2] <;> rfl

example : decorationLine ⟨some true, none, some true, none, none, none⟩ = some c!"underline" := by decide

/-! ### C48: styles -/

/-- The `w:basedOn` chain of a style: the ids and the formatting of the layers, root first. -/
inductive Chain (doc : Node) (ty : Str) : Str → List Str → List (Option RunProps) → Prop where
  | root {id : Str} {style : Node} {rpr : Option RunProps}
      (found : (stylesOfType doc ty).find? (fun s => s.attr? c!"w:styleId" == some id) = some style)
      (layer : fromRprElem (style.first [wRPr]) = .ok rpr)
      (base : style.attrFirst [c!"w:basedOn"] aVal = none) : Chain doc ty id [id] [rpr]
  | based {id b : Str} {style : Node} {rpr : Option RunProps} {ids : List Str} {layers : List (Option RunProps)}
      (found : (stylesOfType doc ty).find? (fun s => s.attr? c!"w:styleId" == some id) = some style)
      (layer : fromRprElem (style.first [wRPr]) = .ok rpr)
      (base : style.attrFirst [c!"w:basedOn"] aVal = some b) (rest : Chain doc ty b ids layers) :
      Chain doc ty id (ids ++ [id]) (layers ++ [rpr])

/-- all layers merged; styles without formatting do not contribute -/
def mergeLayers (layers : List (Option RunProps)) : Option RunProps :=
  match layers.filterMap id with
  | [] => none
  | p :: ps => some (ps.foldl (fun a l => a.merge (some l)) p)

theorem mergeLayers_snoc (ls : List (Option RunProps)) (o : Option RunProps) : mergeLayers (ls ++ [o]) = mergeOpt (mergeLayers ls) o := by
  unfold mergeLayers
  rw [List.filterMap_append]
  generalize ls.filterMap id = qs
  cases o with
  | none =>
    rw [show List.filterMap id [(none : Option RunProps)] = [] from rfl, List.append_nil]
    cases qs <;> rfl
  | some p =>
    rw [show List.filterMap id [some p] = [p] from rfl]
    cases qs with
    | nil => rfl
    | cons q qs => simp [mergeOpt]

theorem findStyle_some {doc : Node} {ty id : Str} {s : Node}
    (h : (stylesOfType doc ty).find? (fun s => s.attr? c!"w:styleId" == some id) = some s) : findStyle doc ty id = .ok s := by
  unfold findStyle; rw [h]; rfl

theorem findStyle_ok {doc : Node} {ty id : Str} {s : Node} (h : findStyle doc ty id = .ok s) :
    (stylesOfType doc ty).find? (fun s => s.attr? c!"w:styleId" == some id) = some s := by
  unfold findStyle req at h
  split at h
  · rename_i h'; cases h; exact h'
  · cases h

theorem chain_raw {doc : Node} {ty id : Str} {ids : List Str} {layers : List (Option RunProps)} (h : Chain doc ty id ids layers) :
    ∀ n, ids.length ≤ n → rawStyle doc ty n id = .ok (mergeLayers layers) := by
  induction h with
  | @root id style rpr found layer base =>
    intro n hn
    cases n with
    | zero => simp at hn
    | succ n =>
      rw [rawStyle, findStyle_some found]
      show (fromRprElem (style.first [wRPr]) >>= fun rpr => _) = _
      rw [layer]
      simp only [bind, Except.bind, base]
      cases rpr <;> rfl
  | @based id b style rpr ids layers found layer base rest ih =>
    intro n hn
    cases n with
    | zero => simp at hn
    | succ n =>
      rw [rawStyle, findStyle_some found]
      show (fromRprElem (style.first [wRPr]) >>= fun rpr => _) = _
      rw [layer]
      simp only [bind, Except.bind, base]
      rw [ih n (by simp at hn; omega), mergeLayers_snoc]

theorem raw_chain {doc : Node} {ty : Str} : ∀ (n : Nat) (id : Str) (v : Option RunProps), rawStyle doc ty n id = .ok v →
    ∃ ids layers, Chain doc ty id ids layers ∧ v = mergeLayers layers := by
  intro n
  induction n with
  | zero => intro id v h; cases h
  | succ n ih =>
    intro id v h
    rw [rawStyle] at h
    obtain ⟨style, h1, h⟩ := except_bind_ok h
    obtain ⟨rpr, h2, h⟩ := except_bind_ok h
    cases hb : style.attrFirst [c!"w:basedOn"] aVal with
    | none =>
      simp only [hb] at h
      cases h
      exact ⟨[id], [v], .root (findStyle_ok h1) h2 hb, by cases v <;> rfl⟩
    | some b =>
      simp only [hb] at h
      obtain ⟨base, h3, h⟩ := except_bind_ok h
      cases h
      obtain ⟨ids, layers, hc, hv⟩ := ih b base h3
      exact ⟨ids ++ [id], layers ++ [rpr], .based (findStyle_ok h1) h2 hb hc, by rw [mergeLayers_snoc, hv]⟩

theorem chain_det {doc : Node} {ty id : Str} {ids ids' : List Str} {layers layers' : List (Option RunProps)}
    (h : Chain doc ty id ids layers) (h' : Chain doc ty id ids' layers') : ids = ids' ∧ layers = layers' := by
  induction h generalizing ids' layers' with
  | root found layer base =>
    cases h' with
    | root found' layer' base' =>
      rw [found] at found'; cases found'
      rw [layer] at layer'; cases layer'
      exact ⟨rfl, rfl⟩
    | based found' layer' base' rest' =>
      rw [found] at found'; cases found'
      rw [base] at base'; cases base'
  | based found layer base rest ih =>
    cases h' with
    | root found' layer' base' =>
      rw [found] at found'; cases found'
      rw [base] at base'; cases base'
    | based found' layer' base' rest' =>
      rw [found] at found'; cases found'
      rw [layer] at layer'; cases layer'
      rw [base] at base'; cases base'
      obtain ⟨h1, h2⟩ := ih rest'
      rw [h1, h2]; exact ⟨rfl, rfl⟩

theorem chain_sub {doc : Node} {ty id : Str} {ids : List Str} {layers : List (Option RunProps)} (h : Chain doc ty id ids layers) :
    (∀ x ∈ ids, ∃ ids' layers', Chain doc ty x ids' layers' ∧ ids'.length ≤ ids.length) ∧
    (∀ x ∈ ids, some x ∈ (stylesOfType doc ty).map (fun s => s.attr? c!"w:styleId")) := by
  have mem : ∀ {i : Str} {s : Node}, (stylesOfType doc ty).find? (fun s => s.attr? c!"w:styleId" == some i) = some s →
      some i ∈ (stylesOfType doc ty).map (fun s => s.attr? c!"w:styleId") := by
    intro i s hs
    refine List.mem_map.2 ⟨s, List.mem_of_find?_eq_some hs, ?_⟩
    have := List.find?_some hs
    simpa using this
  induction h with
  | root found layer base =>
    constructor
    · intro x hx
      rw [List.mem_singleton] at hx; subst hx
      exact ⟨_, _, .root found layer base, Nat.le_refl _⟩
    · intro x hx
      rw [List.mem_singleton] at hx; subst hx
      exact mem found
  | based found layer base rest ih =>
    constructor
    · intro x hx
      rcases List.mem_append.1 hx with hx | hx
      · obtain ⟨i', l', h1, h2⟩ := ih.1 x hx
        exact ⟨i', l', h1, by simp; omega⟩
      · rw [List.mem_singleton] at hx; subst hx
        exact ⟨_, _, .based found layer base rest, Nat.le_refl _⟩
    · intro x hx
      rcases List.mem_append.1 hx with hx | hx
      · exact ih.2 x hx
      · rw [List.mem_singleton] at hx; subst hx
        exact mem found

theorem chain_nodup {doc : Node} {ty id : Str} {ids : List Str} {layers : List (Option RunProps)} (h : Chain doc ty id ids layers) :
    ids.Nodup := by
  induction h with
  | root => simp
  | @based id b style rpr ids layers found layer base rest ih =>
    rw [List.nodup_append]
    refine ⟨ih, by simp, ?_⟩
    intro x hx y hy hxy
    simp at hy
    subst hy; subst hxy
    obtain ⟨i', l', h1, h2⟩ := (chain_sub rest).1 x hx
    have := (chain_det h1 (.based found layer base rest)).1
    rw [this] at h2
    simp at h2
    omega

theorem chain_length {doc : Node} {ty id : Str} {ids : List Str} {layers : List (Option RunProps)} (h : Chain doc ty id ids layers) :
    ids.length ≤ styleFuel doc ty := by
  have h1 : (ids.map some).Nodup := List.Nodup.map (fun _ _ h => Option.some.inj h) (chain_nodup h)
  have h2 : (ids.map some) ⊆ (stylesOfType doc ty).map (fun s => s.attr? c!"w:styleId") := by
    intro x hx
    obtain ⟨y, hy, rfl⟩ := List.mem_map.1 hx
    exact (chain_sub h).2 y hy
  have := (List.subperm_of_subset h1 h2).length_le
  simp at this
  unfold styleFuel
  omega

/-- the resolver without a cache -/
def plainStyle (doc : Node) (ty id : Str) : Except Exn (Option RunProps) := rawStyle doc ty (styleFuel doc ty) id

/-- the entries of a cache are results -/
def CacheOk (doc : Node) (cache : StyleCache) : Prop := ∀ ty id v, ((ty, id), v) ∈ cache → ∃ ids layers, Chain doc ty id ids layers ∧ v = mergeLayers layers

theorem cacheOk_touch {doc : Node} {cache : StyleCache} (h : CacheOk doc cache) {ty id : Str} {v : Option RunProps}
    (hv : ∃ ids layers, Chain doc ty id ids layers ∧ v = mergeLayers layers) : CacheOk doc (cacheTouch (ty, id) v cache) := by
  intro ty' id' v' hm
  rcases List.mem_cons.1 hm with hm | hm
  · cases hm; exact hv
  · exact h ty' id' v' (List.mem_filter.1 hm).1

theorem cacheOk_add {doc : Node} {cache : StyleCache} (h : CacheOk doc cache) {ty id : Str} {v : Option RunProps}
    (hv : ∃ ids layers, Chain doc ty id ids layers ∧ v = mergeLayers layers) : CacheOk doc (cacheAdd (ty, id) v cache) := by
  intro ty' id' v' hm
  exact cacheOk_touch h hv ty' id' v' (List.mem_of_mem_take hm)

theorem cached_raw {doc : Node} {ty : Str} : ∀ (n : Nat) (id : Str) (cache : StyleCache), CacheOk doc cache →
    CacheOk doc (cachedStyle doc ty n id cache).2 ∧
    ((cachedStyle doc ty n id cache).1 = rawStyle doc ty n id ∨
      (rawStyle doc ty n id = .error .recursionError ∧ ∃ ids layers, Chain doc ty id ids layers)) ∧
    (∀ v, (cachedStyle doc ty n id cache).1 = .ok v → ∃ ids layers, Chain doc ty id ids layers ∧ v = mergeLayers layers) := by
  intro n
  induction n with
  | zero => intro id cache h; exact ⟨h, .inl rfl, fun v hv => by cases hv⟩
  | succ n ih =>
    intro id cache h
    rw [cachedStyle]
    cases hl : cache.lookup (ty, id) with
    | some v =>
      have hv := h ty id v (lookup_some_mem hl)
      refine ⟨cacheOk_touch h hv, ?_, fun v' hv' => by cases hv'; exact hv⟩
      obtain ⟨ids, layers, hc, hv⟩ := hv
      simp only
      cases hr : rawStyle doc ty (n + 1) id with
      | ok v' =>
        left
        obtain ⟨ids', layers', hc', hv'⟩ := raw_chain _ _ _ hr
        rw [hv, hv', (chain_det hc hc').2]
      | error e =>
        by_cases hle : ids.length ≤ n + 1
        · rw [chain_raw hc _ hle] at hr; cases hr
        · right
          refine ⟨?_, ids, layers, hc⟩
          -- the chain is longer than the fuel
          have long : ∀ {id ids layers}, Chain doc ty id ids layers → ∀ m, m < ids.length → rawStyle doc ty m id = .error .recursionError := by
            intro id ids layers hc
            induction hc with
            | root =>
              intro m hm
              have : m = 0 := by simpa using hm
              subst this; rfl
            | @based id b style rpr ids layers found layer base rest ih =>
              intro m hm
              cases m with
              | zero => rfl
              | succ m =>
                rw [rawStyle, findStyle_some found]
                show (fromRprElem (style.first [wRPr]) >>= fun rpr => _) = _
                rw [layer]
                simp only [bind, Except.bind, base]
                rw [ih m (by simp at hm; omega)]
          rw [long hc (n + 1) (by omega)] at hr
          exact hr.symm
    | none =>
      simp only
      rw [rawStyle]
      cases hf : findStyle doc ty id with
      | error e => exact ⟨h, .inl rfl, fun v hv => by cases hv⟩
      | ok style =>
        simp only [bind, Except.bind]
        cases hp : fromRprElem (style.first [wRPr]) with
        | error e => exact ⟨h, .inl rfl, fun v hv => by cases hv⟩
        | ok rpr =>
          simp only
          cases hb : style.attrFirst [c!"w:basedOn"] aVal with
          | none =>
            have hch : ∃ ids layers, Chain doc ty id ids layers ∧ rpr = mergeLayers layers :=
              ⟨_, _, .root (findStyle_ok hf) hp hb, by cases rpr <;> rfl⟩
            exact ⟨cacheOk_add h hch, .inl rfl, fun v hv => by cases hv; exact hch⟩
          | some b =>
            simp only
            obtain ⟨i1, i2, i3⟩ := ih b cache h
            generalize cachedStyle doc ty n b cache = cs at i1 i2 i3 ⊢
            obtain ⟨r, cache'⟩ := cs
            simp only at i1 i2 i3
            cases r with
            | error e =>
              refine ⟨i1, ?_, fun v hv => by cases hv⟩
              rcases i2 with i2 | ⟨i2, ids, layers, hc⟩
              · rw [← i2]; exact .inl rfl
              · rw [i2]; exact .inr ⟨rfl, _, _, .based (findStyle_ok hf) hp hb hc⟩
            | ok base =>
              obtain ⟨ids, layers, hc, hv⟩ := i3 base rfl
              have hch : ∃ ids layers, Chain doc ty id ids layers ∧ mergeOpt base rpr = mergeLayers layers :=
                ⟨_, _, .based (findStyle_ok hf) hp hb hc, by rw [mergeLayers_snoc, hv]⟩
              refine ⟨cacheOk_add i1 hch, ?_, fun v hv => by cases hv; exact hch⟩
              rcases i2 with i2 | ⟨i2, _⟩
              · rw [← i2]; exact .inl rfl
              · rw [i2]; exact .inr ⟨rfl, _, _, .based (findStyle_ok hf) hp hb hc⟩

/-- a history of style lookups (type and name), and the cache it leaves behind -/
def afterLookups (doc : Node) : StyleCache → List (Str × Str) → StyleCache
  | cache, [] => cache
  | cache, q :: qs => afterLookups doc (getStyle doc q.1 q.2 cache).2 qs

theorem getStyle_cacheOk {doc : Node} {cache : StyleCache} (h : CacheOk doc cache) (ty name : Str) : CacheOk doc (getStyle doc ty name cache).2 := by
  unfold getStyle
  split
  · exact h
  · split
    · exact h
    · exact (cached_raw _ _ _ h).1

theorem afterLookups_cacheOk {doc : Node} (qs : List (Str × Str)) : ∀ {cache : StyleCache}, CacheOk doc cache → CacheOk doc (afterLookups doc cache qs) := by
  induction qs with
  | nil => intro cache h; exact h
  | cons q qs ih => intro cache h; exact ih (getStyle_cacheOk h q.1 q.2)

theorem getStyle_plain {doc : Node} {cache : StyleCache} (h : CacheOk doc cache) (ty name : Str) :
    (getStyle doc ty name cache).1 = (getStyle doc ty name []).1 := by
  have h0 : CacheOk doc [] := by intro ty id v hm; cases hm
  have key : ∀ (cache : StyleCache) (id : Str), CacheOk doc cache → (cachedStyle doc ty (styleFuel doc ty) id cache).1 = plainStyle doc ty id := by
    intro cache id h
    rcases (cached_raw (styleFuel doc ty) id cache h).2.1 with h1 | ⟨h1, ids, layers, hc⟩
    · exact h1
    · rw [chain_raw hc _ (chain_length hc)] at h1; cases h1
  unfold getStyle
  split
  · rfl
  · split
    · rfl
    · rw [key _ _ h, key _ _ h0]

/-- C48: what a lookup answers does not depend on the lookups made before (of styles of either type, in any order and
number, hits, misses, failures and evictions included). -/
theorem C48_history (doc : Node) (before : List (Str × Str)) (ty name : Str) :
    (getStyle doc ty name (afterLookups doc [] before)).1 = (getStyle doc ty name []).1 :=
  getStyle_plain (afterLookups_cacheOk before (by intro ty id v hm; cases hm)) ty name

/-- the style is known under the name: as its id or as one of its (comma separated) aliases -/
def KnownAs (style : Node) (name : Str) : Prop :=
  style.attr? c!"w:styleId" = some name ∨
    name ∈ (splitOn ',' ((style.attrFirst [c!"w:aliases"] aVal).getD [])).map strip

theorem dictGet_append {α : Type} (a b : List (Str × α)) (k : Str) :
    dictGet (a ++ b) k = match dictGet b k with | some v => some v | none => dictGet a k := by
  unfold dictGet
  rw [List.reverse_append, List.lookup_append]
  cases List.lookup k b.reverse <;> rfl

theorem dictGet_none {α : Type} {a : List (Str × α)} {k : Str} (h : ∀ e ∈ a, e.1 ≠ k) : dictGet a k = none := by
  unfold dictGet
  rw [lookup_none_iff]
  intro hm
  obtain ⟨e, he, hk⟩ := List.mem_map.1 hm
  exact h e (List.mem_reverse.1 he) hk

theorem dictGet_const {α : Type} {a : List (Str × α)} {k : Str} {v : α} (h : ∀ e ∈ a, e.2 = v) (hk : ∃ e ∈ a, e.1 = k) : dictGet a k = some v := by
  unfold dictGet
  cases hl : a.reverse.lookup k with
  | none =>
    rw [lookup_none_iff] at hl
    obtain ⟨e, he, hk⟩ := hk
    exact absurd (List.mem_map.2 ⟨e, List.mem_reverse.2 he, hk⟩) hl
  | some w => rw [← h _ (List.mem_reverse.1 (lookup_some_mem hl))]

theorem styleNames_ok {s : Node} {ns : List (Str × Str)} (h : styleNames s = .ok ns) :
    ∃ id, s.attr? c!"w:styleId" = some id ∧ (∀ e ∈ ns, e.2 = id) ∧ ∀ k, (∃ e ∈ ns, e.1 = k) ↔ KnownAs s k := by
  unfold styleNames at h
  obtain ⟨id, h1, h⟩ := except_bind_ok h
  have hid : s.attr? c!"w:styleId" = some id := by
    unfold reqAttr at h1
    split at h1
    · rename_i h2; cases h1; exact h2
    · cases h1
  cases h
  refine ⟨id, hid, ?_, ?_⟩
  · intro e he
    rcases List.mem_cons.1 he with he | he
    · rw [he]
    · obtain ⟨a, _, rfl⟩ := List.mem_map.1 he; rfl
  · intro k
    unfold KnownAs
    constructor
    · rintro ⟨e, he, rfl⟩
      rcases List.mem_cons.1 he with he | he
      · rw [he]; exact .inl hid
      · obtain ⟨a, ha, rfl⟩ := List.mem_map.1 he
        exact .inr (List.mem_map.2 ⟨a, ha, rfl⟩)
    · rintro (hk | hk)
      · rw [hid] at hk
        cases hk
        exact ⟨_, List.mem_cons_self, rfl⟩
      · obtain ⟨a, ha, rfl⟩ := List.mem_map.1 hk
        exact ⟨_, List.mem_cons_of_mem _ (List.mem_map.2 ⟨a, ha, rfl⟩), rfl⟩

theorem aliasDct_append {as bs : List Node} {d : List (Str × Str)} (h : aliasDct (as ++ bs) = .ok d) :
    ∃ d1 d2, aliasDct as = .ok d1 ∧ aliasDct bs = .ok d2 ∧ d = d1 ++ d2 := by
  induction as generalizing d with
  | nil => exact ⟨[], d, rfl, h, rfl⟩
  | cons s as ih =>
    rw [List.cons_append, aliasDct] at h
    obtain ⟨ns, h1, h⟩ := except_bind_ok h
    obtain ⟨rest, h2, h⟩ := except_bind_ok h
    cases h
    obtain ⟨d1, d2, g1, g2, g3⟩ := ih h2
    refine ⟨ns ++ d1, d2, ?_, g2, by rw [g3, List.append_assoc]⟩
    rw [aliasDct, h1]
    show (aliasDct as >>= fun rest => _) = _
    rw [g1]; rfl

theorem aliasDct_none {ss : List Node} {d : List (Str × Str)} {k : Str} (h : aliasDct ss = .ok d) (hk : ∀ s ∈ ss, ¬ KnownAs s k) :
    dictGet d k = none := by
  induction ss generalizing d with
  | nil => cases h; rfl
  | cons s ss ih =>
    rw [aliasDct] at h
    obtain ⟨ns, h1, h⟩ := except_bind_ok h
    obtain ⟨rest, h2, h⟩ := except_bind_ok h
    cases h
    rw [dictGet_append, ih h2 (fun s hs => hk s (List.mem_cons_of_mem _ hs))]
    obtain ⟨id, _, _, h5⟩ := styleNames_ok h1
    exact dictGet_none (fun e he hek => hk s List.mem_cons_self ((h5 k).1 ⟨e, he, hek⟩))

/-- C48: looking up a name gives the merged formatting of the `w:basedOn` chain (root first) of the last style of that
type known under the name, be it as id or as alias. -/
theorem C48_chain (doc : Node) (ty name id : Str) (earlier later : List Node) (style : Node) (ids : List Str)
    (layers : List (Option RunProps)) (hids : ∀ s ∈ stylesOfType doc ty, (s.attr? c!"w:styleId").isSome)
    (hs : stylesOfType doc ty = earlier ++ style :: later) (hk : KnownAs style name) (hl : ∀ s ∈ later, ¬ KnownAs s name)
    (hid : style.attr? c!"w:styleId" = some id) (hc : Chain doc ty id ids layers) :
    (getStyle doc ty name []).1 = .ok (mergeLayers layers) := by
  have hd : ∀ ss : List Node, (∀ s ∈ ss, (s.attr? c!"w:styleId").isSome) → ∃ d, aliasDct ss = .ok d := by
    intro ss
    induction ss with
    | nil => intro _; exact ⟨[], rfl⟩
    | cons s ss ih =>
      intro h
      obtain ⟨d, hd⟩ := ih (fun s hs => h s (List.mem_cons_of_mem _ hs))
      obtain ⟨i, hi⟩ := Option.isSome_iff_exists.1 (h s List.mem_cons_self)
      rw [aliasDct, styleNames, hi]
      simp only [reqAttr, bind, Except.bind, hd]
      exact ⟨_, rfl⟩
  obtain ⟨d, hd⟩ := hd _ hids
  unfold getStyle
  rw [hd]
  have hget : dictGet d name = some id := by
    rw [hs] at hd
    obtain ⟨d1, d2, h1, h2, h3⟩ := aliasDct_append hd
    rw [aliasDct] at h2
    obtain ⟨ns, h4, h2⟩ := except_bind_ok h2
    obtain ⟨rest, h5, h2⟩ := except_bind_ok h2
    cases h2
    obtain ⟨id', h6, h7, h8⟩ := styleNames_ok h4
    rw [hid] at h6
    cases h6
    rw [h3, dictGet_append, dictGet_append, aliasDct_none h5 hl, dictGet_const h7 ((h8 name).2 hk)]
  simp only [hget]
  rcases (cached_raw (styleFuel doc ty) id [] (by intro ty id v hm; cases hm)).2.1 with h1 | ⟨h1, _⟩
  · rw [h1, chain_raw hc _ (chain_length hc)]
  · rw [chain_raw hc _ (chain_length hc)] at h1; cases h1

/-- C48: a name under which no style of the type is known, and a style which is (indirectly) based on itself or on a
missing style, never yield formatting. -/
theorem C48_no_formatting (doc : Node) (ty name : Str)
    (h : ∀ s ∈ stylesOfType doc ty, KnownAs s name → ∀ id ids layers, s.attr? c!"w:styleId" = some id → ¬ Chain doc ty id ids layers) :
    ∃ e, (getStyle doc ty name []).1 = .error e := by
  unfold getStyle
  split
  · exact ⟨_, rfl⟩
  · rename_i d hd
    split
    · exact ⟨_, rfl⟩
    · rename_i id hid
      have hmem : ∃ s ∈ stylesOfType doc ty, KnownAs s name ∧ s.attr? c!"w:styleId" = some id := by
        clear h
        generalize stylesOfType doc ty = ss at hd
        induction ss generalizing d with
        | nil => cases hd; cases hid
        | cons s ss ih =>
          rw [aliasDct] at hd
          obtain ⟨ns, h1, hd⟩ := except_bind_ok hd
          obtain ⟨rest, h2, hd⟩ := except_bind_ok hd
          cases hd
          rw [dictGet_append] at hid
          cases hr : dictGet rest name with
          | some v =>
            rw [hr] at hid
            cases hid
            obtain ⟨s', g1, g2⟩ := ih rest hr h2
            exact ⟨s', List.mem_cons_of_mem _ g1, g2⟩
          | none =>
            rw [hr] at hid
            obtain ⟨id', h3, h4, h5⟩ := styleNames_ok h1
            have hm := List.mem_reverse.1 (lookup_some_mem hid)
            have := h4 _ hm
            simp only at this
            exact ⟨s, List.mem_cons_self, (h5 name).1 ⟨_, hm, rfl⟩, by rw [this]; exact h3⟩
      obtain ⟨s, h1, h2, h3⟩ := hmem
      cases hr : (cachedStyle doc ty (styleFuel doc ty) id []).1 with
      | error e => exact ⟨e, rfl⟩
      | ok v =>
        obtain ⟨ids, layers, hc, _⟩ := (cached_raw (styleFuel doc ty) id [] (by intro ty id v hm; cases hm)).2.2 v hr
        exact absurd hc (h s h1 h2 id ids layers h3)

/-- character styles: `Base` (bold), `Derived` (alias `My Derived`, based on `Base`, italics and not bold), `Loop` based on itself -/
def exStyles : Node := .elem c!"w:styles" []
  [.elem c!"w:style" [(c!"w:type", c!"character"), (c!"w:styleId", c!"Base")] [.elem wRPr [] [.elem c!"w:b" [] [], .elem c!"w:color" [(aVal, c!"FF0000")] []]],
   .elem c!"w:style" [(c!"w:type", c!"character"), (c!"w:styleId", c!"Derived")]
     [.elem c!"w:aliases" [(aVal, c!"Other, My Derived")] [], .elem c!"w:basedOn" [(aVal, c!"Base")] [],
      .elem wRPr [] [.elem c!"w:b" [(aVal, c!"0")] [], .elem c!"w:i" [] []]],
   .elem c!"w:style" [(c!"w:type", c!"character"), (c!"w:styleId", c!"Loop")] [.elem c!"w:basedOn" [(aVal, c!"Loop")] []]]

example : Chain exStyles c!"character" c!"Derived" [c!"Base", c!"Derived"]
    [some ⟨some true, none, none, none, none, some c!"FF0000"⟩, some ⟨some false, some true, none, none, none, none⟩] :=
  .based rfl rfl rfl (.root rfl rfl rfl)

example : (getStyle exStyles c!"character" c!"My Derived" []).1.toOption = some (some ⟨some false, some true, none, none, none, some c!"FF0000"⟩) := by
  decide +kernel

example : (getStyle exStyles c!"character" c!"My Derived" (afterLookups exStyles [] [(c!"character", c!"Base"), (c!"character", c!"Loop")])).1.toOption =
    some (some ⟨some false, some true, none, none, none, some c!"FF0000"⟩) := by
  decide +kernel

example : (getStyle exStyles c!"character" c!"Loop" []).1.toOption = none := by decide +kernel

end Spex
