import Verif.Lemmas.Page
import Verif.Lemmas.RegexMem
import Verif.Props.WordTables
/-
The parsed document can be written: texts, tags and ids.
-/
set_option autoImplicit false
namespace Spex

/-! ### Harmless names and values -/

theorem nameChar_value {q c : Char} (hq : q = '"' ∨ q = '\'') (h : isNameChar c = true) :
    c ≠ q ∧ c ≠ '<' ∧ c ≠ '&' ∧ isXmlSpace c = (c == ' ') ∧ isXmlChar c = true := by
  have h2 := nameChar_plain h
  have : ∀ x, isNameChar x = false → c ≠ x := by
    intro x hx he
    rw [he, hx] at h; cases h
  have hsp : isXmlSpace c = false := by
    unfold isXmlSpace
    have h1 := this ' ' (by decide)
    have h3 := this '\t' (by decide)
    have h4 := this '\n' (by decide)
    simp [h1, h3, h4, h2.1]
  refine ⟨?_, this _ (by decide), this _ (by decide), ?_, h2.2⟩
  · rcases hq with rfl | rfl <;> exact this _ (by decide)
  · rw [hsp]
    have h1 := this ' ' (by decide)
    simp [h1]

theorem nameChars_value {q : Char} {v : Str} (hq : q = '"' ∨ q = '\'') (h : ∀ c ∈ v, isNameChar c = true) : SafeValue q v :=
  fun c hc => nameChar_value hq (h c hc)

theorem natStr_digits (n : Nat) : ∀ c ∈ natStr n, isNameChar c = true := by
  unfold natStr
  intro c hc
  rw [List.mem_reverse] at hc
  generalize n + 1 = f at hc
  induction f generalizing n with
  | zero => simp [natDigitsRev] at hc
  | succ f ih =>
    have hd : ∀ k, k < 10 → isNameChar (Char.ofNat (48 + k)) = true := by decide
    rw [natDigitsRev] at hc
    split at hc
    · rename_i hn
      rw [List.mem_singleton] at hc
      rw [hc]
      exact hd n hn
    · rcases List.mem_cons.1 hc with rfl | hc
      · exact hd _ (Nat.mod_lt _ (by decide))
      · exact ih _ hc

theorem intStr_chars (i : Int) : ∀ c ∈ intStr i, isNameChar c = true := by
  cases i with
  | ofNat n => exact natStr_digits n
  | negSucc n =>
    intro c hc
    rcases List.mem_cons.1 hc with rfl | hc
    · decide
    · exact natStr_digits _ c hc

theorem isName_of {s : Str} (h1 : s ≠ []) (h2 : s.head?.all isNameStart = true) (h3 : s.all isNameChar = true) : IsName s := by
  refine ⟨h1, ?_, fun c hc => List.all_eq_true.1 h3 c hc⟩
  intro c hc
  cases s with
  | nil => simp at hc
  | cons d s =>
    simp only [List.head?_cons, Option.mem_def, Option.some.injEq] at hc
    subst hc
    simpa using h2

/-- for literals -/
theorem isName_lit {s : Str} (h : (!s.isEmpty && s.head?.all isNameStart && s.all isNameChar) = true) : IsName s := by
  simp only [Bool.and_eq_true] at h
  refine isName_of ?_ h.1.2 h.2
  rintro rfl
  simp at h

theorem tag_lit (tag : Str) (q : Char) (hq : q = '"' ∨ q = '\'')
    (h : (!tag.isEmpty && tag.head?.all isNameStart && tag.all isNameChar) = true) : SafeTag tag q [] :=
  ⟨isName_lit h, hq, by simp, trivial⟩

theorem numLvl_tag (l : NumLvl) : l.tag = c!"ol" ∨ l.tag = c!"ul" := by
  unfold NumLvl.tag; split
  · exact .inl rfl
  · exact .inr rfl

theorem list_tag (l : NumLvl) : SafeTag l.tag '"' [(c!"class", l.clsname)] ∧ isLeafTag l.tag = false := by
  have hv : SafeValue '"' l.clsname := by
    refine nameChars_value (.inl rfl) ?_
    intro c hc'
    unfold NumLvl.clsname at hc'
    rcases List.mem_append.1 hc' with hc | hc <;> clear hc'
    · rcases numLvl_tag l with h | h <;> rw [h] at hc <;> clear h <;> revert c
      · exact (by decide : ∀ c ∈ c!"ol", isNameChar c = true)
      · exact (by decide : ∀ c ∈ c!"ul", isNameChar c = true)
    · exact intStr_chars _ c hc
  refine ⟨⟨?_, .inl rfl, ?_, ⟨rfl, trivial⟩⟩, ?_⟩
  · rcases numLvl_tag l with h | h <;> rw [h] <;> exact isName_lit (by decide)
  · intro a ha
    rw [List.mem_singleton] at ha
    subst ha
    exact ⟨isName_lit (s := c!"class") (by decide), hv⟩
  · rcases numLvl_tag l with h | h <;> rw [h] <;> decide

/-- classes have harmless names -/
structure Classes.Ok (cls : Classes) : Prop where
  span : ∀ p n, cls.span p = some n → SafeValue '"' n
  cell : ∀ f n, cls.cell f = some n → SafeValue '"' n

theorem lookup_mem {α β : Type} [BEq α] [LawfulBEq α] {l : List (α × β)} {k : α} {v : β} (h : l.lookup k = some v) : (k, v) ∈ l := by
  induction l with
  | nil => cases h
  | cons e l ih =>
    rcases e with ⟨k', v'⟩
    rw [List.lookup_cons] at h
    by_cases hk : k = k'
    · subst hk
      simp at h
      rw [h]; exact List.mem_cons_self
    · have : (k == k') = false := by simpa using hk
      rw [this] at h
      exact List.mem_cons_of_mem _ (ih h)

theorem CssCache.Ok.name {c : CssCache} (h : c.Ok) (hp : ∀ x ∈ c.pre, isNameChar x = true) {k : Attrs} {n : Str}
    (hl : c.entries.lookup k = some n) : SafeValue '"' n := by
  obtain ⟨-, i, rfl⟩ := h.named _ (lookup_mem hl)
  refine nameChars_value (.inl rfl) ?_
  intro x hx
  rcases List.mem_append.1 hx with hx | hx
  · exact hp x hx
  · exact natStr_digits i x hx

theorem classesOf_ok {st : RSt} (h : st.Ok) : (classesOf st).Ok := by
  refine ⟨fun p n hn => h.txt.name ?_ hn, fun f n hn => h.tcell.name ?_ hn⟩
  · rw [h.pre1]; decide
  · rw [h.pre2]; decide

/-! ### What can be written -/

/-- characters which XML allows -/
def XmlText (s : Str) : Prop := ∀ c ∈ s, isXmlChar c = true

mutual
def HItem.Ok : HItem → Prop
  | .item spans => ∀ s ∈ spans, XmlText s.text
  | .list _ elems => itemsOk elems
def itemsOk : List HItem → Prop
  | [] => True
  | e :: es => e.Ok ∧ itemsOk es
end

/-- an id can be written -/
def IdOk (id : Option Str) : Prop := ∀ i, id = some i → SafeValue '\'' i

mutual
def HUnit.Ok : HUnit → Prop
  | .para spans => ∀ s ∈ spans, XmlText s.text
  | .list _ elems => itemsOk elems
  | .table _ id rows => IdOk id ∧ rowsOk rows
def unitsOk : List HUnit → Prop
  | [] => True
  | u :: us => u.Ok ∧ unitsOk us
def rowsOk : List (List HCell) → Prop
  | [] => True
  | r :: rs => cellsOk r ∧ rowsOk rs
def cellsOk : List HCell → Prop
  | [] => True
  | .mk tag elems _ _ _ _ _ :: cells => (tag = c!"td" ∨ tag = c!"th") ∧ unitsOk elems ∧ cellsOk cells
end

theorem unitsOk_append {a b : List HUnit} : unitsOk (a ++ b) ↔ unitsOk a ∧ unitsOk b := by
  induction a with
  | nil => simp [unitsOk]
  | cons x a ih => simp [unitsOk, ih, and_assoc]

theorem WFs_spans {cls : Classes} (hc : cls.Ok) {ss : List HSpan} (h : ∀ s ∈ ss, XmlText s.text) : WFs (ss.map (spanT cls)) := by
  induction ss with
  | nil => rw [List.map_nil, WFs]; trivial
  | cons s ss ih =>
    rw [List.map_cons, WFs]
    refine ⟨?_, ih (fun x hx => h x (List.mem_cons_of_mem _ hx))⟩
    rw [spanT, HTree.WF]
    refine ⟨?_, by decide, h s (by simp)⟩
    cases hs : s.style.bind cls.span with
    | none => exact tag_lit _ _ (.inl rfl) (by decide)
    | some n =>
      refine ⟨isName_lit (by decide), .inl rfl, ?_, ⟨rfl, trivial⟩⟩
      intro a ha
      rw [optAttr, List.mem_singleton] at ha
      subst ha
      refine ⟨isName_lit (s := c!"class") (by decide), ?_⟩
      cases hst : s.style with
      | none => rw [hst] at hs; cases hs
      | some p => rw [hst] at hs; exact hc.span p n hs

theorem WFs_li {ns : List HTree} (h : WFs ns) : WFs (liT ns) := by
  simp only [liT, WFs, HTree.WF, true_and, and_true]
  exact ⟨tag_lit _ _ (.inl rfl) (by decide), by decide, h⟩

theorem WFs_list {ns : List HTree} (l : NumLvl) (h : WFs ns) : WFs (listT l ns) := by
  simp only [listT, WFs, HTree.WF, true_and, and_true]
  exact ⟨(list_tag l).1, (list_tag l).2, h⟩

/-- a pending item can be written -/
def PendOk (p : Option (List HTree)) : Prop := ∀ ns, p = some ns → WFs ns

theorem WFs_pend {p : Option (List HTree)} (h : PendOk p) : WFs ((p.map liT0).getD []) ∧ WFs (p.getD []) := by
  cases p with
  | none => exact ⟨trivial, trivial⟩
  | some ns => exact ⟨WFs_li (WFs_append.2 ⟨h ns rfl, by simp [WFs, HTree.WF]⟩), h ns rfl⟩

mutual
theorem WF_item {cls : Classes} (hc : cls.Ok) (e : HItem) (he : e.Ok) (p : Option (List HTree)) (hp : PendOk p) :
    WFs (itemT cls p e).1 ∧ PendOk (itemT cls p e).2 := by
  cases e with
  | item spans =>
    rw [HItem.Ok] at he
    rw [itemT]
    refine ⟨(WFs_pend hp).1, fun ns h => ?_⟩
    cases h
    exact WFs_spans hc he
  | list props elems =>
    rw [HItem.Ok] at he
    rw [itemT]
    refine ⟨WFs_li (WFs_append.2 ⟨(WFs_pend hp).2, WFs_list props (WF_items hc elems he none (fun ns h => by cases h))⟩),
      fun ns h => by cases h⟩
theorem WF_items {cls : Classes} (hc : cls.Ok) (es : List HItem) (he : itemsOk es) (p : Option (List HTree)) (hp : PendOk p) :
    WFs (itemsT cls p es) := by
  cases es with
  | nil => rw [itemsT]; exact (WFs_pend hp).1
  | cons e es =>
    rw [itemsOk] at he
    obtain ⟨h1, h2⟩ := WF_item hc e he.1 p hp
    rw [itemsT, WFs_append]
    exact ⟨h1, WF_items hc es he.2 _ h2⟩
end

theorem id_tag {id : Option Str} (h : IdOk id) : SafeTag c!"table" '\'' (idAttr id) := by
  unfold idAttr
  cases id with
  | none => exact tag_lit _ _ (.inr rfl) (by decide)
  | some i =>
    simp only
    split
    · exact tag_lit _ _ (.inr rfl) (by decide)
    · refine ⟨isName_lit (by decide), .inr rfl, ?_, ⟨rfl, trivial⟩⟩
      intro a ha
      rw [List.mem_singleton] at ha
      subst ha
      exact ⟨isName_lit (s := c!"id") (by decide), h i rfl⟩

theorem optAttr_mem {n : Str} {v : Option Str} {a : Str × Str} (h : a ∈ optAttr n v) : a.1 = n ∧ v = some a.2 := by
  cases v with
  | none => simp [optAttr] at h
  | some w =>
    rw [optAttr, List.mem_singleton] at h
    subst h
    exact ⟨rfl, rfl⟩

theorem spanVal_safe {n : Int} {v : Str} (h : spanVal n = some v) : SafeValue '"' v := by
  unfold spanVal at h
  split at h
  · cases h; exact nameChars_value (.inl rfl) (intStr_chars n)
  · cases h

theorem cell_new (a b c : Option Str) : NewNames [] (optAttr c!"colspan" a ++ optAttr c!"rowspan" b ++ optAttr c!"class" c) := by
  cases a <;> cases b <;> cases c <;>
    simp only [optAttr, List.nil_append, List.append_nil, List.cons_append, NewNames, and_true, List.lookup_nil, true_and]
  all_goals (repeat' apply And.intro) <;> rfl

theorem cell_tag {tag : Str} (ht : tag = c!"td" ∨ tag = c!"th") (cs rs : Int) {cls : Option Str}
    (hc : ∀ n, cls = some n → SafeValue '"' n) : SafeTag tag '"' (cellAttrs cs rs cls) ∧ isLeafTag tag = false := by
  refine ⟨⟨?_, .inl rfl, ?_, cell_new _ _ _⟩, ?_⟩
  · rcases ht with rfl | rfl <;> exact isName_lit (by decide)
  · intro a ha
    unfold cellAttrs at ha
    rcases List.mem_append.1 ha with ha | ha
    · rcases List.mem_append.1 ha with ha | ha
      · obtain ⟨h1, h2⟩ := optAttr_mem ha
        rw [h1]; exact ⟨isName_lit (by decide), spanVal_safe h2⟩
      · obtain ⟨h1, h2⟩ := optAttr_mem ha
        rw [h1]; exact ⟨isName_lit (by decide), spanVal_safe h2⟩
    · obtain ⟨h1, h2⟩ := optAttr_mem ha
      rw [h1]; exact ⟨isName_lit (by decide), hc _ h2⟩
  · rcases ht with rfl | rfl <;> decide

mutual
theorem WF_unit {cls : Classes} (hc : cls.Ok) (u : HUnit) (hu : u.Ok) : WFs (unitT cls u) := by
  cases u with
  | para spans =>
    rw [HUnit.Ok] at hu
    simp only [unitT, WFs, HTree.WF, true_and, and_true]
    exact ⟨tag_lit _ _ (.inl rfl) (by decide), by decide, WFs_append.2 ⟨WFs_spans hc hu, by simp [WFs, HTree.WF]⟩⟩
  | list props elems =>
    rw [HUnit.Ok] at hu
    rw [unitT]
    exact WFs_list props (WF_items hc elems hu none (fun ns h => by cases h))
  | table src id rows =>
    rw [HUnit.Ok] at hu
    simp only [unitT, WFs, HTree.WF, true_and, and_true]
    exact ⟨id_tag hu.1, by decide, WF_rows hc 0 rows hu.2⟩
theorem WF_units {cls : Classes} (hc : cls.Ok) (us : List HUnit) (hu : unitsOk us) : WFs (unitsT cls us) := by
  cases us with
  | nil => rw [unitsT, WFs]; trivial
  | cons u us =>
    rw [unitsOk] at hu
    rw [unitsT, WFs_append]
    exact ⟨WF_unit hc u hu.1, WF_units hc us hu.2⟩
theorem WF_rows {cls : Classes} (hc : cls.Ok) (r : Nat) (rows : List (List HCell)) (h : rowsOk rows) : WFs (rowsT cls r rows) := by
  cases rows with
  | nil => rw [rowsT, WFs]; trivial
  | cons row rows =>
    rw [rowsOk] at h
    simp only [rowsT, WFs, HTree.WF, true_and]
    exact ⟨⟨tag_lit _ _ (.inl rfl) (by decide), by decide, WF_cells hc r 0 row h.1⟩, WF_rows hc (r + 1) rows h.2⟩
theorem WF_cells {cls : Classes} (hc : cls.Ok) (r c : Nat) (cells : List HCell) (h : cellsOk cells) : WFs (cellsT cls r c cells) := by
  match cells with
  | [] => rw [cellsT, WFs]; trivial
  | .mk tag elems cs rs left top fill :: cells =>
    rw [cellsOk] at h
    rw [cellsT]
    have hf : ∀ n, fill.bind cls.cell = some n → SafeValue '"' n := by
      intro n hn
      cases fill with
      | none => cases hn
      | some f => exact hc.cell f n hn
    obtain ⟨h1, h2⟩ := cell_tag h.1 cs rs hf
    split
    · simp only [WFs, HTree.WF, true_and]
      exact ⟨⟨h1, h2, WF_units hc elems h.2.1⟩, WF_cells hc r (c + 1) cells h.2.2⟩
    · exact WF_cells hc r (c + 1) cells h.2.2
end

/-! ### The parser yields what can be written -/

theorem mem_flats {k : Node} {ks : List Node} (h : k ∈ ks) {c : Char} (hc : c ∈ k.flat) : c ∈ Node.flats ks := by
  induction ks with
  | nil => cases h
  | cons x ks ih =>
    rw [Node.flats, List.mem_append]
    rcases List.mem_cons.1 h with rfl | h
    · exact .inl hc
    · exact .inr (ih h)

theorem mem_flat_kid {n k : Node} (h : k ∈ n.kids) {c : Char} (hc : c ∈ k.flat) : c ∈ n.flat := by
  cases n with
  | text s => cases h
  | elem t as ks => rw [Node.flat]; exact mem_flats h hc

theorem flat_nodeAt {n m : Node} {p : List Nat} (h : nodeAt n p = some m) {c : Char} (hc : c ∈ m.flat) : c ∈ n.flat := by
  induction p generalizing n with
  | nil => rw [nodeAt] at h; cases h; exact hc
  | cons i p ih =>
    rw [nodeAt] at h
    cases hk : n.kids[i]? with
    | none => rw [hk] at h; cases h
    | some k =>
      rw [hk] at h
      exact mem_flat_kid (List.mem_of_getElem? hk) (ih h)

variable [Uni]

theorem parseRun_chars {doc : WordDoc} {r : Node} {ss : List HSpan} (h : parseRun doc r = .ok ss) :
    ∀ s ∈ ss, ∀ c ∈ s.text, c ∈ r.flat := by
  unfold parseRun at h
  cases ht : (r.first [wT]).bind Node.text? with
  | none => rw [ht] at h; cases h; simp
  | some txt =>
    rw [ht] at h
    obtain ⟨st, -, h⟩ := except_bind_ok h
    cases h
    intro s hs c hc
    rw [List.mem_singleton] at hs
    subst hs
    cases hf : r.first [wT] with
    | none => rw [hf] at ht; cases ht
    | some t =>
      rw [hf] at ht
      have htm : t ∈ r.kids := by
        unfold Node.first at hf
        have := List.mem_of_head? hf
        simp only [Node.steps, List.mem_flatMap, List.mem_singleton] at this
        obtain ⟨a, ha, rfl⟩ := this
        exact (List.mem_filter.1 ha).1
      refine mem_flat_kid htm ?_
      simp only [Option.bind_some, Node.text?] at ht
      split at ht
      · cases ht
      · cases ht
        obtain ⟨k, hk, hc⟩ := List.mem_flatMap.1 hc
        exact mem_flat_kid ((List.takeWhile_prefix _).subset hk) hc

theorem parseSpans_chars {doc : WordDoc} {p : Node} {ss : List HSpan} (h : parseSpans doc p = .ok ss) :
    ∀ s ∈ ss, ∀ c ∈ s.text, c ∈ p.flat := by
  unfold parseSpans at h
  have hsub : ∀ x ∈ p.elems, x ∈ p.kids := fun x hx => (List.mem_filter.1 hx).1
  generalize p.elems = cs at h hsub
  induction cs generalizing ss with
  | nil => rw [parseChildren] at h; cases h; simp
  | cons c cs ih =>
    rw [parseChildren] at h
    obtain ⟨a, h1, h⟩ := except_bind_ok h
    obtain ⟨b, h2, h⟩ := except_bind_ok h
    cases h
    intro s hs x hx
    rcases List.mem_append.1 hs with hs | hs
    · refine mem_flat_kid (hsub c (by simp)) ?_
      unfold parseChild at h1
      obtain ⟨r, h3, h1⟩ := except_bind_ok h1
      cases r with
      | none => cases h1; cases hs
      | some r =>
        have hx' := parseRun_chars h1 s hs x hx
        unfold selectRun at h3
        split at h3
        · cases h3; exact hx'
        · split at h3
          · cases hf : c.first [wR] with
            | none => rw [hf] at h3; cases h3
            | some r' =>
              rw [hf] at h3
              cases h3
              unfold Node.first at hf
              have := List.mem_of_head? hf
              simp only [Node.steps, List.mem_flatMap, List.mem_singleton] at this
              obtain ⟨a', ha, rfl⟩ := this
              exact mem_flat_kid (List.mem_filter.1 ha).1 hx'
          · cases h3
    · exact ih h2 (fun y hy => hsub y (List.mem_cons_of_mem _ hy)) s hs x hx

theorem digit_safe {c : Char} (h : isDigit c = true) (hx : isXmlChar c = true) :
    c ≠ '\'' ∧ c ≠ '<' ∧ c ≠ '&' ∧ isXmlSpace c = (c == ' ') ∧ isXmlChar c = true := by
  have hn : ∀ x : Char, x.toNat < 128 → x.isDigit = false → c ≠ x := by
    rintro x h1 h2 rfl
    unfold isDigit at h
    rw [Uni.digit_ascii _ h1, h2] at h
    cases h
  have h1 := hn ' ' (by decide) (by decide)
  have h2 := hn '\t' (by decide) (by decide)
  have h3 := hn '\n' (by decide) (by decide)
  have h4 := hn '\r' (by decide) (by decide)
  refine ⟨hn _ (by decide) (by decide), hn _ (by decide) (by decide), hn _ (by decide) (by decide), ?_, hx⟩
  unfold isXmlSpace
  rw [beq_false_of_ne h1, beq_false_of_ne h2, beq_false_of_ne h3, beq_false_of_ne h4]
  rfl

/-- the id of a text: the digits after `Figure ` and before a colon, at its beginning -/
theorem idOfText_some {text id : Str} (h : idOfText text = some id) :
    ∃ rest, text = c!"Figure " ++ id ++ ':' :: rest ∧ id ≠ [] ∧ ∀ c ∈ id, isDigit c = true := by
  unfold idOfText at h
  split at h
  · cases h
  · cases hm : tableIdRe.pmatch text with
    | none => rw [hm] at h; cases h
    | some caps =>
      rw [hm] at h
      simp only at h
      obtain ⟨t, -, ht, rfl⟩ := pmatch_some hm
      unfold tableIdRe at ht
      simp only [Re.seqs] at ht
      obtain ⟨t1, h1, ht⟩ := mem_run_seq.1 ht
      rw [Re.run] at h1
      simp only [if_true, List.mem_singleton] at h1
      subst h1
      obtain ⟨t2, h2, ht⟩ := mem_run_seq.1 ht
      rw [mem_run_lit (by simp)] at h2
      obtain ⟨t3, h3, ht⟩ := mem_run_seq.1 ht
      obtain ⟨u, u1, u2, u3, u4, -⟩ := mem_run_grp_plus.1 h3
      obtain ⟨t4, h4, ht⟩ := mem_run_seq.1 ht
      obtain ⟨c, s, c1, c2, rfl⟩ := mem_run_cls.1 h4
      obtain ⟨v, v1, -, v3, -⟩ := mem_run_star.1 ht
      have hc : t.caps = [(1, u)] := by rw [v3]; simp only [u4, h2.2.1]
      rw [hc] at h
      have hid : u = id := by simpa [group] using h
      subst hid
      refine ⟨s, ?_, u1, u2⟩
      have hcc : c = ':' := by simpa [Re.chr] using c2
      have e1 : text = c!"Figure " ++ t2.rest := h2.1
      rw [e1, u3, c1, hcc]
      simp

theorem findId_ok {rows : List (List HCell)} (h : rowsOk rows) : IdOk (findId rows) := by
  intro i hi
  unfold findId at hi
  split at hi
  · rename_i tag spans us cs rs l t f cells rest
    split at hi
    · obtain ⟨rest', h1, -, h3⟩ := idOfText_some hi
      rw [rowsOk, cellsOk, unitsOk, HUnit.Ok] at h
      intro c hc
      have hx : isXmlChar c = true := by
        have : c ∈ spans.flatMap (·.text) := by rw [h1]; simp [hc]
        obtain ⟨s, hs, hcs⟩ := List.mem_flatMap.1 this
        exact h.1.2.1.1 s hs c hcs
      exact digit_safe (h3 c hc) hx
    · cases hi
  · cases hi

omit [Uni] in
theorem cellTag_ok (f : Option Str) : cellTag f = c!"td" ∨ cellTag f = c!"th" := by
  unfold cellTag
  split
  · exact .inl rfl
  · split
    · exact .inr rfl
    · exact .inl rfl

theorem listOf_ok {doc : WordDoc} {a l : Int} {ps : List LNode} {items : List HItem} (h : ListOf doc a l ps items)
    (hps : ∀ p ∈ ps, XmlText p.node.flat) : itemsOk items := by
  induction h with
  | nil => rw [itemsOk]; trivial
  | item h1 h2 h3 ih =>
    rw [itemsOk, HItem.Ok]
    refine ⟨fun s hs c hc => hps _ (by simp) c (parseSpans_chars h2 s hs c hc), ih (fun p hp => hps p (by simp [hp]))⟩
  | nested h1 h2 h3 h4 h5 h6 ih1 ih2 =>
    rw [itemsOk, HItem.Ok]
    exact ⟨ih1 (fun p hp => hps p (by simp at hp ⊢; rcases hp with hp | hp <;> simp [hp])), ih2 (fun p hp => hps p (by simp [hp]))⟩

omit [Uni] in
theorem mapSt_all {α β σ : Type} {f : α → σ → Except Exn (β × σ)} {P : β → Prop} {as : List α}
    (hf : ∀ a ∈ as, ∀ s b s', f a s = .ok (b, s') → P b) : ∀ {s : σ} {bs : List β} {s' : σ},
    mapSt f as s = .ok (bs, s') → ∀ b ∈ bs, P b := by
  induction as with
  | nil => intro s bs s' h; rw [mapSt] at h; cases h; simp
  | cons a as ih =>
    intro s bs s' h
    obtain ⟨b, s1, bs', s2, h1, h2, h3⟩ := mapSt_cons h
    cases h3
    intro x hx
    rcases List.mem_cons.1 hx with rfl | hx
    · exact hf a (by simp) _ _ _ h1
    · exact ih (fun a' ha => hf a' (List.mem_cons_of_mem _ ha)) h2 x hx

omit [Uni] in
theorem cellsOk_iff {cells : List HCell} :
    cellsOk cells ↔ ∀ c ∈ cells, (c.tag = c!"td" ∨ c.tag = c!"th") ∧ unitsOk c.elems := by
  induction cells with
  | nil => simp [cellsOk]
  | cons c cells ih =>
    rcases c with ⟨tag, elems, _, _, _, _, _⟩
    simp [cellsOk, ih, HCell.tag, HCell.elems, and_assoc]

omit [Uni] in
theorem rowsOk_iff {rows : List (List HCell)} : rowsOk rows ↔ ∀ r ∈ rows, cellsOk r := by
  induction rows with
  | nil => simp [rowsOk]
  | cons r rows ih => simp [rowsOk, ih]

omit [Uni] in
theorem unitsOk_iff {us : List HUnit} : unitsOk us ↔ ∀ u ∈ us, u.Ok := by
  induction us with
  | nil => simp [unitsOk]
  | cons u us ih => simp [unitsOk, ih]

theorem parse_ok {doc : WordDoc} (n : Nat) :
    (∀ tbl seen us seen', XmlText tbl.node.flat → parseTable doc n tbl seen = .ok (us, seen') → unitsOk us) ∧
    (∀ stream seen us seen', (∀ c ∈ stream, XmlText c.node.flat) → parseAny doc n stream seen = .ok (us, seen') → unitsOk us) := by
  induction n with
  | zero =>
    refine ⟨fun tbl seen us seen' _ h => ?_, fun s seen us seen' _ h => ?_⟩
    · rw [parseTable] at h; cases h
    · rw [parseAny] at h; cases h
  | succ n ih =>
    refine ⟨?_, ?_⟩
    · intro tbl seen us seen' hx h
      rw [parseTable] at h
      by_cases ht : tbl.node.hasTag wTbl = true
      · rw [if_pos ht] at h
        by_cases hs : tbl.path ∈ seen
        · rw [if_pos hs] at h; cases h; rw [unitsOk]; trivial
        · rw [if_neg hs] at h
          obtain ⟨g, h1, h⟩ := except_bind_ok h
          obtain ⟨⟨rows, s2⟩, h2, h⟩ := except_bind_ok h
          cases h
          obtain ⟨hcells, -⟩ := grid_cells_origin h1
          have hkid : ∀ (l c : LNode), c ∈ l.children → XmlText l.node.flat → XmlText c.node.flat := by
            intro l c hc hl x hxc
            obtain ⟨j, -, hj, -⟩ := children_path hc
            exact hl x (mem_flat_kid (List.mem_of_getElem? hj) hxc)
          have hrows : rowsOk rows := by
            rw [rowsOk_iff]
            refine mapSt_all (as := g.matrix) ?_ h2
            intro row _ s cells s' hrow
            rw [cellsOk_iff]
            refine mapSt_all (as := row) ?_ hrow
            intro k _ s b s' hk
            unfold parseSlot at hk
            cases he : g.els[k]? with
            | none => rw [he] at hk; cases hk
            | some e =>
              rw [he] at hk
              obtain ⟨⟨us, s1⟩, h3, hk⟩ := except_bind_ok hk
              cases hk
              refine ⟨cellTag_ok _, ih.2 _ _ _ _ ?_ h3⟩
              obtain ⟨tr, htr, htc⟩ := hcells e (List.mem_of_getElem? he)
              intro c hc
              exact hkid _ _ hc (hkid _ _ (mem_childs htc).1 (hkid _ _ (mem_childs htr).1 hx))
          show unitsOk [HUnit.table tbl.path (findId rows) rows]
          rw [unitsOk, HUnit.Ok]
          exact ⟨⟨findId_ok hrows, hrows⟩, by rw [unitsOk]; trivial⟩
      · rw [if_neg ht] at h; cases h
    · intro stream seen us seen' hd h
      cases stream with
      | nil => rw [parseAny] at h; cases h; rw [unitsOk]; trivial
      | cons c rest =>
        have hrest : ∀ d ∈ rest, XmlText d.node.flat := fun d hd' => hd d (List.mem_cons_of_mem _ hd')
        rw [parseAny] at h
        by_cases ht : c.node.hasTag wTbl = true
        · rw [if_pos ht] at h
          obtain ⟨⟨t, s1⟩, h1, h⟩ := except_bind_ok h
          obtain ⟨⟨us', s2⟩, h2, h⟩ := except_bind_ok h
          cases h
          rw [unitsOk_append]
          exact ⟨ih.1 _ _ _ _ (hd c (by simp)) h1, ih.2 _ _ _ _ hrest h2⟩
        · rw [if_neg ht] at h
          by_cases hp : c.node.hasTag wP = true
          · rw [if_pos hp] at h
            obtain ⟨isList, h1, h⟩ := except_bind_ok h
            cases isList with
            | true =>
              simp only [if_true] at h
              obtain ⟨⟨it, rest'⟩, h2, h⟩ := except_bind_ok h
              obtain ⟨⟨us', s2⟩, h3, h⟩ := except_bind_ok h
              obtain ⟨a, l, props, items, ps, g1, g2, -, -, g5, -⟩ := (parseList_spec doc _).1 _ _ _ _ h2 h1
              simp only [g1] at h
              cases h
              rw [unitsOk, HUnit.Ok]
              refine ⟨listOf_ok g5 ?_, ih.2 _ _ _ _ (fun d hd => hrest d (by rw [g2]; exact List.mem_append_right _ hd)) h3⟩
              intro p hp
              rcases List.mem_cons.1 hp with rfl | hp
              · exact hd _ (by simp)
              · exact hrest p (by rw [g2]; exact List.mem_append_left _ hp)
            | false =>
              simp only [Bool.false_eq_true, if_false] at h
              obtain ⟨ps, h2, h⟩ := except_bind_ok h
              obtain ⟨⟨us', s2⟩, h3, h⟩ := except_bind_ok h
              cases h
              rw [unitsOk_append]
              refine ⟨?_, ih.2 _ _ _ _ hrest h3⟩
              unfold parseParagraph at h2
              obtain ⟨spans, hsp, h2⟩ := except_bind_ok h2
              split at h2 <;> cases h2
              · rw [unitsOk]; trivial
              · rw [unitsOk, HUnit.Ok]
                refine ⟨fun s hs x hx => hd c (by simp) x (parseSpans_chars hsp s hs x hx), by rw [unitsOk]; trivial⟩
          · rw [if_neg hp] at h
            exact ih.2 _ _ _ _ hrest h

theorem parseWord_ok {doc : WordDoc} (hx : XmlText doc.root.flat) {us : List HUnit} (h : parseWord doc = .ok us) : unitsOk us := by
  unfold parseWord at h
  obtain ⟨⟨uss, s⟩, h1, h⟩ := except_bind_ok h
  cases h
  rw [unitsOk_iff]
  intro u hu
  obtain ⟨us, hus, hu⟩ := List.mem_flatten.1 hu
  have := mapSt_all (P := unitsOk) (as := docTables doc.root) (fun t ht s b s' hb =>
    (parse_ok _).1 _ _ _ _ (fun c hc => hx c (flat_nodeAt (mem_docTables.1 ht).1 hc)) hb) h1 us hus
  exact unitsOk_iff.1 this u hu

end Spex
