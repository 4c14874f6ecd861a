import Verif.Props.LeftPage
import Verif.Props.ListStyle
/-
# C85: which Word files can be opened

The four XML files of a Word document which are read (docx/document.py:24-36, numbering.py:104-150, header.py:15-24, styles.py:26-67), and what each of them must hold.
-/
set_option autoImplicit false
namespace Spex
variable [Uni]

/-! ### Specification -/

/-- the attribute is there and an integer -/
def IntAttr (o : Option Str) : Prop := ∃ s i, o = some s ∧ WholeNumber s i

/-- What the file with the numberings must hold: ids which are integers, and for each level its number, its format and its text. -/
def NumberingOk (root : Node) : Prop :=
  (∀ a ∈ root.childs c!"w:abstractNum", IntAttr (a.attr? c!"w:abstractNumId") ∧ ∀ l ∈ a.childs c!"w:lvl",
    IntAttr (l.attr? c!"w:ilvl") ∧ (∃ s, l.attrFirst [c!"w:numFmt"] c!"w:val" = some s) ∧ ∃ s, l.attrFirst [c!"w:lvlText"] c!"w:val" = some s) ∧
  ∀ n ∈ root.childs c!"w:num", IntAttr (n.attr? c!"w:numId") ∧ IntAttr (n.attrFirst [c!"w:abstractNumId"] c!"w:val")

/-- What the file with the styles must hold: an id for each style of a paragraph or of characters. -/
def StylesOk (root : Node) : Prop :=
  ∀ s ∈ root.childs c!"w:style", s.attr? c!"w:type" = some c!"paragraph" ∨ s.attr? c!"w:type" = some c!"character" → ∃ id, s.attr? c!"w:styleId" = some id

/-! ### Lemmas -/

omit [Uni] in
theorem mapM_ok_iff {α β : Type} (f : α → Except Exn β) (l : List α) : (∃ r, l.mapM f = .ok r) ↔ ∀ a ∈ l, ∃ b, f a = .ok b := by
  induction l with
  | nil => exact ⟨fun _ a ha => by simp at ha, fun _ => ⟨[], rfl⟩⟩
  | cons a l ih =>
    rw [List.mapM_cons]
    cases ha : f a with
    | error e =>
      constructor
      · rintro ⟨r, hr⟩; cases hr
      · intro h
        obtain ⟨b, hb⟩ := h a (.head _)
        rw [ha] at hb; cases hb
    | ok b =>
      constructor
      · rintro ⟨r, hr⟩ x hx
        rcases List.mem_cons.1 hx with rfl | hx
        · exact ⟨b, ha⟩
        · refine ih.1 ?_ x hx
          cases hm : l.mapM f with
          | error e => rw [hm] at hr; cases hr
          | ok bs => exact ⟨bs, rfl⟩
      · intro h
        obtain ⟨bs, hbs⟩ := ih.2 fun x hx => h x (.tail _ hx)
        exact ⟨b :: bs, by rw [hbs]; rfl⟩

omit [Uni] in
theorem mapM_err {α β : Type} {f : α → Except Exn β} {e : Exn} {l : List α} (h : l.mapM f = .error e) : ∃ a ∈ l, f a = .error e := by
  induction l with
  | nil => cases h
  | cons a l ih =>
    rw [List.mapM_cons] at h
    cases ha : f a with
    | error e' =>
      rw [ha] at h
      injection h with h
      subst h
      exact ⟨a, .head _, ha⟩
    | ok b =>
      rw [ha] at h
      cases hm : l.mapM f with
      | error e' =>
        rw [hm] at h
        injection h with h
        subst h
        obtain ⟨x, hx, hxe⟩ := ih hm
        exact ⟨x, .tail _ hx, hxe⟩
      | ok bs => rw [hm] at h; cases h

theorem pyInt_key (s : Str) : pyInt s ≠ .error .keyError := fun h => by cases pyInt_err s _ h

omit [Uni] in
theorem reqAttr_key {α : Type} (o : Option α) : reqAttr o ≠ .error .keyError := by cases o <;> simp [reqAttr]

theorem intAttr_req (o : Option Str) : (∃ i, (reqAttr o >>= pyInt) = .ok i) ↔ IntAttr o := by
  cases o with
  | none => exact ⟨fun ⟨i, h⟩ => (by cases h), fun ⟨s, i, h, _⟩ => (by cases h)⟩
  | some s => exact ⟨fun ⟨i, h⟩ => ⟨s, i, rfl, (C96_number s i).1 h⟩, fun ⟨s', i, h, h'⟩ => by cases h; exact ⟨i, (C96_number s i).2 h'⟩⟩

theorem parseLvl_iff (a : Int) (l : Node) : (∃ r, parseLvl a l = .ok r) ↔
    IntAttr (l.attr? c!"w:ilvl") ∧ (∃ s, l.attrFirst [c!"w:numFmt"] c!"w:val" = some s) ∧ ∃ s, l.attrFirst [c!"w:lvlText"] c!"w:val" = some s := by
  rw [← intAttr_req]
  unfold parseLvl
  constructor
  · rintro ⟨r, h⟩
    obtain ⟨s, h1, h⟩ := except_bind_ok h
    obtain ⟨i, h2, h⟩ := except_bind_ok h
    obtain ⟨fmt, h3, h⟩ := except_bind_ok h
    obtain ⟨txt, h4, h⟩ := except_bind_ok h
    refine ⟨⟨i, by rw [h1]; exact h2⟩, ?_, ?_⟩
    · cases ho : l.attrFirst [c!"w:numFmt"] c!"w:val" with
      | none => rw [show l.attrFirst [c!"w:numFmt"] aVal = none from ho] at h3; cases h3
      | some s => exact ⟨s, rfl⟩
    · cases ho : l.attrFirst [c!"w:lvlText"] c!"w:val" with
      | none => rw [show l.attrFirst [c!"w:lvlText"] aVal = none from ho] at h4; cases h4
      | some s => exact ⟨s, rfl⟩
  · rintro ⟨⟨i, h1⟩, ⟨s, h2⟩, t, h3⟩
    obtain ⟨s', h4, h5⟩ := except_bind_ok h1
    rw [h4]
    refine ⟨⟨a, i, s, t⟩, ?_⟩
    change (pyInt s' >>= _) = _
    rw [h5]
    change (reqAttr (l.attrFirst [c!"w:numFmt"] c!"w:val") >>= _) = _
    rw [h2]
    change (reqAttr (l.attrFirst [c!"w:lvlText"] c!"w:val") >>= _) = _
    rw [h3]
    rfl

theorem parseLvl_key (a : Int) (l : Node) : parseLvl a l ≠ .error .keyError := by
  unfold parseLvl
  intro h
  cases h1 : reqAttr (l.attr? c!"w:ilvl") with
  | error e => rw [h1] at h; injection h with h; subst h; exact reqAttr_key _ h1
  | ok s =>
    rw [h1] at h
    change (pyInt s >>= _) = _ at h
    cases h2 : pyInt s with
    | error e => rw [h2] at h; injection h with h; subst h; exact pyInt_key _ h2
    | ok i =>
      rw [h2] at h
      change (reqAttr (l.attrFirst [c!"w:numFmt"] aVal) >>= _) = _ at h
      cases h3 : reqAttr (l.attrFirst [c!"w:numFmt"] aVal) with
      | error e => rw [h3] at h; injection h with h; subst h; exact reqAttr_key _ h3
      | ok f =>
        rw [h3] at h
        change (reqAttr (l.attrFirst [c!"w:lvlText"] aVal) >>= _) = _ at h
        cases h4 : reqAttr (l.attrFirst [c!"w:lvlText"] aVal) with
        | error e => rw [h4] at h; injection h with h; subst h; exact reqAttr_key _ h4
        | ok t => rw [h4] at h; cases h

theorem parseAbsNum_iff (a : Node) : (∃ r, parseAbsNum a = .ok r) ↔ IntAttr (a.attr? c!"w:abstractNumId") ∧ ∀ l ∈ a.childs c!"w:lvl",
    IntAttr (l.attr? c!"w:ilvl") ∧ (∃ s, l.attrFirst [c!"w:numFmt"] c!"w:val" = some s) ∧ ∃ s, l.attrFirst [c!"w:lvlText"] c!"w:val" = some s := by
  unfold parseAbsNum
  constructor
  · rintro ⟨r, h⟩
    obtain ⟨s, h1, h⟩ := except_bind_ok h
    obtain ⟨i, h2, h⟩ := except_bind_ok h
    obtain ⟨ls, h3, h⟩ := except_bind_ok h
    exact ⟨(intAttr_req _).1 ⟨i, by rw [h1]; exact h2⟩, fun l hl => (parseLvl_iff i l).1 ((mapM_ok_iff _ _).1 ⟨ls, h3⟩ l hl)⟩
  · rintro ⟨h1, h2⟩
    obtain ⟨i, h1⟩ := (intAttr_req _).2 h1
    obtain ⟨s, h3, h4⟩ := except_bind_ok h1
    obtain ⟨ls, h5⟩ := (mapM_ok_iff (parseLvl i) _).2 fun l hl => (parseLvl_iff i l).2 (h2 l hl)
    rw [h3]
    refine ⟨(i, ls), ?_⟩
    change (pyInt s >>= _) = _
    rw [h4]
    change ((a.childs c!"w:lvl").mapM (parseLvl i) >>= _) = _
    rw [h5]
    rfl

theorem parseAbsNum_key (a : Node) : parseAbsNum a ≠ .error .keyError := by
  unfold parseAbsNum
  intro h
  cases h1 : reqAttr (a.attr? c!"w:abstractNumId") with
  | error e => rw [h1] at h; injection h with h; subst h; exact reqAttr_key _ h1
  | ok s =>
    rw [h1] at h
    change (pyInt s >>= _) = _ at h
    cases h2 : pyInt s with
    | error e => rw [h2] at h; injection h with h; subst h; exact pyInt_key _ h2
    | ok i =>
      rw [h2] at h
      change ((a.childs c!"w:lvl").mapM (parseLvl i) >>= _) = _ at h
      cases h3 : (a.childs c!"w:lvl").mapM (parseLvl i) with
      | error e =>
        rw [h3] at h; injection h with h; subst h
        obtain ⟨l, -, hl⟩ := mapM_err h3
        exact parseLvl_key _ _ hl
      | ok ls => rw [h3] at h; cases h

theorem coerceInt_iff (o : Option Str) : (∃ i, coerceInt o = .ok i) ↔ IntAttr o := by
  cases o with
  | none => exact ⟨fun ⟨i, h⟩ => (by cases h), fun ⟨s, i, h, _⟩ => (by cases h)⟩
  | some s => exact ⟨fun ⟨i, h⟩ => ⟨s, i, rfl, (C96_number s i).1 h⟩, fun ⟨s', i, h, h'⟩ => by cases h; exact ⟨i, (C96_number s i).2 h'⟩⟩

theorem coerceInt_key (o : Option Str) : coerceInt o ≠ .error .keyError := by
  cases o with
  | none => simp [coerceInt]
  | some s => exact pyInt_key s

theorem parseNum_iff (n : Node) : (∃ r, parseNum n = .ok r) ↔ IntAttr (n.attr? c!"w:numId") ∧ IntAttr (n.attrFirst [c!"w:abstractNumId"] c!"w:val") := by
  unfold parseNum
  rw [← coerceInt_iff, ← coerceInt_iff]
  constructor
  · rintro ⟨r, h⟩
    obtain ⟨i, h1, h⟩ := except_bind_ok h
    obtain ⟨j, h2, h⟩ := except_bind_ok h
    exact ⟨⟨i, h1⟩, j, h2⟩
  · rintro ⟨⟨i, h1⟩, j, h2⟩
    refine ⟨(i, j), ?_⟩
    rw [h1]
    change (coerceInt (n.attrFirst [c!"w:abstractNumId"] c!"w:val") >>= _) = _
    rw [h2]
    rfl

theorem parseNum_key (n : Node) : parseNum n ≠ .error .keyError := by
  unfold parseNum
  intro h
  cases h1 : coerceInt (n.attr? c!"w:numId") with
  | error e => rw [h1] at h; injection h with h; subst h; exact coerceInt_key _ h1
  | ok i =>
    rw [h1] at h
    change (coerceInt (n.attrFirst [c!"w:abstractNumId"] aVal) >>= _) = _ at h
    cases h2 : coerceInt (n.attrFirst [c!"w:abstractNumId"] aVal) with
    | error e => rw [h2] at h; injection h with h; subst h; exact coerceInt_key _ h2
    | ok j => rw [h2] at h; cases h

theorem parseNumbering_iff (n : Node) : (∃ r, parseNumbering n = .ok r) ↔ NumberingOk n := by
  unfold parseNumbering
  constructor
  · rintro ⟨r, h⟩
    obtain ⟨as, h1, h⟩ := except_bind_ok h
    obtain ⟨ns, h2, h⟩ := except_bind_ok h
    exact ⟨fun a ha => (parseAbsNum_iff a).1 ((mapM_ok_iff _ _).1 ⟨as, h1⟩ a ha), fun m hm => (parseNum_iff m).1 ((mapM_ok_iff _ _).1 ⟨ns, h2⟩ m hm)⟩
  · rintro ⟨h1, h2⟩
    obtain ⟨as, h1⟩ := (mapM_ok_iff parseAbsNum _).2 fun a ha => (parseAbsNum_iff a).2 (h1 a ha)
    obtain ⟨ns, h2⟩ := (mapM_ok_iff parseNum _).2 fun a ha => (parseNum_iff a).2 (h2 a ha)
    exact ⟨⟨as, ns⟩, by rw [h1, h2]; rfl⟩

theorem parseNumbering_key (n : Node) : parseNumbering n ≠ .error .keyError := by
  unfold parseNumbering
  intro h
  cases h1 : (n.childs c!"w:abstractNum").mapM parseAbsNum with
  | error e =>
    rw [h1] at h; injection h with h; subst h
    obtain ⟨l, -, hl⟩ := mapM_err h1
    exact parseAbsNum_key _ hl
  | ok as =>
    rw [h1] at h
    change ((n.childs c!"w:num").mapM parseNum >>= _) = _ at h
    cases h2 : (n.childs c!"w:num").mapM parseNum with
    | error e =>
      rw [h2] at h; injection h with h; subst h
      obtain ⟨l, -, hl⟩ := mapM_err h2
      exact parseNum_key _ hl
    | ok ns => rw [h2] at h; cases h

omit [Uni] in
theorem styleNames_iff (s : Node) : (∃ r, styleNames s = .ok r) ↔ ∃ id, s.attr? c!"w:styleId" = some id := by
  unfold styleNames
  constructor
  · rintro ⟨r, h⟩
    obtain ⟨id, h1, -⟩ := except_bind_ok h
    cases ho : s.attr? c!"w:styleId" with
    | none => rw [ho] at h1; cases h1
    | some id => exact ⟨id, rfl⟩
  · rintro ⟨id, h⟩
    rw [h]
    exact ⟨_, rfl⟩

omit [Uni] in
theorem aliasDct_iff (ss : List Node) : (∃ r, aliasDct ss = .ok r) ↔ ∀ s ∈ ss, ∃ id, s.attr? c!"w:styleId" = some id := by
  induction ss with
  | nil => exact ⟨fun _ a ha => by simp at ha, fun _ => ⟨[], rfl⟩⟩
  | cons s ss ih =>
    simp only [aliasDct]
    constructor
    · rintro ⟨r, h⟩ x hx
      obtain ⟨ns, h1, h⟩ := except_bind_ok h
      obtain ⟨rest, h2, -⟩ := except_bind_ok h
      rcases List.mem_cons.1 hx with rfl | hx
      · exact (styleNames_iff x).1 ⟨ns, h1⟩
      · exact ih.1 ⟨rest, h2⟩ x hx
    · intro h
      obtain ⟨ns, h1⟩ := (styleNames_iff s).2 (h s (.head _))
      obtain ⟨rest, h2⟩ := ih.2 fun x hx => h x (.tail _ hx)
      exact ⟨ns ++ rest, by rw [h1, h2]; rfl⟩

omit [Uni] in
theorem openStyles_iff (x : Except Exn Node) (s : Node) : openStyles x = .ok s ↔ x = .ok s ∧ StylesOk s := by
  unfold openStyles
  have hmem : ∀ (ty : Str) (st : Node), st ∈ stylesOfType s ty ↔ st ∈ s.childs c!"w:style" ∧ st.attr? c!"w:type" = some ty := by
    intro ty st
    unfold stylesOfType
    rw [List.mem_filter, beq_iff_eq]
  constructor
  · intro h
    obtain ⟨s', h1, h⟩ := except_bind_ok h
    obtain ⟨a, h2, h⟩ := except_bind_ok h
    obtain ⟨b, h3, h⟩ := except_bind_ok h
    injection h with h
    subst h
    refine ⟨h1, fun st hst hty => ?_⟩
    rcases hty with hty | hty
    · exact (aliasDct_iff _).1 ⟨a, h2⟩ st ((hmem _ st).2 ⟨hst, hty⟩)
    · exact (aliasDct_iff _).1 ⟨b, h3⟩ st ((hmem _ st).2 ⟨hst, hty⟩)
  · rintro ⟨rfl, h⟩
    obtain ⟨a, h2⟩ := (aliasDct_iff (stylesOfType s c!"paragraph")).2 fun st hst => h st ((hmem _ st).1 hst).1 (.inl ((hmem _ st).1 hst).2)
    obtain ⟨b, h3⟩ := (aliasDct_iff (stylesOfType s c!"character")).2 fun st hst => h st ((hmem _ st).1 hst).1 (.inr ((hmem _ st).1 hst).2)
    change (aliasDct (stylesOfType s c!"paragraph") >>= _) = _
    rw [h2]
    change (aliasDct (stylesOfType s c!"character") >>= _) = _
    rw [h3]
    rfl

theorem openNumbering_none (x : Except Exn Node) : openNumbering x = .ok none ↔ x = .error .keyError := by
  unfold openNumbering
  cases x with
  | error e =>
    change (if e = .keyError then _ else _) = _ ↔ _
    by_cases h : e = .keyError
    · rw [if_pos h, h]; simp
    · rw [if_neg h]; simp [h]
  | ok n =>
    rw [show (Except.ok n).bind parseNumbering = parseNumbering n from rfl]
    cases hn : parseNumbering n with
    | ok r => simp
    | error e =>
      have : e ≠ .keyError := fun h => by subst h; exact parseNumbering_key n hn
      simp [this]

theorem openNumbering_some (x : Except Exn Node) : (∃ r, openNumbering x = .ok (some r)) ↔ ∃ n, x = .ok n ∧ NumberingOk n := by
  unfold openNumbering
  cases x with
  | error e =>
    change (∃ r, (if e = .keyError then _ else _) = _) ↔ _
    by_cases h : e = .keyError
    · rw [if_pos h]; simp
    · rw [if_neg h]; simp
  | ok n =>
    rw [show (Except.ok n).bind parseNumbering = parseNumbering n from rfl]
    have := parseNumbering_iff n
    cases hn : parseNumbering n with
    | ok r =>
      rw [hn] at this
      exact ⟨fun _ => ⟨n, rfl, this.1 ⟨r, rfl⟩⟩, fun _ => ⟨r, rfl⟩⟩
    | error e =>
      rw [hn] at this
      constructor
      · rintro ⟨r, hr⟩
        simp only at hr
        split at hr <;> cases hr
      · rintro ⟨n', h1, h2⟩
        cases h1
        obtain ⟨r, hr⟩ := this.2 h2
        cases hr

/-! ### C85 -/

/-- **C85** A Word file is opened iff the document, the first header and the styles are there and are XML, each style of a paragraph or of characters has an id, and the numberings
are either missing in the archive or there, XML, and as in `NumberingOk`. There are lists in the document then, as far as the program is concerned, iff the file with the numberings is
there. -/
theorem C85_opened (f : WordFile) : (∃ d, openWord f = .ok d) ↔
    (∃ root, f.document = .ok root) ∧ (∃ h, f.header = .ok h) ∧ (∃ s, f.styles = .ok s ∧ StylesOk s) ∧
      (f.numbering = .error .keyError ∨ ∃ n, f.numbering = .ok n ∧ NumberingOk n) := by
  rw [← openNumbering_some, ← openNumbering_none]
  unfold openWord
  constructor
  · rintro ⟨d, h⟩
    obtain ⟨root, h1, h⟩ := except_bind_ok h
    obtain ⟨num, h2, h⟩ := except_bind_ok h
    obtain ⟨header, h3, h⟩ := except_bind_ok h
    obtain ⟨styles, h4, h⟩ := except_bind_ok h
    refine ⟨⟨root, h1⟩, ⟨header, h3⟩, ⟨styles, (openStyles_iff _ _).1 h4⟩, ?_⟩
    cases num with
    | none => exact .inl h2
    | some r => exact .inr ⟨r, h2⟩
  · rintro ⟨⟨root, h1⟩, ⟨header, h2⟩, ⟨styles, h3⟩, h4⟩
    have h3 := (openStyles_iff _ _).2 h3
    obtain ⟨num, h4⟩ : ∃ num, openNumbering f.numbering = .ok num := by
      rcases h4 with h4 | ⟨r, h4⟩
      · exact ⟨_, h4⟩
      · exact ⟨_, h4⟩
    exact ⟨_, by rw [h1, h2, h3, h4]; rfl⟩

/-- **C85** What is taken from the files: the document, the styles, and the text of the header; and there is a numbering iff the file with the numberings is in the archive. -/
theorem C85_taken {f : WordFile} {doc : WordDoc} {header : Str} (h : openWord f = .ok (doc, header)) :
    f.document = .ok doc.root ∧ f.styles = .ok doc.styles ∧ (∃ hd, f.header = .ok hd ∧ header = headerText hd) ∧
      (doc.numbering = none ↔ f.numbering = .error .keyError) := by
  unfold openWord at h
  obtain ⟨root, h1, h⟩ := except_bind_ok h
  obtain ⟨num, h2, h⟩ := except_bind_ok h
  obtain ⟨hd, h3, h⟩ := except_bind_ok h
  obtain ⟨styles, h4, h⟩ := except_bind_ok h
  cases h
  refine ⟨h1, ((openStyles_iff _ _).1 h4).1, ⟨hd, h3, rfl⟩, ?_⟩
  rw [← openNumbering_none, h2]
  simp

/-- **C85** A run on a Word file which lacks one of these fails, and no model file is written. -/
theorem C85_refused (unzip : Str → WordFile) (layout : List Piece → Str) {w : Files} {s : FPath} {stem bytes : Str}
    (h1 : stem ≠ []) (h2 : s.name = stem ++ c!".docx") (h3 : w s = some bytes) (o : Opts)
    (h : ¬ ((∃ root, (unzip bytes).document = .ok root) ∧ (∃ h, (unzip bytes).header = .ok h) ∧ (∃ s, (unzip bytes).styles = .ok s ∧ StylesOk s) ∧
      ((unzip bytes).numbering = .error .keyError ∨ ∃ n, (unzip bytes).numbering = .ok n ∧ NumberingOk n))) :
    (∃ e, (runSpec (stageTools unzip layout) o w s).2 = .error e) ∧
      (runSpec (stageTools unzip layout) o w s).1 ⟨o.out, stem ++ c!".json"⟩ = w ⟨o.out, stem ++ c!".json"⟩ := by
  rw [← C85_opened] at h
  cases ho : openWord (unzip bytes) with
  | ok d => exact absurd ⟨d, ho⟩ h
  | error e =>
    obtain ⟨k1, k2⟩ := C65_first_stage_failure unzip layout h1 h2 h3 o e (.inl ho)
    exact ⟨⟨e, k1⟩, k2⟩

/-! ### Examples -/

omit [Uni] in
/-- a file with numberings and styles which is opened; what `C85_opened` asks for follows from it -/
example : letI := Uni.ascii
    (∃ d, openWord (exListFile [exLevel "0" "decimal" "%1."] [exItem "0" "a"]) = .ok d) ∧
      ∃ n, (exListFile [exLevel "0" "decimal" "%1."] [exItem "0" "a"]).numbering = .ok n ∧ NumberingOk n := by
  let _ := Uni.ascii
  have h : ∃ d, openWord (exListFile [exLevel "0" "decimal" "%1."] [exItem "0" "a"]) = .ok d := by
    have : (openWord (exListFile [exLevel "0" "decimal" "%1."] [exItem "0" "a"])).isOk = true := by decide +kernel
    cases ho : openWord (exListFile [exLevel "0" "decimal" "%1."] [exItem "0" "a"]) with
    | ok d => exact ⟨d, rfl⟩
    | error e => rw [ho] at this; cases this
  obtain ⟨-, -, -, h4⟩ := (C85_opened _).1 h
  rcases h4 with h4 | h4
  · cases h4
  · exact ⟨h, h4⟩

omit [Uni] in
/-- files which are refused: a level without a text, a level whose number is none, a style without id, no header -/
example : letI := Uni.ascii
    exnOf (openWord (exListFile [.elem c!"w:lvl" [(c!"w:ilvl", c!"0")] [.elem c!"w:numFmt" [(aVal, c!"decimal")] []]] [])) = some .runtimeError ∧
    exnOf (openWord (exListFile [exLevel "x" "decimal" "%1."] [])) = some .valueError ∧
    exnOf (openWord { exFile exHeader with styles := .ok (.elem c!"w:styles" [] [.elem c!"w:style" [(c!"w:type", c!"character")] []]) }) = some .runtimeError ∧
    exnOf (openWord { exFile exHeader with header := .error .keyError }) = some .keyError ∧
    (openWord { exFile exHeader with styles := .ok (.elem c!"w:styles" [] [.elem c!"w:style" [(c!"w:type", c!"table")] []]) }).isOk = true := by
  decide +kernel

end Spex
