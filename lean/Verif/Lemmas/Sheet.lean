import Verif.Model.Browser
import Verif.Model.FirstStage
import Verif.Props.Cli
import Verif.Props.JsonText
/-
Reading the style sheet.
-/
set_option autoImplicit false
namespace Spex

/-! ### comments -/

theorem drop_plain (a b : Str) (h : '/' ∉ a) : dropComments false (a ++ b) = a ++ dropComments false b := by
  induction a with
  | nil => rfl
  | cons c a ih =>
    simp only [List.mem_cons, not_or] at h
    rw [List.cons_append, List.cons_append, ← ih h.2, dropComments]
    intro s' hc
    exact absurd hc.symm h.1

theorem drop_comment (b t : Str) (h : '*' ∉ b) : dropComments true (b ++ '*' :: '/' :: t) = dropComments false t := by
  induction b with
  | nil => rfl
  | cons c b ih =>
    simp only [List.mem_cons, not_or] at h
    rw [List.cons_append, ← ih h.2, dropComments]
    intro s' hc
    exact absurd hc.symm h.1

/-! ### white space -/

/-- white space only -/
def CssBlank (w : Str) : Prop := ∀ c ∈ w, cssSpace c = true

theorem CssBlank.nil : CssBlank [] := fun _ h => by cases h

theorem CssBlank.append {a b : Str} (ha : CssBlank a) (hb : CssBlank b) : CssBlank (a ++ b) := by
  intro c hc
  rcases List.mem_append.1 hc with h | h
  · exact ha c h
  · exact hb c h

theorem CssBlank.line {w : Str} (h : Blanks w) : CssBlank ('\n' :: w) := by
  intro c hc
  rcases List.mem_cons.1 hc with rfl | hc
  · rfl
  · rcases h c hc with rfl | rfl <;> rfl

theorem CssBlank.not {w : Str} (h : CssBlank w) {x : Char} (hx : cssSpace x = false) : x ∉ w := by
  intro hm
  rw [h x hm] at hx; cases hx

theorem css_blank (w s : Str) (h : CssBlank w) : cssWords (w ++ s) = cssWords s := by
  induction w with
  | nil => rfl
  | cons c w ih =>
    unfold cssWords at ih ⊢
    rw [List.cons_append, cssWordsAux, if_pos (h c List.mem_cons_self)]
    simp only [List.isEmpty_nil, if_true]
    exact ih (fun x hx => h x (List.mem_cons_of_mem _ hx))

theorem lstrip_blank (w s : Str) (h : CssBlank w) : stripBy cssSpace (w ++ s) = stripBy cssSpace s := by
  unfold stripBy lstripBy
  congr 1
  induction w with
  | nil => rfl
  | cons c w ih =>
    rw [List.cons_append, List.dropWhile_cons, if_pos (h c List.mem_cons_self)]
    exact ih (fun x hx => h x (List.mem_cons_of_mem _ hx))

theorem splitOn_append (sep : Char) (a b : Str) : splitOn sep (a ++ sep :: b) = splitOn sep a ++ splitOn sep b := by
  induction a with
  | nil => simp [splitOn]
  | cons c a ih =>
    rw [List.cons_append, splitOn, splitOn, ih]
    by_cases hc : c = sep
    · rw [if_pos hc, if_pos hc]; rfl
    · rw [if_neg hc, if_neg hc]
      cases h : splitOn sep a with
      | nil => exact absurd h (splitOn_ne_nil _ _)
      | cons w ws => rfl

theorem splitOn_lead (sep : Char) (w s : Str) (h : sep ∉ w) : ∃ x xs, splitOn sep s = x :: xs ∧ splitOn sep (w ++ s) = (w ++ x) :: xs := by
  cases hs : splitOn sep s with
  | nil => exact absurd hs (splitOn_ne_nil _ _)
  | cons x xs =>
    refine ⟨x, xs, rfl, ?_⟩
    induction w with
    | nil => exact hs
    | cons c w ih =>
      simp only [List.mem_cons, not_or] at h
      rw [List.cons_append, splitOn, if_neg (fun e => h.1 e.symm), ih h.2]
      rfl

/-! ### declarations -/

theorem readDecl_blank (w s : Str) (h : CssBlank w) : readDecl (w ++ s) = readDecl s := by
  have hn := h.not (x := ':') (by decide)
  have hp : ∀ a ∈ w, (a != ':') = true := fun a ha => by
    simp only [bne_iff_ne, ne_eq]
    rintro rfl; exact hn ha
  unfold readDecl
  simp only [List.mem_append, hn, false_or]
  rw [List.takeWhile_append_of_pos hp, List.dropWhile_append_of_pos hp, lstrip_blank _ _ h]

theorem readDecls_append (a b : Str) : readDecls (a ++ ';' :: b) = readDecls a ++ readDecls b := by
  unfold readDecls
  rw [splitOn_append, List.filterMap_append]

theorem readDecls_blank (w s : Str) (h : CssBlank w) : readDecls (w ++ s) = readDecls s := by
  obtain ⟨x, xs, h1, h2⟩ := splitOn_lead ';' w s (h.not (by decide))
  unfold readDecls
  rw [h1, h2, List.filterMap_cons, List.filterMap_cons, readDecl_blank _ _ h]

theorem readDecls_only (w : Str) (h : CssBlank w) : readDecls w = [] := by
  have := readDecls_blank w [] h
  rw [List.append_nil] at this
  rw [this]; rfl

/-! ### the style sheet as a text -/

/-- one declaration as it is written -/
def declText (a : Str × Str) : Str := a.1 ++ c!": " ++ a.2

inductive BodyText : Attrs → Str → Prop where
  | nil {w : Str} (hw : CssBlank w) : BodyText [] w
  | cons {a : Str × Str} {as : Attrs} {w t : Str} (hw : CssBlank w) (ht : BodyText as t) :
      BodyText (a :: as) (w ++ declText a ++ ';' :: t)

inductive SheetText : List (Str × Attrs) → Str → Prop where
  | nil {w : Str} (hw : CssBlank w) : SheetText [] w
  | comment {rs : List (Str × Attrs)} {w b t : Str} (hw : CssBlank w) (hb : '*' ∉ b) (ht : SheetText rs t) :
      SheetText rs (w ++ '/' :: '*' :: b ++ '*' :: '/' :: t)
  | rule {sel : Str} {attrs : Attrs} {rs : List (Str × Attrs)} {w b t : Str} (hw : CssBlank w) (hb : BodyText attrs b) (ht : SheetText rs t) :
      SheetText ((sel, attrs) :: rs) (w ++ sel ++ c!" {" ++ b ++ '}' :: t)

theorem SheetText.blank {rs : List (Str × Attrs)} {t w : Str} (hw : CssBlank w) (h : SheetText rs t) : SheetText rs (w ++ t) := by
  cases h with
  | nil h => exact .nil (hw.append h)
  | comment h1 h2 h3 =>
    have := SheetText.comment (hw.append h1) h2 h3
    simpa only [List.append_assoc] using this
  | rule h1 h2 h3 =>
    rename_i sel _ _ _ _ _
    have := SheetText.rule (sel := sel) (hw.append h1) h2 h3
    simpa only [List.append_assoc] using this

/-- the rule read for a selector and declarations -/
def ruleOf (r : Str × Attrs) : CssRule := ⟨(splitOn ',' (r.1 ++ c!" ")).map readSelector, r.2.flatMap (fun a => readDecls (declText a))⟩

/-- no character which would end a rule or begin a comment -/
def NoBrace (s : Str) : Prop := '{' ∉ s ∧ '}' ∉ s ∧ '/' ∉ s

/-- selector and declarations -/
def SafeRule (r : Str × Attrs) : Prop := NoBrace r.1 ∧ ∀ a ∈ r.2, NoBrace a.1 ∧ NoBrace a.2

theorem NoBrace.append {a b : Str} (ha : NoBrace a) (hb : NoBrace b) : NoBrace (a ++ b) := by
  unfold NoBrace at *
  simp only [List.mem_append, not_or]
  exact ⟨⟨ha.1, hb.1⟩, ⟨ha.2.1, hb.2.1⟩, ha.2.2, hb.2.2⟩

theorem CssBlank.noBrace {w : Str} (h : CssBlank w) : NoBrace w := ⟨h.not (by decide), h.not (by decide), h.not (by decide)⟩

theorem bodyText_noBrace {attrs : Attrs} {b : Str} (h : BodyText attrs b) (ha : ∀ a ∈ attrs, NoBrace a.1 ∧ NoBrace a.2) : NoBrace b := by
  induction h with
  | nil hw => exact hw.noBrace
  | cons hw _ ih =>
    refine NoBrace.append (NoBrace.append hw.noBrace ?_) ?_
    · exact NoBrace.append (NoBrace.append (ha _ (by simp)).1 ⟨by decide, by decide, by decide⟩) (ha _ (by simp)).2
    · exact NoBrace.append (a := [';']) ⟨by decide, by decide, by decide⟩ (ih (fun a h => ha a (List.mem_cons_of_mem _ h)))

theorem bodyText_read {attrs : Attrs} {b : Str} (h : BodyText attrs b) : readDecls b = attrs.flatMap (fun a => readDecls (declText a)) := by
  induction h with
  | nil hw => exact readDecls_only _ hw
  | cons hw _ ih => rw [readDecls_append, readDecls_blank _ _ hw, ih, List.flatMap_cons]

theorem readRule_blank (w : Str) (hw : CssBlank w) : readRule w = none := by
  unfold readRule
  rw [if_neg (hw.not (by decide))]

theorem readRule_text (w sel b : Str) (hw : CssBlank w) (hs : '{' ∉ sel) :
    readRule (w ++ sel ++ c!" {" ++ b) = some ⟨(splitOn ',' (sel ++ c!" ")).map readSelector, readDecls b⟩ := by
  have e : w ++ sel ++ c!" {" ++ b = (w ++ (sel ++ c!" ")) ++ '{' :: b := by simp
  have hp : ∀ a ∈ w ++ (sel ++ c!" "), (a != '{') = true := fun a ha => by
    simp only [bne_iff_ne, ne_eq]
    rintro rfl
    simp only [List.mem_append, hw.not (x := '{') (by decide), hs, false_or] at ha
    revert ha; decide
  unfold readRule
  rw [if_pos (by simp), e, List.takeWhile_append_of_pos hp, List.dropWhile_append_of_pos hp]
  simp only [List.takeWhile_cons, List.dropWhile_cons, bne_self_eq_false, Bool.false_eq_true, if_false, List.append_nil, List.drop_succ_cons,
    List.drop_zero]
  congr 2
  obtain ⟨x, xs, h1, h2⟩ := splitOn_lead ',' w (sel ++ c!" ") (hw.not (by decide))
  rw [h1, h2, List.map_cons, List.map_cons]
  unfold readSelector
  rw [css_blank _ _ hw]

/-- the rules read are those written -/
theorem sheet_read {rs : List (Str × Attrs)} {t : Str} (h : SheetText rs t) (hs : ∀ r ∈ rs, SafeRule r) : readCss t = rs.map ruleOf := by
  induction h with
  | nil hw =>
    unfold readCss
    have := drop_plain _ [] hw.noBrace.2.2
    rw [List.append_nil] at this
    rw [this, show dropComments false [] = [] from rfl, List.append_nil, splitOn_plain _ _ hw.noBrace.2.1, List.filterMap_cons, readRule_blank _ hw]
    rfl
  | @comment rs w b t hw hb ht ih =>
    rw [← ih hs]
    unfold readCss
    have e : w ++ '/' :: '*' :: b ++ '*' :: '/' :: t = w ++ ('/' :: '*' :: (b ++ '*' :: '/' :: t)) := by simp
    rw [e, drop_plain _ _ hw.noBrace.2.2]
    rw [show dropComments false ('/' :: '*' :: (b ++ '*' :: '/' :: t)) = dropComments true (b ++ '*' :: '/' :: t) from rfl, drop_comment _ _ hb]
    obtain ⟨x, xs, h1, h2⟩ := splitOn_lead '}' w (dropComments false t) hw.noBrace.2.1
    rw [h1, h2, List.filterMap_cons, List.filterMap_cons]
    have : readRule (w ++ x) = readRule x := by
      have hp : ∀ a ∈ w, (a != '{') = true := fun a ha => by
        simp only [bne_iff_ne, ne_eq]
        rintro rfl; exact hw.noBrace.1 ha
      unfold readRule
      simp only [List.mem_append, hw.noBrace.1, false_or]
      rw [List.takeWhile_append_of_pos hp, List.dropWhile_append_of_pos hp]
      obtain ⟨y, ys, g1, g2⟩ := splitOn_lead ',' w (x.takeWhile (· != '{')) (hw.not (by decide))
      rw [g1, g2, List.map_cons, List.map_cons]
      unfold readSelector
      rw [css_blank _ _ hw]
    rw [this]
  | @rule sel attrs rs w b t hw hb ht ih =>
    rw [List.map_cons, ← ih (fun r hr => hs r (List.mem_cons_of_mem _ hr))]
    obtain ⟨s1, s2⟩ := hs _ List.mem_cons_self
    have hB := bodyText_noBrace hb s2
    unfold readCss
    have e : w ++ sel ++ c!" {" ++ b ++ '}' :: t = (w ++ sel ++ c!" {" ++ b ++ ['}']) ++ t := by simp
    have hh : '}' ∉ w ++ sel ++ c!" {" ++ b := by
      simp only [List.mem_append, hw.noBrace.2.1, s1.2.1, hB.2.1, or_false, false_or]
      decide
    rw [e, drop_plain _ t, show w ++ sel ++ c!" {" ++ b ++ ['}'] ++ dropComments false t = w ++ sel ++ c!" {" ++ b ++ '}' :: dropComments false t by simp,
      splitOn_prefix _ _ _ hh, List.filterMap_cons, readRule_text _ _ _ hw s1.1, bodyText_read hb]
    · rfl
    · simp only [List.mem_append, hw.noBrace.2.2, s1.2.2, hB.2.2, or_false, false_or]
      decide

/-! ### the lines written -/

theorem laid_line {l : Str} {ls : List Str} {t : Str} (h : Laid ((l :: ls).flatMap emitln) t) :
    ∃ w t', t = l ++ w ++ t' ∧ CssBlank w ∧ Laid (ls.flatMap emitln) t' := by
  rw [List.flatMap_cons, emitln] at h
  cases h with
  | str h =>
    cases h with
    | @nl w _ t' hb h => exact ⟨'\n' :: w, t', by simp, .line hb, h⟩

/-- lines which are rules, whatever follows -/
def Lines (ls : List Str) (rs : List (Str × Attrs)) : Prop :=
  ∀ (ls' : List Str) (rs' : List (Str × Attrs)), (∀ t, Laid (ls'.flatMap emitln) t → SheetText rs' t) →
    ∀ t, Laid ((ls ++ ls').flatMap emitln) t → SheetText (rs ++ rs') t

theorem Lines.append {ls ls' : List Str} {rs rs' : List (Str × Attrs)} (h : Lines ls rs) (h' : Lines ls' rs') : Lines (ls ++ ls') (rs ++ rs') := by
  intro ls'' rs'' h'' t ht
  rw [List.append_assoc] at ht ⊢
  exact h _ _ (h' _ _ h'') t ht

theorem Lines.nil : Lines [] [] := fun _ _ h t ht => h t ht

theorem Lines.comment (b : Str) (hb : '*' ∉ b) : Lines [c!"/*" ++ b ++ c!"*/"] [] := by
  intro ls rs h t ht
  obtain ⟨w, t', rfl, hw, h'⟩ := laid_line (l := c!"/*" ++ b ++ c!"*/") (ls := ls) ht
  have := SheetText.comment CssBlank.nil hb ((h t' h').blank hw)
  simpa using this

theorem Lines.body (attrs : Attrs) {ls : List Str} {rs : List (Str × Attrs)} (h : ∀ t, Laid (ls.flatMap emitln) t → SheetText rs t) :
    ∀ t, Laid ((attrs.map (fun a => a.1 ++ c!": " ++ a.2 ++ c!";") ++ [c!"}"] ++ ls).flatMap emitln) t → ∀ w, CssBlank w →
      ∃ b t', w ++ t = b ++ '}' :: t' ∧ BodyText attrs b ∧ SheetText rs t' := by
  induction attrs with
  | nil =>
    intro t ht w hw
    obtain ⟨w', t', rfl, hw', h'⟩ := laid_line (l := c!"}") (ls := ls) ht
    exact ⟨w, w' ++ t', by simp, .nil hw, (h t' h').blank hw'⟩
  | cons a as ih =>
    intro t ht w hw
    obtain ⟨w', t', rfl, hw', h'⟩ := laid_line (l := a.1 ++ c!": " ++ a.2 ++ c!";")
      (ls := as.map (fun a => a.1 ++ c!": " ++ a.2 ++ c!";") ++ [c!"}"] ++ ls) ht
    obtain ⟨b, t'', e, h1, h2⟩ := ih t' h' w' hw'
    refine ⟨w ++ declText a ++ ';' :: b, t'', ?_, .cons hw h1, h2⟩
    have : w ++ (a.1 ++ c!": " ++ a.2 ++ c!";" ++ w' ++ t') = w ++ declText a ++ c!";" ++ (w' ++ t') := by simp [declText]
    rw [this, e]
    simp

theorem Lines.block (sel : Str) (attrs : Attrs) : Lines (cssBlock sel attrs) [(sel, attrs)] := by
  intro ls rs h t ht
  obtain ⟨w, t', rfl, hw, h'⟩ := laid_line (l := sel ++ c!" {") (ls := attrs.map (fun a => a.1 ++ c!": " ++ a.2 ++ c!";") ++ [c!"}"] ++ ls) (by
    simpa only [cssBlock, List.cons_append, List.append_assoc] using ht)
  obtain ⟨b, t'', e, h1, h2⟩ := Lines.body attrs h t' h' w hw
  have := SheetText.rule (sel := sel) CssBlank.nil h1 h2
  rw [show sel ++ c!" {" ++ w ++ t' = sel ++ c!" {" ++ (w ++ t') by simp, e]
  simpa using this

theorem Lines.numLvl (l : NumLvl) : Lines [l.toCss] [(l.selector, [(c!"list-style-type", l.listStyle)])] := by
  intro ls rs h t ht
  obtain ⟨w, t', rfl, hw, h'⟩ := laid_line (l := l.toCss) (ls := ls) ht
  have hb : CssBlank c!" " := by intro c hc; cases List.mem_singleton.1 hc; rfl
  have := SheetText.rule (sel := l.selector) CssBlank.nil (.cons (a := (c!"list-style-type", l.listStyle)) hb (.nil hb)) ((h t' h').blank hw)
  have e : l.toCss ++ w ++ t' = [] ++ l.selector ++ c!" {" ++ (c!" " ++ declText (c!"list-style-type", l.listStyle) ++ ';' :: c!" ") ++ '}' :: (w ++ t') := by
    simp [NumLvl.toCss, declText]
  rw [e]
  exact this

theorem Lines.flat {α : Type} (f : α → List Str) (g : α → List (Str × Attrs)) (l : List α) (h : ∀ a ∈ l, Lines (f a) (g a)) :
    Lines (l.flatMap f) (l.flatMap g) := by
  induction l with
  | nil => exact .nil
  | cons a l ih =>
    rw [List.flatMap_cons, List.flatMap_cons]
    exact (h a List.mem_cons_self).append (ih (fun b hb => h b (List.mem_cons_of_mem _ hb)))

/-! ### the whole style sheet -/

/-- selectors and declarations of the first part -/
def preludeRules : List (Str × Attrs) := [
  (c!"body", [(c!"font-family", c!"sans-serif")]),
  (c!"p:first-child", [(c!"margin-top", c!".3em")]),
  (c!"p:last-child", [(c!"margin-bottom", c!".3em")]),
  (c!"p", [(c!"margin-top", c!"0em"), (c!"margin-left", c!".2em"), (c!"margin-right", c!".2em")]),
  (c!"table, td, th", [(c!"border-collapse", c!"collapse"), (c!"border", c!"1px solid black;")]),
  (c!"table", [(c!"margin-left", c!".3em"), (c!"margin-right", c!".3em"), (c!"margin-bottom", c!"3em"), (c!"margin-top", c!"1em")]),
  (c!"td table", [(c!"margin-bottom", c!"1em")])]

/-- the rules for lists -/
def listRules (num : Option Numbering) : List (Str × Attrs) :=
  match num with
  | none => []
  | some n => n.levels.map (fun l => (l.selector, [(c!"list-style-type", l.listStyle)]))

/-- all of them -/
def sheetRules (num : Option Numbering) (st : RSt) : List (Str × Attrs) :=
  preludeRules ++ listRules num ++ st.txt.rules ++ st.tcell.rules

theorem prelude_lines : Lines cssPrelude preludeRules := by
  have h := fun s a => Lines.block s a
  exact (((((((h _ _).append (h _ _)).append (h _ _)).append (h _ _)).append (h _ _)).append (h _ _)).append (h _ _))

theorem rules_lines (c : CssCache) : Lines c.lines c.rules := by
  have := Lines.flat (fun r : Str × Attrs => cssBlock r.1 r.2) (fun r => [r]) c.rules (fun r _ => Lines.block r.1 r.2)
  rwa [show c.rules.flatMap (fun r => [r]) = c.rules by simp] at this

theorem sheet_lines (num : Option Numbering) (st : RSt) : Lines (cssStart num ++ cssEnd st) (sheetRules num st) := by
  have h1 : Lines (cssStart num) (preludeRules ++ listRules num) := by
    unfold cssStart listRules
    refine prelude_lines.append ?_
    cases num with
    | none => exact .nil
    | some n =>
      have hl := Lines.flat (fun l : NumLvl => [l.toCss]) (fun l => [(l.selector, [(c!"list-style-type", l.listStyle)])]) n.levels (fun l _ => Lines.numLvl l)
      rw [← List.map_eq_flatMap, ← List.map_eq_flatMap] at hl
      have := (Lines.comment c!" list-formatting styles " (by decide)).append hl
      simpa using this
  have h2 : Lines (cssEnd st) (st.txt.rules ++ st.tcell.rules) := by
    have := ((Lines.comment c!" text-formatting styles " (by decide)).append (rules_lines st.txt)).append
      ((Lines.comment c!" table cell formatting styles " (by decide)).append (rules_lines st.tcell))
    simpa [cssEnd] using this
  have := h1.append h2
  simpa only [sheetRules, List.append_assoc] using this

theorem sheet_text {num : Option Numbering} {st : RSt} {t : Str} (h : Laid ((cssStart num ++ cssEnd st).flatMap emitln) t) :
    SheetText (sheetRules num st) t := by
  have := sheet_lines num st [] [] (fun t ht => by cases ht; exact .nil .nil) t (by rwa [List.append_nil])
  rwa [List.append_nil] at this

/-! ### what the rules say -/

/-- characters of names -/
def identChar (c : Char) : Bool := c.isAlphanum || c == '-'

theorem identChar_not {c : Char} (h : identChar c = true) : cssSpace c = false ∧ c ≠ ',' ∧ c ≠ ':' ∧ c ≠ '.' ∧ c ≠ ';' ∧ c ≠ '{' ∧ c ≠ '}' ∧ c ≠ '/' := by
  have : ∀ x, identChar x = false → c ≠ x := by
    intro x hx he
    rw [he, hx] at h; cases h
  refine ⟨?_, this _ (by decide), this _ (by decide), this _ (by decide), this _ (by decide), this _ (by decide), this _ (by decide), this _ (by decide)⟩
  have h1 := this ' ' (by decide)
  have h2 := this '\t' (by decide)
  have h3 := this '\n' (by decide)
  have h4 := this '\r' (by decide)
  have h5 : c.toNat ≠ 12 := by
    intro he
    have : c = Char.ofNat 12 := by rw [← he, Char.ofNat_toNat]
    rw [this] at h
    revert h; decide
  simp [cssSpace, h1, h2, h3, h4, h5]

def Ident (s : Str) : Prop := ∀ c ∈ s, identChar c = true

theorem Ident.append {a b : Str} (ha : Ident a) (hb : Ident b) : Ident (a ++ b) := by
  intro c hc
  rcases List.mem_append.1 hc with h | h
  · exact ha c h
  · exact hb c h

theorem ident_lit {s : Str} (h : s.all identChar = true) : Ident s := fun c hc => List.all_eq_true.1 h c hc

theorem natStr_ident (n : Nat) : Ident (natStr n) := by
  intro c hc
  have := natDigits_digit _ _ c (List.mem_reverse.1 hc)
  unfold jsonDigit at this
  unfold identChar Char.isAlphanum Char.isDigit
  simp only [Bool.and_eq_true, decide_eq_true_eq] at this
  simp only [Bool.or_eq_true, Bool.and_eq_true, decide_eq_true_eq]
  exact .inl (.inr ⟨this.1, this.2⟩)

theorem intStr_ident (i : Int) : Ident (intStr i) := by
  cases i with
  | ofNat n => exact natStr_ident n
  | negSucc n =>
    intro c hc
    rcases List.mem_cons.1 hc with rfl | hc
    · decide
    · exact natStr_ident _ c hc

theorem Ident.noBrace {s : Str} (h : Ident s) : NoBrace s :=
  ⟨fun hc => (identChar_not (h _ hc)).2.2.2.2.2.1 rfl, fun hc => (identChar_not (h _ hc)).2.2.2.2.2.2.1 rfl,
    fun hc => (identChar_not (h _ hc)).2.2.2.2.2.2.2 rfl⟩

theorem cssAux_word (cur s t : Str) (h : ∀ c ∈ s, cssSpace c = false) : cssWordsAux cur (s ++ t) = cssWordsAux (cur ++ s) t := by
  induction s generalizing cur with
  | nil => simp
  | cons c s ih =>
    rw [List.cons_append, cssWordsAux, if_neg (by rw [h c List.mem_cons_self]; decide), ih _ (fun x hx => h x (List.mem_cons_of_mem _ hx))]
    simp

theorem css_word (s t : Str) (hs : s ≠ []) (h : ∀ c ∈ s, cssSpace c = false) : cssWords (s ++ ' ' :: t) = s :: cssWords t := by
  unfold cssWords
  rw [cssAux_word _ _ _ h, List.nil_append, cssWordsAux, if_pos (by decide), if_neg (by simpa using hs)]

theorem css_one (s : Str) (hs : s ≠ []) (h : ∀ c ∈ s, cssSpace c = false) : cssWords s = [s] := by
  have := cssAux_word [] s [] h
  rw [List.append_nil, List.nil_append] at this
  rw [cssWords, this, cssWordsAux, if_neg (by simpa using hs)]

theorem compound_class (n : Str) (h : Ident n) : readCompound ('.' :: n) = ⟨none, [n], []⟩ := by
  have h1 : ':' ∉ '.' :: n := by
    intro hm
    rcases List.mem_cons.1 hm with hm | hm
    · cases hm
    · exact (identChar_not (h _ hm)).2.2.1 rfl
  have h2 : '.' ∉ n := fun hm => (identChar_not (h _ hm)).2.2.2.1 rfl
  unfold readCompound
  rw [splitOn_plain _ _ h1]
  simp only
  rw [show '.' :: n = [] ++ '.' :: n from rfl, splitOn_append, splitOn_plain _ _ h2]
  rfl

theorem compound_tag_class (t n : Str) (ht : Ident t) (h : Ident n) (hne : t ≠ []) : readCompound (t ++ '.' :: n) = ⟨some t, [n], []⟩ := by
  have h1 : ':' ∉ t ++ '.' :: n := by
    intro hm
    rcases List.mem_append.1 hm with hm | hm
    · exact (identChar_not (ht _ hm)).2.2.1 rfl
    rcases List.mem_cons.1 hm with hm | hm
    · cases hm
    · exact (identChar_not (h _ hm)).2.2.1 rfl
  have h2 : '.' ∉ n := fun hm => (identChar_not (h _ hm)).2.2.2.1 rfl
  have h3 : '.' ∉ t := fun hm => (identChar_not (ht _ hm)).2.2.2.1 rfl
  unfold readCompound
  rw [splitOn_plain _ _ h1]
  simp only
  rw [splitOn_append, splitOn_plain _ _ h2, splitOn_plain _ _ h3]
  simp only [List.singleton_append]
  rw [if_neg (by simpa using hne)]

theorem compound_tag (t : Str) (ht : Ident t) (hne : t ≠ []) : readCompound t = ⟨some t, [], []⟩ := by
  have h1 : ':' ∉ t := fun hm => (identChar_not (ht _ hm)).2.2.1 rfl
  have h3 : '.' ∉ t := fun hm => (identChar_not (ht _ hm)).2.2.2.1 rfl
  unfold readCompound
  rw [splitOn_plain _ _ h1]
  simp only
  rw [splitOn_plain _ _ h3]
  simp only
  rw [if_neg (by simpa using hne)]

theorem class_selectors (n : Str) (attrs : Attrs) (h : Ident n) : (ruleOf ('.' :: n, attrs)).selectors = [[⟨none, [n], []⟩]] := by
  have h1 : ',' ∉ '.' :: n ++ c!" " := by
    intro hm
    rcases List.mem_append.1 hm with hm | hm
    · rcases List.mem_cons.1 hm with hm | hm
      · cases hm
      · exact (identChar_not (h _ hm)).2.1 rfl
    · revert hm; decide
  unfold ruleOf
  simp only
  rw [splitOn_plain _ _ h1, List.map_cons, List.map_nil, readSelector, css_word _ [] (by simp), List.map_cons, compound_class _ h]
  · rfl
  · intro c hc
    rcases List.mem_cons.1 hc with rfl | hc
    · decide
    · exact (identChar_not (h _ hc)).1

theorem tag_ident (l : NumLvl) : Ident l.tag ∧ l.tag ≠ [] := by
  unfold NumLvl.tag
  split
  · exact ⟨ident_lit (by decide), by decide⟩
  · exact ⟨ident_lit (by decide), by decide⟩

theorem clsname_ident (l : NumLvl) : Ident l.clsname := (tag_ident l).1.append (intStr_ident _)

/-- the rule of a level of a list -/
theorem level_selectors (l : NumLvl) (attrs : Attrs) : (ruleOf (l.selector, attrs)).selectors =
    [⟨some l.tag, [l.clsname], []⟩ :: List.replicate l.ilvl.toNat ⟨some l.tag, [], []⟩] := by
  obtain ⟨t1, t2⟩ := tag_ident l
  have hns : ∀ {s : Str}, Ident s → ∀ c ∈ s, cssSpace c = false := fun h c hc => (identChar_not (h c hc)).1
  have hrep : ∀ k, ',' ∉ (List.replicate k (' ' :: l.tag)).flatten ++ c!" " := by
    intro k hm
    rcases List.mem_append.1 hm with hm | hm
    · obtain ⟨x, hx, hm⟩ := List.mem_flatten.1 hm
      rw [(List.mem_replicate.1 hx).2] at hm
      rcases List.mem_cons.1 hm with hm | hm
      · cases hm
      · exact (identChar_not (t1 _ hm)).2.1 rfl
    · revert hm; decide
  have hw : ∀ k, cssWords ((List.replicate k (' ' :: l.tag)).flatten ++ c!" ") = List.replicate k l.tag := by
    intro k
    induction k with
    | zero => rfl
    | succ k ih =>
      have : (List.replicate (k + 1) (' ' :: l.tag)).flatten ++ c!" " = c!" " ++ (l.tag ++ ((List.replicate k (' ' :: l.tag)).flatten ++ c!" ")) := by
        simp [List.replicate_succ]
      rw [this, css_blank c!" " _ (by intro c hc; cases List.mem_singleton.1 hc; rfl)]
      cases k with
      | zero => exact css_word l.tag [] t2 (hns t1)
      | succ k =>
        have e : (List.replicate (k + 1) (' ' :: l.tag)).flatten ++ c!" " = ' ' :: (l.tag ++ ((List.replicate k (' ' :: l.tag)).flatten ++ c!" ")) := by
          simp [List.replicate_succ]
        rw [e] at ih
        rw [e, css_word _ _ t2 (hns t1)]
        rw [show ' ' :: (l.tag ++ ((List.replicate k (' ' :: l.tag)).flatten ++ c!" ")) = c!" " ++ (l.tag ++ ((List.replicate k (' ' :: l.tag)).flatten ++ c!" ")) from rfl,
          css_blank c!" " _ (by intro c hc; cases List.mem_singleton.1 hc; rfl)] at ih
        rw [ih, ← List.replicate_succ]
  have hfirst : ∀ c ∈ l.tag ++ '.' :: l.clsname, cssSpace c = false := by
    intro c hc
    rcases List.mem_append.1 hc with hc | hc
    · exact hns t1 c hc
    rcases List.mem_cons.1 hc with rfl | hc
    · decide
    · exact hns (clsname_ident l) c hc
  have hcomma : ',' ∉ l.selector ++ c!" " := by
    unfold NumLvl.selector
    intro hm
    simp only [List.append_assoc] at hm
    rcases List.mem_append.1 hm with hm | hm
    · exact (identChar_not (t1 _ hm)).2.1 rfl
    rcases List.mem_append.1 hm with hm | hm
    · revert hm; decide
    rcases List.mem_append.1 hm with hm | hm
    · exact (identChar_not (clsname_ident l _ hm)).2.1 rfl
    · exact hrep _ hm
  unfold ruleOf
  simp only
  rw [splitOn_plain _ _ hcomma, List.map_cons, List.map_nil, readSelector]
  have : cssWords (l.selector ++ c!" ") = (l.tag ++ '.' :: l.clsname) :: List.replicate l.ilvl.toNat l.tag := by
    unfold NumLvl.selector
    cases hk : l.ilvl.toNat with
    | zero =>
      have := css_word (l.tag ++ '.' :: l.clsname) [] (by simp) hfirst
      simpa [cssWords, cssWordsAux] using this
    | succ k =>
      have e : l.tag ++ c!"." ++ l.clsname ++ (List.replicate (k + 1) (' ' :: l.tag)).flatten ++ c!" " =
          (l.tag ++ '.' :: l.clsname) ++ ' ' :: (l.tag ++ ((List.replicate k (' ' :: l.tag)).flatten ++ c!" ")) := by
        simp [List.replicate_succ]
      rw [e, css_word _ _ (by simp) hfirst]
      have h1 := hw (k + 1)
      have e : (List.replicate (k + 1) (' ' :: l.tag)).flatten ++ c!" " = c!" " ++ (l.tag ++ ((List.replicate k (' ' :: l.tag)).flatten ++ c!" ")) := by
        simp [List.replicate_succ]
      rw [e, css_blank c!" " _ (by intro c hc; cases List.mem_singleton.1 hc; rfl)] at h1
      rw [h1]
  rw [this, List.map_cons, List.map_replicate, compound_tag_class _ _ t1 (clsname_ident l) t2, compound_tag _ t1 t2]

theorem strip_none (s : Str) (h : ∀ c ∈ s, cssSpace c = false) : stripBy cssSpace s = s := by
  have hd : ∀ l : Str, (∀ c ∈ l, cssSpace c = false) → l.dropWhile cssSpace = l := by
    intro l hl
    cases l with
    | nil => rfl
    | cons c l => rw [List.dropWhile_cons, if_neg (by rw [hl c List.mem_cons_self]; decide)]
  unfold stripBy rstripBy lstripBy
  rw [hd _ h, hd _ (fun c hc => h c (List.mem_reverse.1 hc)), List.reverse_reverse]

/-- a declaration which is read as it is -/
def CleanDecl (a : Str × Str) : Prop := readDecls (declText a) = [a]

theorem clean_word (name v : Str) (hn : Ident name) (hv : ∀ c ∈ v, cssSpace c = false ∧ c ≠ ';') : CleanDecl (name, v) := by
  have h1 : ';' ∉ declText (name, v) := by
    unfold declText
    intro hm
    rcases List.mem_append.1 hm with hm | hm
    · rcases List.mem_append.1 hm with hm | hm
      · exact (identChar_not (hn _ hm)).2.2.2.2.1 rfl
      · revert hm; decide
    · exact (hv _ hm).2 rfl
  have hp : ∀ a ∈ name, (a != ':') = true := fun a ha => by
    simp only [bne_iff_ne, ne_eq]
    exact (identChar_not (hn a ha)).2.2.1
  have e : declText (name, v) = name ++ ':' :: ' ' :: v := by simp [declText]
  unfold CleanDecl readDecls
  rw [splitOn_plain _ _ h1, List.filterMap_cons, readDecl, if_pos (by rw [e]; simp), e, List.takeWhile_append_of_pos hp, List.dropWhile_append_of_pos hp]
  simp only [List.takeWhile_cons, List.dropWhile_cons, bne_self_eq_false, Bool.false_eq_true, if_false, List.append_nil, List.drop_succ_cons,
    List.drop_zero, List.filterMap_nil]
  rw [strip_none name (fun c hc => (identChar_not (hn c hc)).1), show ' ' :: v = c!" " ++ v from rfl,
    lstrip_blank _ _ (by intro c hc; cases List.mem_singleton.1 hc; rfl), strip_none v (fun c hc => (hv c hc).1)]

theorem clean_decls (sel : Str) (attrs : Attrs) (h : ∀ a ∈ attrs, CleanDecl a) : (ruleOf (sel, attrs)).decls = attrs := by
  unfold ruleOf
  simp only
  induction attrs with
  | nil => rfl
  | cons a as ih =>
    rw [List.flatMap_cons, h a List.mem_cons_self, ih (fun b hb => h b (List.mem_cons_of_mem _ hb))]
    rfl

end Spex
