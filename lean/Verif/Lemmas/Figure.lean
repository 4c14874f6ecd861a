import Verif.Model.Document
import Verif.Lemmas.Hoare
import Verif.Lemmas.Validate
import Verif.Lemmas.FigId
/-
An induction principle for everything a figure, and a document, puts out.
-/
set_option autoImplicit false
namespace Spex

/-- the diagnostics of validate_fields for a struct figure, in closed form -/
def structEvs (fig : Str) : List StructField → List Ev
  | [] => []
  | [_] => []
  | f :: g :: fs =>
    if orderWrong (fieldGetRange f) (f :: g :: fs) then [.lint (issue .tblRowOrderReversed fig none)]
    else loopEvs fig [f.label] (fieldGetRange f) (g :: fs)

/-- the diagnostics of validate_fields for a value figure, in closed form -/
def valuesEvs (fig : Str) (fields : List ValueField) : List Ev :=
  if fields.length < 2 then [] else valueEvs fig [] [] fields

theorem validateStruct_run (fig : Str) (hf : fig ≠ []) (fields : List StructField) (fl : Bool) :
    validateStruct fig fields fl = ⟨structEvs fig fields, fl, .ok ()⟩ := by
  match fields with
  | [] => rfl
  | [_] => rfl
  | f :: g :: fs =>
    unfold validateStruct structEvs
    by_cases h : orderWrong (fieldGetRange f) (f :: g :: fs) = true
    · simp only [h, if_true]
      rw [addIssue_none hf (by decide)]
      rfl
    · simp only [h]
      exact validateLoop_run fig hf _ _ _ fl

theorem validateValues_run (fig : Str) (hf : fig ≠ []) (fields : List ValueField) (fl : Bool) :
    validateValues fig fields fl = ⟨valuesEvs fig fields, fl, .ok ()⟩ := by
  unfold validateValues valuesEvs
  split
  · rfl
  · exact validateValuesLoop_run fig hf _ _ _ fl

/-! ### a logic over whole event lists -/

/-- every run puts out events satisfying `G`, and a returned value is related by `Q` to the events -/
def Inv {α : Type} (G : List Ev → Prop) (Q : α → List Ev → Prop) (m : M α) : Prop :=
  ∀ f, G (m f).evs ∧ ∀ a, (m f).out = .ok a → Q a (m f).evs

namespace Inv
variable {α β : Type} {G : List Ev → Prop} {Q : α → List Ev → Prop} {Q' : β → List Ev → Prop}

theorem pure {a : α} (hn : G []) (h : Q a []) : Inv G Q (Pure.pure a : M α) := by
  intro f
  refine ⟨hn, ?_⟩
  intro b hb
  simp only [M.pure_run, Except.ok.injEq] at hb ⊢
  exact hb ▸ h

theorem raise {e : Exn} (hn : G []) : Inv G Q (M.raise e : M α) := by
  intro f
  refine ⟨hn, ?_⟩
  intro b hb
  simp [M.raise_run] at hb

theorem ofExcept {x : Except Exn α} (hn : G []) (h : ∀ a, x = .ok a → Q a []) : Inv G Q (M.ofExcept x) :=
  fun _ => ⟨hn, h⟩

theorem bind (happ : ∀ a b, G a → G b → G (a ++ b)) {m : M α} {k : α → M β} (hm : Inv G Q m)
    (hk : ∀ a e0, Q a e0 → Inv G (fun b e1 => Q' b (e0 ++ e1)) (k a)) : Inv G Q' (m >>= k) := by
  intro f
  obtain ⟨h1, h2⟩ := hm f
  cases ho : (m f).out with
  | error e =>
    rw [M.bind_err ho]
    exact ⟨h1, by simp⟩
  | ok a =>
    obtain ⟨k1, k2⟩ := hk a _ (h2 a ho) (m f).flag
    rw [M.bind_ok ho]
    exact ⟨happ _ _ h1 k1, k2⟩

theorem weaken {m : M α} {Q₂ : α → List Ev → Prop} (h : Inv G Q m) (hq : ∀ a e, Q a e → Q₂ a e) : Inv G Q₂ m :=
  fun f => ⟨(h f).1, fun a ha => hq a _ ((h f).2 a ha)⟩

theorem ite {c : Prop} [Decidable c] {m n : M α} (h1 : c → Inv G Q m) (h2 : ¬ c → Inv G Q n) :
    Inv G Q (if c then m else n) := by
  split
  · exact h1 ‹_›
  · exact h2 ‹_›
end Inv

variable [Uni]

/-! ### sources of fields -/

/-- How a field of a struct figure `fig` comes about, with the diagnostics among `evs`. -/
inductive StructSrc (fig : Str) (evs : List Ev) : StructField → Prop where
  | ellipsisRow : StructSrc fig evs ⟨ELLIPSIS, .int (-1) (-1), none⟩
  | special (rangeTxt contentTxt : Str) (fl : Bool) (r : RangeV) (f : StructField) :
      (parseRange fig rangeTxt rangeTxt fl).out = .ok r → (parseRange fig rangeTxt rangeTxt fl).evs ⊆ evs →
      handleSpecialCase contentTxt r = some f → StructSrc fig evs f
  | normal (dyn : Bool) (cols : Cols) (rangeTxt contentTxt labelTxt : Str) (fl fl' : Bool) (r : RangeV) (label : Str) :
      isSpecialCase rangeTxt = false → isSpecialCase labelTxt = false → isSpecialCase contentTxt = false →
      (rowRange fig dyn rangeTxt fl).out = .ok r → (rowRange fig dyn rangeTxt fl).evs ⊆ evs →
      (parseLabel fig cols labelTxt (rangeToRowKey r) fl').out = .ok label →
      (parseLabel fig cols labelTxt (rangeToRowKey r) fl').evs ⊆ evs →
      StructSrc fig evs (structField r label (contentExtractBrief contentTxt))

theorem StructSrc.mono {fig : Str} {evs evs' : List Ev} {f : StructField} (h : StructSrc fig evs f) (hs : evs ⊆ evs') :
    StructSrc fig evs' f := by
  cases h with
  | ellipsisRow => exact .ellipsisRow
  | special a b fl r f h1 h2 h3 => exact .special a b fl r f h1 (h2.trans hs) h3
  | normal dyn cols a b c fl fl' r label h1 h2 h3 h4 h5 h6 h7 =>
    exact .normal dyn cols a b c fl fl' r label h1 h2 h3 h4 (h5.trans hs) h6 (h7.trans hs)

/-- How a field of a value figure `fig` comes about, with the diagnostics among `evs`. -/
inductive ValueSrc (ov : List ((Str × Str) × Str)) (fig : Str) (evs : List Ev) : ValueField → Prop where
  | ellipsisRow : ValueSrc ov fig evs ⟨ELLIPSIS, ELLIPSIS, none⟩
  | normal (cols : Cols) (row rowVal rowData : Node) (fl : Bool) (label : Str) :
      row.nthChild tTd (cols.key + 1) = some rowVal → row.nthChild tTd (cols.content + 1) = some rowData →
      (valueLabel ov fig cols row (lower rowVal.toText) rowData fl).out = .ok label →
      (valueLabel ov fig cols row (lower rowVal.toText) rowData fl).evs ⊆ evs →
      ValueSrc ov fig evs ⟨lower rowVal.toText, label, contentExtractBrief rowData.toText⟩

theorem ValueSrc.mono {ov : List ((Str × Str) × Str)} {fig : Str} {evs evs' : List Ev} {f : ValueField}
    (h : ValueSrc ov fig evs f) (hs : evs ⊆ evs') : ValueSrc ov fig evs' f := by
  cases h with
  | ellipsisRow => exact .ellipsisRow
  | normal cols row a b fl label h1 h2 h3 h4 => exact .normal cols row a b fl label h1 h2 h3 (h4.trans hs)

/-! ### the diagnostics of rows -/

/-- the codes of diagnostics other than those of validate_fields and T1008 -/
def ownCodes : List LintErr :=
  [.tblParseErr, .tblHdrErr, .tblSkipped, .lblExtractErr, .lblImputed, .lblInvalidChrs, .lblOverridden, .rangeInvalid,
   .rangeReversed]

/-- a diagnostic on a row of the figure -/
def RowLint (fig : Str) (e : Ev) : Prop :=
  ∃ err key ctx, e = .lint (issue err fig (some key) ctx) ∧ err ∈ ownCodes ∧ err ≠ .tblParseErr ∧ err ≠ .tblSkipped

theorem pyInt_err (s : Str) (e : Exn) (h : pyInt s = .error e) : e = .valueError := by
  have hd : ∀ (s : Str) acc n prev e, intDigits acc n prev s = .error e → e = .valueError := by
    intro s
    induction s with
    | nil => intro acc n prev e h; simp only [intDigits] at h; split at h <;> simp_all
    | cons c s ih =>
      intro acc n prev e h
      simp only [intDigits] at h
      split at h
      · exact ih _ _ _ _ h
      · split at h
        · exact ih _ _ _ _ h
        · simp_all
  have hu : ∀ (s : Str) e, intUnsigned s = .error e → e = .valueError := by
    intro s e h
    unfold intUnsigned at h
    split at h
    · rename_i h'
      cases h
      exact hd _ _ _ _ _ h'
    · split at h <;> simp_all
  have hm : ∀ (x : Except Exn Nat) (g : Nat → Int) e, x.map g = .error e → x = .error e := by
    intro x g e h
    cases x <;> simp_all [Except.map]
  unfold pyInt at h
  split at h <;> exact hu _ _ (hm _ _ _ h)

section
variable {fig : Str} (hf : fig ≠ [])
include hf

omit [Uni] in
theorem rowLint_add {Q : Unit → Prop} {R : Exn → Prop} {err : LintErr} {key : Str} {ctx : List (Str × Json)}
    (h : err ∈ ownCodes) (h1 : err ≠ .tblParseErr) (h2 : err ≠ .tblSkipped) (hq : Q ()) :
    Sat (RowLint fig) Q R (addIssue err fig (some key) ctx) :=
  Sat.addIssue hf (.inr rfl) ⟨err, key, ctx, rfl, h, h1, h2⟩ hq

theorem sat_parseRange (v key : Str) : Sat (RowLint fig) (fun _ => True) (· = .valueError) (parseRange fig v key) := by
  unfold parseRange
  split
  · refine Sat.bind (Q := fun _ => True) (rowLint_add hf (by decide) (by decide) (by decide) trivial)
      (fun _ _ => Sat.pure trivial)
  · refine Sat.bind (Q := fun _ => True) (Sat.ofExcept (fun _ _ => trivial) (fun e h => pyInt_err _ _ h)) (fun hi _ => ?_)
    refine Sat.bind (Q := fun _ => True) ?_ (fun lo _ => ?_)
    · unfold rangeLow
      split
      · exact Sat.ofExcept (fun _ _ => trivial) (fun e h => pyInt_err _ _ h)
      · exact Sat.pure trivial
    · refine Sat.ite (fun _ => ?_) (fun _ => Sat.pure trivial)
      exact Sat.bind (Q := fun _ => True) (rowLint_add hf (by decide) (by decide) (by decide) trivial)
        (fun _ _ => Sat.pure trivial)

theorem sat_rowRange (dyn : Bool) (v : Str) : Sat (RowLint fig) (fun _ => True) (· = .valueError) (rowRange fig dyn v) := by
  unfold rowRange
  refine Sat.ite (fun _ => ?_) (fun _ => sat_parseRange hf v v)
  unfold parseDynamicRange
  split
  · exact Sat.bind (Q := fun _ => True) (rowLint_add hf (by decide) (by decide) (by decide) trivial)
      (fun _ _ => Sat.pure trivial)
  · exact Sat.pure trivial

theorem sat_validateLabel {R : Exn → Prop} (l key : Str) : Sat (RowLint fig) (fun _ => True) R (validateLabel l fig key) := by
  unfold validateLabel
  exact Sat.ite (fun _ => rowLint_add hf (by decide) (by decide) (by decide) trivial) (fun _ => Sat.pure trivial)

theorem sat_parseLabel (cols : Cols) (l key : Str) :
    Sat (RowLint fig) (fun _ => True) (fun _ => False) (parseLabel fig cols l key) := by
  unfold parseLabel
  refine Sat.bind (Q := fun _ => True) ?_ (fun x _ => ?_)
  · unfold extractLabel
    refine Sat.ite (fun _ => ?_) (fun _ => ?_)
    · unfold extractLabelSeparate
      refine Sat.ite (fun _ => ?_) (fun _ => ?_)
      · exact Sat.bind (Q := fun _ => True) (rowLint_add hf (by decide) (by decide) (by decide) trivial)
          (fun _ _ => Sat.pure trivial)
      · refine Sat.ite (fun _ => ?_) (fun _ => Sat.pure trivial)
        exact Sat.bind (Q := fun _ => True) (rowLint_add hf (by decide) (by decide) (by decide) trivial)
          (fun _ _ => Sat.pure trivial)
    · unfold extractLabelSame
      split
      · exact Sat.bind (Q := fun _ => True) (rowLint_add hf (by decide) (by decide) (by decide) trivial)
          (fun _ _ => Sat.pure trivial)
      · refine Sat.ite (fun _ => Sat.pure trivial) (fun _ => Sat.ite (fun _ => Sat.ite (fun _ => Sat.pure trivial)
          (fun _ => Sat.pure trivial)) (fun _ => ?_))
        exact Sat.bind (Q := fun _ => True) (rowLint_add hf (by decide) (by decide) (by decide) trivial)
          (fun _ _ => Sat.pure trivial)
  · exact Sat.bind (Q := fun _ => True) (sat_validateLabel hf _ _) (fun _ _ => Sat.pure trivial)

theorem sat_valueLabel (ov : List ((Str × Str) × Str)) (cols : Cols) (row : Node) (val : Str) (data : Node) :
    Sat (RowLint fig) (fun _ => True) (fun e => e = .xpathNotFound ∨ e = .labelExtraction)
      (valueLabel ov fig cols row val data) := by
  unfold valueLabel
  split
  · unfold extractLabelValue
    refine Sat.bind (Q := fun _ => True) ?_ (fun x _ => ?_)
    · unfold labelText
      refine Sat.ite (fun _ => ?_) (fun _ => ?_)
      · unfold labelTextDedicated
        refine Sat.bind (Q := fun _ => True) ?_ (fun x _ => Sat.pure trivial)
        unfold extractLabelDedicated
        refine Sat.bind (Q := fun _ => True) (Sat.ofExcept (fun _ _ => trivial) ?_) (fun x _ => ?_)
        · intro e h
          unfold req at h
          split at h
          · simp at h
          · simp only [Except.error.injEq] at h
            exact .inl h.symm
        · refine Sat.ite (fun _ => Sat.pure trivial) (fun _ => Sat.ite (fun _ => ?_) (fun _ => Sat.pure trivial))
          exact Sat.bind (Q := fun _ => True) (rowLint_add hf (by decide) (by decide) (by decide) trivial)
            (fun _ _ => Sat.pure trivial)
      · unfold labelTextSame
        split
        · exact Sat.bind (Q := fun _ => True) (rowLint_add hf (by decide) (by decide) (by decide) trivial)
            (fun _ _ => Sat.raise (.inr rfl))
        · refine Sat.ite (fun _ => Sat.pure trivial) (fun _ => ?_)
          split
          · exact Sat.bind (Q := fun _ => True) (rowLint_add hf (by decide) (by decide) (by decide) trivial)
              (fun _ _ => Sat.pure trivial)
          · refine Sat.ite (fun _ => Sat.pure trivial) (fun _ => ?_)
            exact Sat.bind (Q := fun _ => True) (rowLint_add hf (by decide) (by decide) (by decide) trivial)
              (fun _ _ => Sat.pure trivial)
    · split
      · exact Sat.pure trivial
      · exact Sat.bind (Q := fun _ => True) (sat_validateLabel hf _ _) (fun _ _ => Sat.pure trivial)
  · exact Sat.bind (Q := fun _ => True) (rowLint_add hf (by decide) (by decide) (by decide) trivial)
      (fun _ _ => Sat.pure trivial)
end


/-! ### the induction principle -/

/-- A property of the output of a figure, in relation to its meta data, which is preserved by everything that happens in
a figure. -/
structure FigInv (env : Env) (G : EntityMeta → List Ev → Prop) : Prop where
  nil : ∀ m, G m []
  app : ∀ m a b, G m a → G m b → G m (a ++ b)
  /-- the output of a nested figure -/
  nest : ∀ m key evs, m.figId ≠ [] → G ⟨none, m.figId ++ '_' :: key, some m.figId⟩ evs → G m evs
  /-- the output of the further figure of the split handlers -/
  split : ∀ m c pre newId title evs, env.overrides.lookup m.figId = some (.struct c) → c.handler = .split pre newId →
    G ⟨title, newId, none⟩ evs → G m evs
  /-- a diagnostic -/
  own : ∀ m err row ctx, m.figId ≠ [] → err ∈ ownCodes → (err.needsRow = false ∨ row.isSome = true) →
    G m [.lint (issue err m.figId row ctx)]
  /-- the figure's entity, preceded by the output of the rows and by the diagnostics of validate_fields -/
  struct : ∀ m ty fields evs, m.figId ≠ [] → G m evs → (∀ f ∈ fields, StructSrc m.figId evs f) →
    G m (evs ++ (structEvs m.figId fields ++ [.ent ⟨m, .struct ty fields⟩]))
  value : ∀ m fields evs, m.figId ≠ [] → G m evs → (∀ f ∈ fields, ValueSrc env.labelOverrides m.figId evs f) →
    G m (evs ++ (valuesEvs m.figId fields ++ [.ent ⟨m, .values fields⟩]))

/-- further figures have an id and no further figures, and the figures which contain them are not nested ones -/
def EnvOk (env : Env) : Prop :=
  ∀ k c pre newId, env.overrides.lookup k = some (.struct c) → c.handler = .split pre newId →
    newId ≠ [] ∧ '_' ∉ k ∧ env.overrides.lookup newId = none

/-- the policy for rows says that the rest is a further figure -/
def ExtraOk (h : ErrHandler) : Option (EntityMeta × Node) → Prop
  | none => True
  | some (m, _) => ∃ pre newId title, h = .split pre newId ∧ m = ⟨title, newId, none⟩

theorem rowErr_extra (h : ErrHandler) (row : Row) (x : Option (EntityMeta × Node)) (he : rowErrHandler h row = .stop x) :
    ExtraOk h x := by
  unfold rowErrHandler at he
  split at he
  · split at he <;> simp at he
  · split at he <;> simp at he
  · split at he
    · simp at he
    · simp only [RowErrPolicy.stop.injEq] at he
      subst he
      exact ⟨_, _, _, rfl, rfl⟩

section
variable {env : Env} {G : EntityMeta → List Ev → Prop} (hG : FigInv env G) {m : EntityMeta} (hm : m.figId ≠ [])
include hG hm

theorem FigInv.rows {α : Type} {Q : α → Prop} {R : Exn → Prop} {x : M α} (h : Sat (RowLint m.figId) Q R x) :
    Inv (G m) (fun a e => ∃ fl, (x fl).out = .ok a ∧ (x fl).evs = e) x := by
  intro f
  refine ⟨?_, fun a ha => ⟨f, ha, rfl⟩⟩
  have := (h f).1
  generalize (x f).evs = l at this
  induction l with
  | nil => exact hG.nil m
  | cons e l ih =>
    obtain ⟨err, key, ctx, he, h1, _, _⟩ := this e (List.mem_cons_self ..)
    rw [he]
    exact hG.app m [_] l (hG.own m err _ ctx hm h1 (.inr rfl)) (ih (fun x hx => this x (List.mem_cons_of_mem _ hx)))

theorem FigInv.subTables {parse : ParseFn} (hp : ∀ m' t, m'.figId ≠ [] → Inv (G m') (fun _ _ => True) (parse m' t)) (key : Str)
    (ts : List Node) : Inv (G m) (fun _ _ => True) (subTables parse ⟨none, m.figId ++ '_' :: key, some m.figId⟩ ts) := by
  induction ts with
  | nil => exact Inv.pure (hG.nil m) trivial
  | cons t ts ih =>
    refine Inv.bind (hG.app m) (Q := fun _ _ => True) ?_ (fun _ _ _ => ih.weaken (fun _ _ _ => trivial))
    intro f
    exact ⟨hG.nest m key _ hm (hp _ t (by simp) f).1, fun _ _ => trivial⟩

theorem FigInv.structRow {parse : ParseFn} (hp : ∀ m' t, m'.figId ≠ [] → Inv (G m') (fun _ _ => True) (parse m' t))
    (h : ErrHandler) (cols : Cols) (dyn : Bool) (row : Row) :
    Inv (G m) (fun o e => (∀ x, o = .field x → StructSrc m.figId e x) ∧ ∀ x, o = .stop x → ExtraOk h x)
      (structRow parse m.figId h cols dyn row) := by
  unfold Spex.structRow
  split
  · refine Inv.ite (fun _ => Inv.pure (hG.nil m) ⟨?_, by simp⟩) (fun _ => Inv.ite
      (fun _ => Inv.pure (hG.nil m) ⟨by simp, ?_⟩) (fun _ => ?_))
    · intro x hx
      simp only [RowOut.field.injEq] at hx
      rw [← hx]
      exact .ellipsisRow
    · intro x hx
      simp only [RowOut.stop.injEq] at hx
      rw [← hx]
      trivial
    · split
      · rename_i hx
        refine Inv.pure (hG.nil m) ⟨by simp, ?_⟩
        intro x he
        simp only [RowOut.stop.injEq] at he
        rw [← he]
        exact rowErr_extra _ _ _ hx
      · exact Inv.raise (hG.nil m)
      · exact Inv.pure (hG.nil m) ⟨by simp, by simp⟩
  · rename_i rangeF contentF labelF _
    refine Inv.ite (fun _ => Inv.ite (fun _ => Inv.pure (hG.nil m) ⟨by simp, by simp⟩) (fun _ => ?_)) (fun hsp => ?_)
    · refine Inv.bind (hG.app m) (hG.rows hm (sat_parseRange hm rangeF rangeF)) (fun r e0 hr => ?_)
      obtain ⟨fl, ho, he⟩ := hr
      split
      · rename_i f hf
        refine Inv.pure (hG.nil m) ⟨?_, by simp⟩
        intro x hx
        simp only [RowOut.field.injEq] at hx
        subst hx
        exact .special rangeF contentF fl r _ ho (by rw [he]; simp) hf
      · exact Inv.pure (hG.nil m) ⟨by simp, by simp⟩
    · simp only [Bool.or_eq_true, not_or, Bool.not_eq_true] at hsp
      refine Inv.bind (hG.app m) (hG.rows hm (sat_rowRange hm dyn rangeF)) (fun r e0 hr => ?_)
      obtain ⟨fl, ho, he⟩ := hr
      refine Inv.bind (hG.app m) (hG.rows hm (sat_parseLabel hm cols labelF _)) (fun label e1 hl => ?_)
      obtain ⟨fl', ho', he'⟩ := hl
      refine Inv.bind (hG.app m) (Q := fun _ _ => True) (Inv.ofExcept (hG.nil m) (fun _ _ => trivial)) (fun content e2 _ => ?_)
      refine Inv.bind (hG.app m) (Q := fun _ _ => True) (hG.subTables hm hp _ _) (fun _ e3 _ => ?_)
      refine Inv.pure (hG.nil m) ⟨?_, by simp⟩
      intro x hx
      simp only [RowOut.field.injEq] at hx
      subst hx
      refine .normal dyn cols rangeF contentF labelF fl fl' r label hsp.1.1 hsp.1.2 hsp.2 ho ?_ ho' ?_
      · rw [he]; simp
      · rw [he']
        intro x hx
        simp [hx]

theorem FigInv.structRows {parse : ParseFn} (hp : ∀ m' t, m'.figId ≠ [] → Inv (G m') (fun _ _ => True) (parse m' t))
    (h : ErrHandler) (cols : Cols) (err : Option Exn) (rows : List Row) (dyn : Bool) :
    Inv (G m) (fun o e => (∀ x ∈ o.1, StructSrc m.figId e x) ∧ ExtraOk h o.2)
      (structRows parse m.figId h cols err dyn rows) := by
  induction rows generalizing dyn with
  | nil =>
    unfold Spex.structRows
    split
    · exact Inv.pure (hG.nil m) ⟨by simp, trivial⟩
    · exact Inv.raise (hG.nil m)
  | cons row rows ih =>
    unfold Spex.structRows
    refine Inv.ite (fun _ => ih _) (fun _ => ?_)
    refine Inv.bind (hG.app m) (hG.structRow hm hp h cols dyn row) (fun o e0 ho => ?_)
    split
    · exact Inv.pure (hG.nil m) ⟨by simp, ho.2 _ rfl⟩
    · exact (ih _).weaken (fun a e ha => ⟨fun x hx => (ha.1 x hx).mono (by simp), ha.2⟩)
    · refine Inv.bind (hG.app m) (ih _) (fun o e1 ho' => ?_)
      refine Inv.pure (hG.nil m) ⟨?_, ho'.2⟩
      intro x hx
      rcases List.mem_cons.mp hx with hx | hx
      · subst hx
        exact (ho.1 _ rfl).mono (by simp)
      · exact (ho'.1 x hx).mono (by simp)

theorem FigInv.structCall (hE : EnvOk env) {parse : ParseFn}
    (hp : ∀ m' t, m'.figId ≠ [] → Inv (G m') (fun _ _ => True) (parse m' t))
    (c : StructCls) (hc : ∀ pre newId, c.handler = .split pre newId → env.overrides.lookup m.figId = some (.struct c))
    (cols : Cols) (tbl : Node) : Inv (G m) (fun _ _ => True) (structCall parse c m cols tbl) := by
  intro f
  refine ⟨?_, fun _ _ => trivial⟩
  unfold Spex.structCall
  have h := hG.structRows hm hp c.handler cols (rowIter tbl).2 (rowIter tbl).1 false f
  simp only
  cases ho : (Spex.structRows parse m.figId c.handler cols (rowIter tbl).2 false (rowIter tbl).1 f).out with
  | error e => rw [M.bind_err ho]; exact h.1
  | ok o =>
    obtain ⟨hs, hx⟩ := h.2 o ho
    rw [M.bind_ok ho, M.bind_run, validateStruct_run _ hm]
    simp only
    rw [M.bind_run, M.yield_run]
    simp only
    rw [← List.append_assoc, ← List.append_assoc, List.append_assoc (Spex.structRows _ _ _ _ _ _ _ f).evs]
    refine hG.app m _ _ (hG.struct m c.ty _ _ hm h.1 ?_) ?_
    · intro x hx
      apply hs
      unfold layoutOrder at hx
      split at hx
      · simpa using hx
      · exact hx
    · obtain ⟨fs, extra⟩ := o
      cases extra with
      | none => exact hG.nil m
      | some p =>
        obtain ⟨m', t'⟩ := p
        obtain ⟨pre, newId, title, h1, h2⟩ := hx
        subst h2
        refine hG.split m c pre newId title _ (hc _ _ h1) h1 (hp _ _ ?_ _).1
        exact (hE _ _ _ _ (hc _ _ h1) h1).1

theorem FigInv.valueRow {parse : ParseFn} (hp : ∀ m' t, m'.figId ≠ [] → Inv (G m') (fun _ _ => True) (parse m' t))
    (cols : Cols) (row : Row) :
    Inv (G m) (fun o e => ∀ x, o = .field x → ValueSrc env.labelOverrides m.figId e x)
      (valueRow parse env.labelOverrides m.figId cols row) := by
  unfold Spex.valueRow
  split
  · rename_i rowVal rowData h1 h2
    refine Inv.ite (fun _ => Inv.pure (hG.nil m) ?_) (fun _ => ?_)
    · intro x hx
      simp only [RowOut.field.injEq] at hx
      rw [← hx]
      exact .ellipsisRow
    · refine Inv.bind (hG.app m) (hG.rows hm (sat_valueLabel hm _ cols row.node _ rowData)) (fun label e0 hl => ?_)
      obtain ⟨fl, ho, he⟩ := hl
      refine Inv.bind (hG.app m) (Q := fun _ _ => True) (hG.subTables hm hp _ _) (fun _ e3 _ => ?_)
      refine Inv.pure (hG.nil m) ?_
      intro x hx
      simp only [RowOut.field.injEq] at hx
      subst hx
      exact .normal cols row.node rowVal rowData fl label h1 h2 ho (by rw [he]; simp)
  · refine Inv.ite (fun _ => Inv.pure (hG.nil m) ?_) (fun _ => Inv.ite (fun _ => Inv.pure (hG.nil m) (by simp)) (fun _ =>
      Inv.pure (hG.nil m) (by simp)))
    intro x hx
    simp only [RowOut.field.injEq] at hx
    rw [← hx]
    exact .ellipsisRow

theorem FigInv.valueRows {parse : ParseFn} (hp : ∀ m' t, m'.figId ≠ [] → Inv (G m') (fun _ _ => True) (parse m' t))
    (cols : Cols) (err : Option Exn) (rows : List Row) :
    Inv (G m) (fun o e => ∀ x ∈ o, ValueSrc env.labelOverrides m.figId e x)
      (valueRows parse env.labelOverrides m.figId cols err rows) := by
  induction rows with
  | nil =>
    unfold Spex.valueRows
    split
    · exact Inv.pure (hG.nil m) (by simp)
    · exact Inv.raise (hG.nil m)
  | cons row rows ih =>
    unfold Spex.valueRows
    refine Inv.ite (fun _ => ih) (fun _ => ?_)
    refine Inv.bind (hG.app m) (hG.valueRow hm hp cols row) (fun o e0 ho => ?_)
    split
    · exact Inv.pure (hG.nil m) (by simp)
    · exact ih.weaken (fun a e ha => fun x hx => (ha x hx).mono (by simp))
    · refine Inv.bind (hG.app m) ih (fun o e1 ho' => ?_)
      refine Inv.pure (hG.nil m) ?_
      intro x hx
      rcases List.mem_cons.mp hx with hx | hx
      · subst hx
        exact (ho _ rfl).mono (by simp)
      · exact (ho' x hx).mono (by simp)

theorem FigInv.valueCall {parse : ParseFn} (hp : ∀ m' t, m'.figId ≠ [] → Inv (G m') (fun _ _ => True) (parse m' t))
    (cols : Cols) (tbl : Node) : Inv (G m) (fun _ _ => True) (valueCall parse env.labelOverrides m cols tbl) := by
  intro f
  refine ⟨?_, fun _ _ => trivial⟩
  unfold Spex.valueCall
  have h := hG.valueRows hm hp cols (rowIter tbl).2 (rowIter tbl).1 f
  simp only
  cases ho : (Spex.valueRows parse env.labelOverrides m.figId cols (rowIter tbl).2 (rowIter tbl).1 f).out with
  | error e => rw [M.bind_err ho]; exact h.1
  | ok o =>
    rw [M.bind_ok ho, M.bind_run, validateValues_run _ hm]
    simp only
    rw [M.yield_run]
    exact hG.value m o _ hm h.1 (h.2 o ho)

theorem FigInv.header (tbl : Node) : Inv (G m) (fun _ _ => True) (extractTblHeaders m.figId tbl) := by
  unfold extractTblHeaders
  generalize headerCells tbl = cs
  induction cs with
  | nil => exact Inv.pure (hG.nil m) trivial
  | cons c cs ih =>
    refine Inv.bind (hG.app m) (Q := fun _ _ => True) ?_ (fun _ _ _ => Inv.bind (hG.app m) ih (fun _ _ _ =>
      Inv.pure (hG.nil m) trivial))
    unfold normalizeHdr
    split
    · rw [addIssue_none hm (by decide)]
      refine Inv.bind (hG.app m) (Q := fun _ _ => True) ?_ (fun _ _ _ => Inv.pure (hG.nil m) trivial)
      intro f
      exact ⟨hG.own m _ none _ hm (by decide) (.inl (by decide)), fun _ _ => trivial⟩
    · exact Inv.pure (hG.nil m) trivial

theorem FigInv.onFigError (x : Exn) (f : Bool) : G m (onFigError env m x f).evs := by
  unfold Spex.onFigError
  rw [addIssue_none hm (by decide)]
  have h := hG.own m .tblParseErr none (match m.title with | some t => [(c!"title", .str t)] | none => []) hm (by decide)
    (.inl (by decide))
  have hn := hG.nil m
  cases f <;> by_cases hc : (m.parent.isSome || !env.skip) = true <;>
    simp only [M.bind_run, M.getFlag_run, M.setFlag_run, M.emit_run, Bool.not_false, Bool.not_true, if_true, hc,
      Bool.false_eq_true, if_false, M.raise_run, M.pure_run, List.nil_append, List.append_nil] <;> first | exact h | exact hn

theorem FigInv.runExtractor (hE : EnvOk env) {parse : ParseFn}
    (hp : ∀ m' t, m'.figId ≠ [] → Inv (G m') (fun _ _ => True) (parse m' t)) (tbl : Node) (hdrs : List Str) (c : Cls)
    (hc : ∀ c', c = .struct c' → (∃ pre newId, c'.handler = .split pre newId) →
      env.overrides.lookup m.figId = some (.struct c')) (mapping : Mapping) :
    Inv (G m) (fun _ _ => True) (runExtractor env parse m tbl hdrs c mapping) := by
  unfold Spex.runExtractor
  refine Inv.bind (hG.app m) (Q := fun _ _ => True) (Inv.ofExcept (hG.nil m) (fun _ _ => trivial)) (fun cols _ _ => ?_)
  intro f
  refine ⟨?_, fun _ _ => trivial⟩
  have h : ∀ f, G m (callExtractor env parse c m cols tbl f).evs := by
    intro f
    unfold callExtractor
    split
    · rename_i c'
      exact (hG.structCall hm hE hp c' (fun pre newId h => hc c' rfl ⟨pre, newId, h⟩) cols tbl f).1
    · exact (hG.valueCall hm hp cols tbl f).1
  rw [M.tryCatch_run]
  split
  · exact h f
  · exact hG.app m _ _ (h f) (hG.onFigError hm _ _)

theorem FigInv.onParseFig (hE : EnvOk env) {parse : ParseFn}
    (hp : ∀ m' t, m'.figId ≠ [] → Inv (G m') (fun _ _ => True) (parse m' t)) (tbl : Node) :
    Inv (G m) (fun _ _ => True) (onParseFig env parse m tbl) := by
  unfold Spex.onParseFig
  refine Inv.bind (hG.app m) (Q := fun _ _ => True) (fun f => ⟨hG.nil m, fun _ _ => trivial⟩) (fun _ _ _ => ?_)
  refine Inv.bind (hG.app m) (hG.header hm tbl) (fun hdrs _ _ => ?_)
  split
  · split
    · rw [addIssue_none hm (by decide)]
      intro f
      exact ⟨hG.own m _ none _ hm (by decide) (.inl (by decide)), fun _ _ => trivial⟩
    · rename_i c mapping hfirst
      refine hG.runExtractor hm hE hp tbl hdrs c ?_ mapping
      intro c' hc' hs
      have hmem : c ∈ extractors := by
        have : ∀ (cs : List Cls), firstApplicable cs hdrs = some (c, mapping) → c ∈ cs := by
          intro cs
          induction cs with
          | nil => intro h; simp [firstApplicable] at h
          | cons a cs ih =>
            intro h
            unfold firstApplicable at h
            split at h
            · simp only [Option.some.injEq, Prod.mk.injEq] at h
              exact h.1 ▸ List.mem_cons_self ..
            · exact List.mem_cons_of_mem _ (ih h)
        exact this _ hfirst
      subst hc'
      obtain ⟨pre, newId, hs⟩ := hs
      simp only [extractors, List.mem_cons, Cls.struct.injEq, List.not_mem_nil, or_false, reduceCtorEq, false_or] at hmem
      rcases hmem with h | h <;> (subst h; simp [bytesCls, bitsCls] at hs)
  · rename_i c hover
    split
    · exact Inv.raise (hG.nil m)
    · rename_i mapping hm'
      exact hG.runExtractor hm hE hp tbl hdrs c (fun c' h _ => by rw [hover, h]) mapping
end

/-- Every property preserved by what happens in a figure holds of the output of every figure. -/
theorem FigInv.parseFig {env : Env} (hE : EnvOk env) {G : EntityMeta → List Ev → Prop} (hG : FigInv env G) (n : Nat)
    (m : EntityMeta) (tbl : Node) (hm : m.figId ≠ []) (f : Bool) : G m (parseFig env n m tbl f).evs := by
  induction n generalizing m tbl f with
  | zero => exact hG.nil m
  | succ n ih => exact (hG.onParseFig hm hE (fun m' t h f => ⟨ih m' t h f, fun _ _ => trivial⟩) tbl f).1

/-- Lifting to documents. -/
theorem FigInv.parseTables {env : Env} (hE : EnvOk env) {G : EntityMeta → List Ev → Prop} (hG : FigInv env G)
    {D : List Ev → Prop} (hnil : D []) (happ : ∀ a b, D a → D b → D (a ++ b))
    (hmiss : ∀ k title, D [.lint (issue .tblFigIdExtractErr (figIdMissing k) none [(c!"title", .str title)])])
    (hfig : ∀ title fid evs, fid ≠ [] → figureId title = some fid → G ⟨some title, fid, none⟩ evs → D evs)
    (k : Nat) (ts : List Node) (f : Bool) : D (parseTables env k ts f).evs := by
  have key : ∀ ts k, Inv D (fun _ _ => True) (Spex.parseTables env k ts) := by
    intro ts
    induction ts with
    | nil => exact fun k => Inv.pure hnil trivial
    | cons t ts ih =>
      intro k
      unfold Spex.parseTables
      simp only
      split
      · exact Inv.raise hnil
      · split
        · exact ih _
        · rename_i title _
          split
          · rw [addIssue_none (by simp [figIdMissing]) (by decide)]
            refine Inv.bind happ (Q := fun _ _ => True) (fun f => ⟨hmiss k title, fun _ _ => trivial⟩) (fun _ _ _ => ih _)
          · rename_i fid hfid
            refine Inv.bind happ (Q := fun _ _ => True) (fun f => ⟨?_, fun _ _ => trivial⟩) (fun _ _ _ => ih _)
            exact hfig title fid _ (figureId_ne hfid) hfid (hG.parseFig hE _ _ _ (figureId_ne hfid) f)
  exact (key ts k f).1

theorem FigInv.parseDoc {env : Env} (hE : EnvOk env) {G : EntityMeta → List Ev → Prop} (hG : FigInv env G)
    {D : List Ev → Prop} (hnil : D []) (happ : ∀ a b, D a → D b → D (a ++ b))
    (hmiss : ∀ k title, D [.lint (issue .tblFigIdExtractErr (figIdMissing k) none [(c!"title", .str title)])])
    (hfig : ∀ title fid evs, fid ≠ [] → figureId title = some fid → G ⟨some title, fid, none⟩ evs → D evs)
    (root : Node) : D (Spex.parseDoc env root).evs :=
  hG.parseTables hE hnil happ hmiss hfig 0 (figures root) false

/-- Lifting a property which does not depend on the figure. -/
theorem FigInv.parseDoc' {env : Env} (hE : EnvOk env) {D : List Ev → Prop} (hG : FigInv env (fun _ => D))
    (hmiss : ∀ k title, D [.lint (issue .tblFigIdExtractErr (figIdMissing k) none [(c!"title", .str title)])])
    (root : Node) : D (Spex.parseDoc env root).evs :=
  FigInv.parseDoc hE hG (hG.nil ⟨none, [], none⟩) (hG.app ⟨none, [], none⟩) hmiss (fun _ _ _ _ _ h => h) root

omit [Uni] in
/-- the configurations of the code (quirks) are admissible -/
theorem envOk_all (skip : Bool) : EnvOk (envPlain skip) ∧ EnvOk (envNvm skip) ∧ EnvOk (envZoned skip) ∧
    EnvOk (envMi skip) ∧ EnvOk (envKv skip) := by
  refine ⟨?_, ?_, ?_, ?_, ?_⟩
  · intro k c pre newId h; simp [envPlain] at h
  · intro k c pre newId h hs
    simp only [envNvm, List.lookup] at h
    split at h
    · rename_i hk
      simp only [Option.some.injEq, Cls.struct.injEq] at h
      subst h
      simp only [nvmFig23, ErrHandler.split.injEq] at hs
      rw [← hs.2, LawfulBEq.eq_of_beq hk]; simp [envNvm]
    · simp at h
  · intro k c pre newId h; simp [envZoned] at h
  · intro k c pre newId h hs
    simp only [envMi, List.lookup] at h
    split at h
    · rename_i hk
      simp only [Option.some.injEq, Cls.struct.injEq] at h
      subst h
      simp only [miFig64, ErrHandler.split.injEq] at hs
      rw [← hs.2, LawfulBEq.eq_of_beq hk]; simp [envMi]
    · simp at h
  · intro k c pre newId h hs
    simp only [envKv, List.lookup] at h
    split at h
    · simp only [Option.some.injEq, Cls.struct.injEq] at h
      subst h
      simp [kvFig41] at hs
    · simp at h

omit [Uni] in
theorem envOk_getParser (key rev : Str) (skip : Bool) : EnvOk (getParser key rev skip) := by
  obtain ⟨h1, h2, h3, h4, h5⟩ := envOk_all skip
  unfold getParser
  split
  · rename_i f hf
    unfold quirksMap at hf
    simp only [List.lookup] at hf
    repeat' split at hf
    all_goals first | (simp only [Option.some.injEq] at hf; subst hf; assumption) | simp at hf
  · exact h1

end Spex
