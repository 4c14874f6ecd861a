import Verif.Model.Schema
import Verif.Props.Output
import Verif.Props.Range
/-
C34: the models written satisfy the published schema.
-/
set_option autoImplicit false
namespace Spex
variable [Uni]

/-- a range with two integers, or a text -/
def PlainRange : RangeV → Prop
  | .dyn _ _ => False
  | _ => True

/-- what the schema can express of an entity: no formulas in ranges, no figures of values without a value -/
def Expressible (e : Entity) : Prop :=
  match e.body with
  | .struct _ fs => ∀ f ∈ fs, PlainRange f.range
  | .values fs => fs ≠ []

/-! ### ranges -/

theorem figureIn_id {env : Env} (hE : EnvOk env) {root : Node} {m : EntityMeta} {tbl : Node} (h : FigureIn env root m tbl) :
    m.figId ≠ [] := by
  cases h with
  | top t tr title fid _ _ _ h => exact figureId_ne h
  | nested => simp
  | further m tbl row c pre newId title _ _ h1 h2 => exact (hE _ _ _ _ h1 h2).1

theorem parseRange_result {fig t key : Str} (hf : fig ≠ []) {f : Bool} {r : RangeV} (h : (parseRange fig t key f).out = .ok r) :
    (∃ low high : Nat, r = .int low high) ∨ r = .raw t := by
  have h0 := C02_range_diagnostics fig t key hf f
  by_cases hd : ∀ c ∈ t.head?, digit c = none
  · have := (h0.1 hd).2
    rw [this, Except.ok.injEq] at h
    exact .inr h.symm
  · have hd' : ∃ c ∈ t.head?, digit c ≠ none := by
      by_contra hc
      exact hd fun c h1 => by by_contra h2; exact hc ⟨c, h1, h2⟩
    rcases h0.2 hd' with ⟨lo, hi, h1, -⟩ | ⟨h1, -⟩
    · rw [h1, Except.ok.injEq] at h
      exact .inl ⟨lo, hi, h.symm⟩
    · rw [h1] at h; simp at h

/-- what the range of a field can be -/
def RangeOk : RangeV → Prop
  | .int lo hi => 0 ≤ lo ∧ 0 ≤ hi ∨ lo = -1 ∧ hi = -1
  | _ => True

omit [Uni] in
theorem structField_range (r : RangeV) (l : Str) (b : Option Str) : (structField r l b).range = r := rfl

theorem handleSpecialCase_range {c : Str} {r : RangeV} {f : StructField} (h : handleSpecialCase c r = some f) : f.range = r := by
  unfold handleSpecialCase at h
  split at h
  · simp only [Option.some.injEq] at h; rw [← h]; rfl
  split at h
  · simp only [Option.some.injEq] at h; rw [← h]; rfl
  split at h
  · simp only [Option.some.injEq] at h; rw [← h]; rfl
  · simp at h

theorem StructFrom.range {fig : Str} (hf : fig ≠ []) {cols : Cols} {dyn : Bool} {row : Node} {evs : List Ev} {f : StructField}
    (h : StructFrom fig cols dyn row evs f) : RangeOk f.range := by
  have hp : ∀ {t k fl r}, (parseRange fig t k fl).out = .ok r → RangeOk r := by
    intro t k fl r h
    rcases parseRange_result hf h with ⟨lo, hi, rfl⟩ | rfl
    · exact .inl ⟨Int.natCast_nonneg _, Int.natCast_nonneg _⟩
    · trivial
  cases h with
  | ellipsis h => exact .inr ⟨rfl, rfl⟩
  | special a b c fl r _ h0 h1 h2 h3 h4 h5 => rw [handleSpecialCase_range h5]; exact hp h1
  | normal a b c fl fl' r label h0 h1 h2 h3 h4 h5 h6 h7 =>
    rw [structField_range]
    cases dyn with
    | false => exact hp h4
    | true =>
      change (parseDynamicRange fig a fl).out = .ok r at h4
      by_cases hx : ∃ x y, DynText a x y
      · obtain ⟨x, y, hx⟩ := hx
        rw [C03_dynamic_range fig a x y hx fl] at h4
        simp only [Except.ok.injEq] at h4
        rw [← h4]; trivial
      · rw [C03_dynamic_range_invalid fig a hf (fun x y h => hx ⟨x, y, h⟩) fl] at h4
        simp only [Except.ok.injEq] at h4
        rw [← h4]; trivial

/-- **C34** The ranges of all fields of all entities of a document: two integers, both non negative, or both -1; or texts. -/
theorem C34_ranges (env : Env) (hE : EnvOk env) (root : Node) (e : Entity) (h : e ∈ entities (parseDoc env root).evs)
    (ty : StructTy) (fs : List StructField) (hb : e.body = .struct ty fs) : ∀ f ∈ fs, RangeOk f.range := by
  obtain ⟨tbl, h1, h2⟩ := C23_fields_from_rows env hE root e h
  rw [hb] at h2
  obtain ⟨c, cols, rowEvs, -, -, -, h3⟩ := h2
  intro f hf
  have hf' : f ∈ (match ty with | .bytes => fs | .bits => fs.reverse) := by
    cases ty
    · exact List.mem_reverse.2 hf
    · exact hf
  obtain ⟨_, r, _, -, -, hr⟩ := h3.mem_pre hf'
  exact hr.range (figureIn_id hE h1)

/-! ### validity of the parts -/

omit [Uni] in
theorem valid_lint (l : LintEntry) : lintSchema.valid l.toJson = true := by
  cases l with | mk err fig msg row ctx => cases row <;> rfl

omit [Uni] in
theorem valid_valueField (f : ValueField) : valueFieldSchema.valid f.toJson = true := by
  cases f with | mk val label brief => cases brief <;> rfl

omit [Uni] in
theorem valid_range (r : RangeV) (h : RangeOk r) (hp : PlainRange r) : rangeSchema.valid r.toJson = true := by
  cases r with
  | dyn => exact absurd hp id
  | raw s => rfl
  | int lo hi =>
    have e : rangeSchema.valid (RangeV.int lo hi).toJson =
      (decide (0 ≤ lo) || (decide (-1 ≤ lo) && decide (lo ≤ -1) && (decide (-1 ≤ hi) && decide (hi ≤ -1)))) := by
      have e0 : rangeSchema.valid (RangeV.int lo hi).toJson =
        (false || ((true && (((true && (decide (0 ≤ lo) && true)) && (true && true)) && true)) ||
          ((true && (((true && (decide (-1 ≤ lo) && (decide (lo ≤ -1) && true))) &&
            ((true && (decide (-1 ≤ hi) && (decide (hi ≤ -1) && true))) && true)) && true)) || false))) := rfl
      rw [e0]
      cases decide (0 ≤ lo) <;> cases decide (-1 ≤ lo) <;> cases decide (lo ≤ -1) <;> cases decide (-1 ≤ hi) <;>
        cases decide (hi ≤ -1) <;> rfl
    rw [e]
    rcases h with ⟨h, -⟩ | ⟨rfl, rfl⟩
    · simp [h]
    · rfl

omit [Uni] in
theorem valid_structField (f : StructField) (h : RangeOk f.range) (hp : PlainRange f.range) :
    structFieldSchema.valid f.toJson = true := by
  cases f with
  | mk label range brief =>
    have := valid_range range h hp
    have e : structFieldSchema.valid (StructField.mk label range brief).toJson =
        (true && ((rangeSchema.valid range.toJson && (true && (true && true))) && ((true && (true && true)) && true))) := by
      cases brief <;> rfl
    rw [e, this]; rfl

omit [Uni] in
theorem valid_struct (m : EntityMeta) (ty : StructTy) (fs : List StructField) :
    structSchema.valid (Entity.mk m (.struct ty fs)).toJson = (fs.map StructField.toJson).all structFieldSchema.valid := by
  cases m with
  | mk title figId parent =>
    have e : structSchema.valid (Entity.mk ⟨title, figId, parent⟩ (.struct ty fs)).toJson =
        (true && ((true && ((true && (true && true)) && ((true && ((fs.map StructField.toJson).all structFieldSchema.valid && true)) && true))) && true)) := by
      cases title <;> cases parent <;> cases ty <;> rfl
    rw [e]
    simp

omit [Uni] in
theorem valid_values (m : EntityMeta) (fs : List ValueField) (h : fs ≠ []) :
    valuesSchema.valid (Entity.mk m (.values fs)).toJson = true := by
  cases m with
  | mk title figId parent =>
    have e : valuesSchema.valid (Entity.mk ⟨title, figId, parent⟩ (.values fs)).toJson =
        ((fs.map ValueField.toJson).all valueFieldSchema.valid && decide (1 ≤ (fs.map ValueField.toJson).length)) := by
      have e0 : valuesSchema.valid (Entity.mk ⟨title, figId, parent⟩ (.values fs)).toJson =
        (true && ((true && ((true && (true && true)) && ((true && ((fs.map ValueField.toJson).all valueFieldSchema.valid &&
          (decide (1 ≤ (fs.map ValueField.toJson).length) && true))) && true))) && true)) := by
        cases title <;> cases parent <;> rfl
      rw [e0]
      simp
    rw [e]
    simp only [Bool.and_eq_true, decide_eq_true_eq, List.length_map]
    refine ⟨?_, List.length_pos_of_ne_nil h⟩
    rw [List.all_eq_true]
    intro j hj
    obtain ⟨f, -, rfl⟩ := List.mem_map.1 hj
    exact valid_valueField f

omit [Uni] in
theorem valid_model (key rev : Str) (ls : List LintEntry) (ents : List Json)
    (h : ∀ j ∈ ents, valuesSchema.valid j = true ∨ structSchema.valid j = true) :
    stage2Schema.valid (modelJson (openedInfo key rev ++ [(c!"lint", .arr (ls.map LintEntry.toJson))]) ents) = true := by
  have e : stage2Schema.valid (modelJson (openedInfo key rev ++ [(c!"lint", .arr (ls.map LintEntry.toJson))]) ents) =
      ((ls.map LintEntry.toJson).all lintSchema.valid && ents.all (Schema.anyOf [valuesSchema, structSchema]).valid) := by
    have e0 : stage2Schema.valid (modelJson (openedInfo key rev ++ [(c!"lint", .arr (ls.map LintEntry.toJson))]) ents) =
      (true && (((true && ((true && (true && ((true && (true && true)) && (true &&
        ((true && ((ls.map LintEntry.toJson).all lintSchema.valid && true)) && true))))) && (true && true))) &&
        ((true && (ents.all (Schema.anyOf [valuesSchema, structSchema]).valid && true)) && true)) && (true && true))) := rfl
    rw [e0]
    simp
  rw [e, Bool.and_eq_true, List.all_eq_true, List.all_eq_true]
  constructor
  · intro j hj
    obtain ⟨l, -, rfl⟩ := List.mem_map.1 hj
    exact valid_lint l
  · intro j hj
    have e : (Schema.anyOf [valuesSchema, structSchema]).valid j = (valuesSchema.valid j || (structSchema.valid j || false)) := by
      cases j <;> rfl
    rw [e]
    rcases h j hj with h | h <;> simp [h]

/-- **C34, partial** The model written by a successful run satisfies the schema, if no field has a range with formulas and no
figure of values is empty. Missing: those, for which it is false (`C34_formula_false`, `C34_empty_false`). -/
theorem C34_schema_partial (ign : List LintErr) (skip p : Bool) (root : Node) (key rev : Str) (h : Stated root key rev)
    (hok : (runOf skip root key rev).out = .ok ())
    (hx : ∀ e ∈ entities (runOf skip root key rev).evs, Expressible e) :
    ∃ j, readJson (parseSpec ign skip p none (.ok root)).2.1.file.content = some j ∧ stage2Schema.valid j = true := by
  obtain ⟨k, r, h1, h2, rfl, rfl⟩ := h
  have hd : htmlToSpecDoc (.ok root) = .ok ⟨root, lower k, lower r⟩ := by
    rw [htmlToSpecDoc]; simp only [metaAttr, h1, h2]
  rw [parseSpec, specSteps_ok ign skip p hd]
  simp only [hok]
  rw [exit_file _ (by rw [steps_file]; rfl)]
  simp only
  rw [steps_append, steps_append, steps_open, steps_entities]
  refine ⟨_, C61_roundtrip _, ?_⟩
  change stage2Schema.valid (modelJson (openedInfo (lower k) (lower r) ++ [(c!"lint", _)]) _) = true
  refine valid_model _ _ _ _ fun j hj => ?_
  change j ∈ [] ++ (entities _).map Entity.toJson at hj
  rw [List.nil_append] at hj
  obtain ⟨e, he, rfl⟩ := List.mem_map.1 hj
  have hxe := hx e he
  cases e with
  | mk m body =>
    cases body with
    | values fs => exact .inl (valid_values m fs hxe)
    | struct ty fs =>
      right
      rw [valid_struct, List.all_eq_true]
      intro j hj
      obtain ⟨f, hf, rfl⟩ := List.mem_map.1 hj
      exact valid_structField f (C34_ranges _ (envOk_getParser _ _ skip) root _ he ty fs rfl f hf) (hxe f hf)

/-! ### Examples -/

section
open Sample

/-- the hypotheses of `C34_schema_partial` for a document with a bits figure and a nested figure of values -/
example : letI := Uni.ascii
    (runOf false (headedDoc c!"Big" c!"1.0A" [goodFig]) c!"big" c!"1.0a").out.toOption = some () ∧
    (entities (runOf false (headedDoc c!"Big" c!"1.0A" [goodFig]) c!"big" c!"1.0a").evs).length = 2 ∧
    ∀ e ∈ entities (runOf false (headedDoc c!"Big" c!"1.0A" [goodFig]) c!"big" c!"1.0a").evs, Expressible e := by
  let _ := Uni.ascii
  refine ⟨by decide +kernel, by decide +kernel, ?_⟩
  have : (entities (runOf false (headedDoc c!"Big" c!"1.0A" [goodFig]) c!"big" c!"1.0a").evs).all (fun e => match e.body with
    | .struct _ fs => fs.all (fun f => match f.range with | .dyn _ _ => false | _ => true)
    | .values fs => !fs.isEmpty) = true := by decide +kernel
  intro e he
  have := List.all_eq_true.1 this e he
  unfold Expressible
  cases hb : e.body with
  | struct ty fs =>
    rw [hb] at this
    simp only [List.all_eq_true] at this ⊢
    intro f hf
    have := this f hf
    cases hr : f.range <;> rw [hr] at this <;> simp [PlainRange] at this ⊢
  | values fs =>
    rw [hb] at this
    simpa using this

/-- a figure with a dynamic list -/
def dynFig : Node := .elem tTable [] [tr [td c!"Figure 5: Log"], tr [th c!"Bytes", th c!"Description"],
  tr [td c!"00", td c!"Count (CNT): n"], tr [.elem tTh [(c!"colspan", c!"2")] [.elem tP [] [.text c!"Entry List"]]],
  tr [td c!"(n*4)+3:(n*4)", td c!"Entry (EN): e"]]
/-- a figure of values without a value -/
def emptyFig : Node := figure c!"Figure 6: Codes" [c!"Value", c!"Definition"] []

omit [Uni] in
/-- C34 fails for dynamic lists: the run is successful, and the model violates the schema. -/
theorem C34_formula_false : letI := Uni.ascii
    (parseSpec [] false false none (.ok (headedDoc c!"Big" c!"1.0A" [dynFig]))).2.2 = .returned ∧
    (readJson (parseSpec [] false false none (.ok (headedDoc c!"Big" c!"1.0A" [dynFig]))).2.1.file.content).map stage2Schema.valid =
      some false := by decide +kernel

omit [Uni] in
/-- C34 fails for figures of values without a value. -/
theorem C34_empty_false : letI := Uni.ascii
    (parseSpec [] false false none (.ok (headedDoc c!"Big" c!"1.0A" [emptyFig]))).2.2 = .returned ∧
    (readJson (parseSpec [] false false none (.ok (headedDoc c!"Big" c!"1.0A" [emptyFig]))).2.1.file.content).map stage2Schema.valid =
      some false := by decide +kernel

/-- the schema accepts a model with both kinds of figures -/
example : letI := Uni.ascii
    (readJson (parseSpec [] false false none (.ok (headedDoc c!"Big" c!"1.0A" [goodFig]))).2.1.file.content).map stage2Schema.valid =
      some true := by decide +kernel

end

end Spex
