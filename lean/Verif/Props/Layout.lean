import Verif.Lemmas.Figure
import Verif.Props.Sample
import Mathlib.Tactic.ByContra
/-
C16-C22: the layout of figures and the diagnostics of validate_fields, for every document.
-/
set_option autoImplicit false
namespace Spex

/-! ### Vocabulary -/

/-- the entities put out, in order -/
def entities (evs : List Ev) : List Entity := evs.filterMap fun
  | .ent e => some e
  | .lint _ => none

/-- the diagnostics with a code, in order -/
def diagnostics (c : LintErr) (evs : List Ev) : List LintEntry := evs.filterMap fun
  | .ent _ => none
  | .lint l => if l.err = c then some l else none

/-- a diagnostic with this code is reported for the figure -/
def Reported (c : LintErr) (fig : Str) (evs : List Ev) : Prop := ∃ l ∈ diagnostics c evs, l.fig = fig

/-- the integer range of a field which is not an ellipsis: low and high -/
def intRange (f : StructField) : Option (Int × Int) :=
  if f.label = ELLIPSIS then none
  else match f.range with
    | .int l h => some (l, h)
    | _ => none

/-- the field has the offset `o` -/
def Covers (f : StructField) (o : Int) : Prop := ∃ l h, intRange f = some (l, h) ∧ l ≤ o ∧ o ≤ h

/-- an ellipsis or an unparsed range, which separates runs of fields -/
def Breaks (f : StructField) : Prop := f.label = ELLIPSIS ∨ ∃ s, f.range = .raw s

/-- `f` starts at an offset at or below the end of its predecessor `p` -/
def overlaps (p f : StructField) : Bool :=
  match intRange p, intRange f with
  | some (_, ph), some (l, _) => l ≤ ph
  | _, _ => false

/-- `f` starts more than one offset after the end of its predecessor `p` -/
def leavesGap (p f : StructField) : Bool :=
  match intRange p, intRange f with
  | some (_, ph), some (l, _) => ph + 1 < l
  | _, _ => false

/-- `g` starts below `a` -/
def Inverted (a g : StructField) : Prop := ∃ l h l' h', intRange a = some (l, h) ∧ intRange g = some (l', h') ∧ l' < l

/-- the first field is inverted with a later one of its run -/
def HeadInverted (fs : List StructField) : Prop :=
  ∃ a B g C, fs = a :: (B ++ g :: C) ∧ (∀ x ∈ B, ¬ Breaks x) ∧ Inverted a g

/-- some field of a run starts below the first field of the run -/
def Misordered (fs : List StructField) : Prop :=
  HeadInverted fs ∨ ∃ A b R, fs = A ++ b :: R ∧ Breaks b ∧ HeadInverted R

/-- consecutive fields -/
def neighbours {α : Type} (fs : List α) : List (α × α) := fs.zip fs.tail

/-! ### lemmas -/

theorem entities_append (a b : List Ev) : entities (a ++ b) = entities a ++ entities b := List.filterMap_append
theorem diagnostics_append (c : LintErr) (a b : List Ev) : diagnostics c (a ++ b) = diagnostics c a ++ diagnostics c b :=
  List.filterMap_append

theorem diagnostics_lint (c : LintErr) (l : LintEntry) : diagnostics c [.lint l] = if l.err = c then [l] else [] := by
  by_cases h : l.err = c <;> simp [diagnostics, h]

theorem mem_entities {e : Entity} {evs : List Ev} : e ∈ entities evs ↔ Ev.ent e ∈ evs := by
  simp only [entities, List.mem_filterMap]
  constructor
  · rintro ⟨x, hx, h⟩
    cases x <;> simp_all
  · intro h
    exact ⟨_, h, rfl⟩

theorem mem_diagnostics {c : LintErr} {l : LintEntry} {evs : List Ev} : l ∈ diagnostics c evs ↔ Ev.lint l ∈ evs ∧ l.err = c := by
  simp only [diagnostics, List.mem_filterMap]
  constructor
  · rintro ⟨x, hx, h⟩
    cases x with
    | ent e => simp at h
    | lint l' =>
      simp only at h
      split at h
      · simp only [Option.some.injEq] at h
        subst h
        exact ⟨hx, by assumption⟩
      · simp at h
  · rintro ⟨h, hc⟩
    exact ⟨_, h, by simp [hc]⟩

theorem getRange_none {f : StructField} : fieldGetRange f = none ↔ Breaks f := by
  unfold fieldGetRange Breaks
  by_cases h : f.label = ELLIPSIS
  · simp [h]
  · simp only [h, if_false, false_or]
    cases f.range <;> simp

theorem intRange_some {f : StructField} {l h : Int} : intRange f = some (l, h) ↔ fieldGetRange f = some (.int l h) := by
  unfold fieldGetRange intRange
  by_cases hl : f.label = ELLIPSIS
  · simp [hl]
  · simp only [hl, if_false]
    cases f.range <;> simp

theorem intRange_not_breaks {f : StructField} {p : Int × Int} (h : intRange f = some p) : ¬ Breaks f := by
  obtain ⟨l, r⟩ := p
  rw [← getRange_none, intRange_some.mp h]
  simp

/-- the anchor `r` is inverted with a field of the current run -/
def AnchorInverted (r : RangeV) (fs : List StructField) : Prop :=
  ∃ B g C l h l' h', fs = B ++ g :: C ∧ (∀ x ∈ B, ¬ Breaks x) ∧ r = .int l h ∧ intRange g = some (l', h') ∧ l' < l

def LaterInverted (fs : List StructField) : Prop := ∃ A b R, fs = A ++ b :: R ∧ Breaks b ∧ HeadInverted R

theorem laterInverted_cons (f : StructField) (fs : List StructField) :
    LaterInverted (f :: fs) ↔ (Breaks f ∧ HeadInverted fs) ∨ LaterInverted fs := by
  constructor
  · rintro ⟨A, b, R, h1, h2, h3⟩
    cases A with
    | nil =>
      simp only [List.nil_append, List.cons.injEq] at h1
      obtain ⟨rfl, rfl⟩ := h1
      exact .inl ⟨h2, h3⟩
    | cons a A =>
      simp only [List.cons_append, List.cons.injEq] at h1
      exact .inr ⟨A, b, R, h1.2, h2, h3⟩
  · rintro (⟨h1, h2⟩ | ⟨A, b, R, h1, h2, h3⟩)
    · exact ⟨[], f, fs, rfl, h1, h2⟩
    · exact ⟨f :: A, b, R, by rw [h1]; rfl, h2, h3⟩

theorem headInverted_cons (f : StructField) (fs : List StructField) (r : RangeV) (hr : fieldGetRange f = some r) :
    HeadInverted (f :: fs) ↔ AnchorInverted r fs := by
  constructor
  · rintro ⟨a, B, g, C, h1, h2, l, h, l', h', h3, h4, h5⟩
    simp only [List.cons.injEq] at h1
    obtain ⟨rfl, rfl⟩ := h1
    rw [intRange_some, hr] at h3
    exact ⟨B, g, C, l, h, l', h', rfl, h2, by simpa using h3, h4, h5⟩
  · rintro ⟨B, g, C, l, h, l', h', h1, h2, h3, h4, h5⟩
    subst h1 h3
    exact ⟨f, B, g, C, rfl, h2, l, h, l', h', intRange_some.mpr hr, h4, h5⟩

theorem anchorInverted_cons (r : RangeV) (f : StructField) (fs : List StructField) :
    AnchorInverted r (f :: fs) ↔ (∃ l h l' h', r = .int l h ∧ intRange f = some (l', h') ∧ l' < l) ∨
      (¬ Breaks f ∧ AnchorInverted r fs) := by
  constructor
  · rintro ⟨B, g, C, l, h, l', h', h1, h2, h3, h4, h5⟩
    cases B with
    | nil =>
      simp only [List.nil_append, List.cons.injEq] at h1
      obtain ⟨rfl, rfl⟩ := h1
      exact .inl ⟨l, h, l', h', h3, h4, h5⟩
    | cons b B =>
      simp only [List.cons_append, List.cons.injEq] at h1
      obtain ⟨rfl, rfl⟩ := h1
      exact .inr ⟨h2 _ (by simp), B, g, C, l, h, l', h', rfl, fun x hx => h2 x (by simp [hx]), h3, h4, h5⟩
  · rintro (⟨l, h, l', h', h3, h4, h5⟩ | ⟨hb, B, g, C, l, h, l', h', h1, h2, h3, h4, h5⟩)
    · exact ⟨[], f, fs, l, h, l', h', rfl, by simp, h3, h4, h5⟩
    · refine ⟨f :: B, g, C, l, h, l', h', by rw [h1]; rfl, ?_, h3, h4, h5⟩
      intro x hx
      rcases List.mem_cons.mp hx with rfl | hx
      · exact hb
      · exact h2 x hx

theorem orderWrong_spec (fs : List StructField) :
    (orderWrong none fs = true ↔ HeadInverted fs ∨ LaterInverted fs) ∧
    ∀ r, (orderWrong (some r) fs = true ↔ AnchorInverted r fs ∨ LaterInverted fs) := by
  induction fs with
  | nil =>
    constructor
    · simp only [orderWrong, Bool.false_eq_true, false_iff, not_or]
      constructor
      · rintro ⟨a, B, g, C, h, -⟩; simp at h
      · rintro ⟨A, b, R, h, -⟩; simp at h
    · intro r
      simp only [orderWrong, Bool.false_eq_true, false_iff, not_or]
      constructor
      · rintro ⟨B, g, C, l, h, l', h', h1, -⟩; simp at h1
      · rintro ⟨A, b, R, h, -⟩; simp at h
  | cons f fs ih =>
    cases hf : fieldGetRange f with
    | none =>
      have hb := getRange_none.mp hf
      have hi : ∀ p, intRange f ≠ some p := fun p h => intRange_not_breaks h hb
      have hh : ¬ HeadInverted (f :: fs) := by
        rintro ⟨a, B, g, C, h1, h2, l, h, l', h', h3, -⟩
        simp only [List.cons.injEq] at h1
        exact hi _ (h1.1 ▸ h3)
      have ha : ∀ r, ¬ AnchorInverted r (f :: fs) := by
        intro r h
        rcases (anchorInverted_cons r f fs).mp h with ⟨l, h, l', h', -, h4, -⟩ | ⟨h, -⟩
        · exact hi _ h4
        · exact h hb
      refine ⟨?_, fun r => ?_⟩
      · rw [orderWrong, hf, laterInverted_cons]
        simp only [hh, hb, true_and, false_or]
        exact ih.1
      · rw [orderWrong, hf, laterInverted_cons]
        simp only [ha, hb, true_and, false_or]
        exact ih.1
    | some r' =>
      have hb : ¬ Breaks f := by rw [← getRange_none, hf]; simp
      refine ⟨?_, fun r => ?_⟩
      · rw [orderWrong, hf, laterInverted_cons, headInverted_cons f fs r' hf]
        simp only [hb, false_and, false_or]
        exact ih.2 r'
      · rw [orderWrong, hf, laterInverted_cons, anchorInverted_cons]
        simp only [hb, false_and, false_or, not_false_eq_true, true_and]
        have hi : ∀ l' h', intRange f = some (l', h') ↔ r' = .int l' h' := by
          intro l' h'
          rw [intRange_some, hf, Option.some.injEq]
        simp only [hi]
        split
        · rename_i pl ph cl ch
          by_cases hlt : pl > cl
          · rw [if_pos hlt]
            simp only [true_iff]
            exact .inl (.inl ⟨pl, ph, cl, ch, rfl, rfl, hlt⟩)
          · rw [if_neg hlt, ih.2]
            have : ¬ ∃ l h l' h', RangeV.int pl ph = .int l h ∧ RangeV.int cl ch = .int l' h' ∧ l' < l := by
              rintro ⟨l, h, l', h', h1, h2, h3⟩
              simp only [RangeV.int.injEq] at h1 h2
              omega
            simp only [this, false_or]
        · rename_i hne
          rw [ih.2]
          have : ¬ ∃ l h l' h', r = .int l h ∧ r' = .int l' h' ∧ l' < l := by
            rintro ⟨l, h, l', h', h1, h2, h3⟩
            exact hne _ _ _ _ h1 h2
          simp only [this, false_or]

theorem orderWrong_iff (f : StructField) (fs : List StructField) :
    orderWrong (fieldGetRange f) (f :: fs) = true ↔ Misordered (f :: fs) := by
  cases hf : fieldGetRange f with
  | none => exact (orderWrong_spec _).1
  | some r =>
    rw [(orderWrong_spec _).2 r, anchorInverted_cons]
    unfold Misordered
    rw [headInverted_cons f fs r hf]
    have hb : ¬ Breaks f := by rw [← getRange_none, hf]; simp
    have : ¬ ∃ l h l' h', r = .int l h ∧ intRange f = some (l', h') ∧ l' < l := by
      rintro ⟨l, h, l', h', h1, h2, h3⟩
      rw [intRange_some, hf, h1] at h2
      simp only [Option.some.injEq, RangeV.int.injEq] at h2
      omega
    simp only [this, false_or, hb, not_false_eq_true, true_and]
    rfl

/-! ### The diagnostics of validate_fields are determined by the entities -/

/-- each element, with those before it -/
def withEarlier {α : Type} : List α → List α → List (List α × α)
  | _, [] => []
  | pre, f :: fs => (pre, f) :: withEarlier (pre ++ [f]) fs

/-- the diagnostic with the default message on a row of a figure -/
def onRow (c : LintErr) (fig row : Str) (ctx : List (Str × Json) := []) : LintEntry := ⟨c, fig, c.text, some row, ctx⟩

/-- What a row of a layout is called in reports and in the ids of the tables inside it: by its lowest bit or byte, or by the lower end of its range as it is written,
if that is a formula, or by all of its range, if it is not a valid one. -/
def rangeKey : RangeV → Str
  | .int low _ => intStr low
  | .dyn low _ => low
  | .raw s => s

theorem rangeToRowKey_eq : rangeToRowKey = rangeKey := by
  funext r
  cases r <;> rfl

/-- the key of the row of a field -/
def rowOf (f : StructField) : Str := rangeKey f.range

open Classical in
/-- what T1001 should be reported for a figure -/
noncomputable def expectedOverlaps (e : Entity) : List LintEntry :=
  match e.body with
  | .values _ => []
  | .struct _ fs => if Misordered fs then [] else
      ((neighbours fs).filter (fun p => overlaps p.1 p.2)).map (fun p => onRow .tblFieldOverlap e.info.figId (rowOf p.2))

open Classical in
/-- what T1002 should be reported for a figure -/
noncomputable def expectedGaps (e : Entity) : List LintEntry :=
  match e.body with
  | .values _ => []
  | .struct _ fs => if Misordered fs then [] else
      ((neighbours fs).filter (fun p => leavesGap p.1 p.2)).map (fun p => onRow .tblFieldGap e.info.figId (rowOf p.2))

open Classical in
/-- what T1004 should be reported for a figure -/
noncomputable def expectedOrder (e : Entity) : List LintEntry :=
  match e.body with
  | .values _ => []
  | .struct _ fs => if Misordered fs then
      [⟨.tblRowOrderReversed, e.info.figId, LintErr.tblRowOrderReversed.text, none, []⟩] else []

/-- the label is a name, not one of the markers for reserved and left out rows -/
def isName (l : Str) : Bool := l != RESERVED && l != ELLIPSIS

open Classical in
/-- what L1002 should be reported for a figure -/
noncomputable def expectedDupLabels (e : Entity) : List LintEntry :=
  match e.body with
  | .values fs =>
      ((withEarlier [] (fs.filter (fun f => isName f.label))).filter (fun p => (p.1.map (·.label)).contains p.2.label)).map
        (fun p => onRow .lblDuplicate e.info.figId p.2.val [(c!"label", .str p.2.label)])
  | .struct _ fs => if Misordered fs then [] else
      ((withEarlier [] fs).filter (fun p => isName p.2.label && (p.1.map (·.label)).contains p.2.label)).map
        (fun p => onRow .lblDuplicate e.info.figId (rowOf p.2) [(c!"label", .str p.2.label)])

/-- what V1002 should be reported for a figure -/
def expectedDupValues (e : Entity) : List LintEntry :=
  match e.body with
  | .values fs =>
      ((withEarlier [] (fs.filter (fun f => isName f.label))).filter (fun p => (p.1.map (·.val)).contains p.2.val)).map
        (fun p => onRow .valDuplicate e.info.figId p.2.val)
  | .struct _ _ => []

theorem isName_iff (l : Str) : isName l = true ↔ Tracked l := by
  simp [isName, Tracked]

theorem entities_loop (fig : Str) (labels : List Str) (prev : Option RangeV) (fs : List StructField) :
    entities (loopEvs fig labels prev fs) = [] := by
  induction fs generalizing labels prev with
  | nil => rfl
  | cons f fs ih =>
    rw [loopEvs, entities_append, entities_append, ih, List.append_nil]
    have h1 : entities (stepDup fig labels f) = [] := by
      unfold stepDup
      split <;> rfl
    have h2 : entities (stepRange fig prev f) = [] := by
      unfold stepRange
      split
      · split
        · rfl
        · split <;> rfl
      · rfl
    rw [h1, h2]
    rfl

theorem stepRange_eq (fig : Str) (p f : StructField) : stepRange fig (fieldGetRange p) f =
    if overlaps p f then [.lint (onRow .tblFieldOverlap fig (rowOf f))]
    else if leavesGap p f then [.lint (onRow .tblFieldGap fig (rowOf f))] else [] := by
  unfold stepRange
  split
  · rename_i pl ph cl ch h1 h2
    have h3 := intRange_some.mpr h1
    have h4 := intRange_some.mpr h2
    have h5 : f.range = .int cl ch := by
      unfold fieldGetRange at h2
      split at h2
      · simp at h2
      · split at h2
        · simp at h2
        · simpa using h2
    simp only [overlaps, leavesGap, h3, h4, decide_eq_true_eq, rowOf, h5]
    by_cases ho : ph ≥ cl
    · rw [if_pos ho, if_pos ho]
      rfl
    · rw [if_neg ho, if_neg (show ¬ cl ≤ ph by omega)]
      by_cases hg : ph + 1 ≠ cl
      · rw [if_pos hg, if_pos (show ph + 1 < cl by omega)]
        rfl
      · rw [if_neg hg, if_neg (show ¬ ph + 1 < cl by omega)]
  · rename_i hne
    have h1 : overlaps p f = false := by
      unfold overlaps
      split
      · rename_i h1 h2
        exact absurd (intRange_some.mp h2) (hne _ _ _ _ (intRange_some.mp h1))
      · rfl
    have h2 : leavesGap p f = false := by
      unfold leavesGap
      split
      · rename_i h1 h2
        exact absurd (intRange_some.mp h2) (hne _ _ _ _ (intRange_some.mp h1))
      · rfl
    simp [h1, h2]

theorem diag_stepDup {c : LintErr} (hc : c ≠ .lblDuplicate) (fig : Str) (labels : List Str) (f : StructField) :
    diagnostics c (stepDup fig labels f) = [] := by
  unfold stepDup
  split
  · rw [diagnostics_lint, if_neg]
    exact fun h => hc h.symm
  · rfl

theorem loop_overlaps (fig : Str) (labels : List Str) (p : StructField) (fs : List StructField) :
    diagnostics .tblFieldOverlap (loopEvs fig labels (fieldGetRange p) fs) =
      ((neighbours (p :: fs)).filter (fun q => overlaps q.1 q.2)).map (fun q => onRow .tblFieldOverlap fig (rowOf q.2)) := by
  induction fs generalizing labels p with
  | nil => rfl
  | cons f fs ih =>
    rw [loopEvs, diagnostics_append, diagnostics_append, ih, diag_stepDup (by decide), stepRange_eq]
    simp only [neighbours, List.tail_cons, List.zip_cons_cons, List.nil_append]
    by_cases h : overlaps p f = true
    · simp only [h, if_true, List.filter_cons, List.map_cons]
      rfl
    · simp only [h, List.filter_cons]
      split <;> simp [diagnostics, onRow]

theorem not_overlaps_of_gap {p f : StructField} (h : leavesGap p f = true) : overlaps p f = false := by
  unfold leavesGap at h
  unfold overlaps
  split at h
  · simp only [decide_eq_true_eq] at h
    simp only [decide_eq_false_iff_not]
    omega
  · simp at h

theorem loop_gaps (fig : Str) (labels : List Str) (p : StructField) (fs : List StructField) :
    diagnostics .tblFieldGap (loopEvs fig labels (fieldGetRange p) fs) =
      ((neighbours (p :: fs)).filter (fun q => leavesGap q.1 q.2)).map (fun q => onRow .tblFieldGap fig (rowOf q.2)) := by
  induction fs generalizing labels p with
  | nil => rfl
  | cons f fs ih =>
    rw [loopEvs, diagnostics_append, diagnostics_append, ih, diag_stepDup (by decide), stepRange_eq]
    simp only [neighbours, List.tail_cons, List.zip_cons_cons, List.nil_append]
    by_cases h : leavesGap p f = true
    · simp only [not_overlaps_of_gap h, h, if_true, List.filter_cons, List.map_cons]
      rfl
    · simp only [h, List.filter_cons]
      split <;> simp [diagnostics, onRow]

theorem loop_none {c : LintErr} (h1 : c ≠ .lblDuplicate) (h2 : c ≠ .tblFieldOverlap) (h3 : c ≠ .tblFieldGap) (fig : Str)
    (labels : List Str) (p : StructField) (fs : List StructField) :
    diagnostics c (loopEvs fig labels (fieldGetRange p) fs) = [] := by
  induction fs generalizing labels p with
  | nil => rfl
  | cons f fs ih =>
    rw [loopEvs, diagnostics_append, diagnostics_append, ih, diag_stepDup h1, stepRange_eq]
    split
    · rw [diagnostics_lint, if_neg (fun h => h2 h.symm)]; rfl
    · split
      · rw [diagnostics_lint, if_neg (fun h => h3 h.symm)]; rfl
      · rfl

theorem loop_dups (fig : Str) (labels : List Str) (pre : List StructField) (prev : Option RangeV) (fs : List StructField)
    (hl : ∀ l, Tracked l → (l ∈ labels ↔ l ∈ pre.map (·.label))) :
    diagnostics .lblDuplicate (loopEvs fig labels prev fs) =
      ((withEarlier pre fs).filter (fun p => isName p.2.label && (p.1.map (·.label)).contains p.2.label)).map
        (fun p => onRow .lblDuplicate fig (rowOf p.2) [(c!"label", .str p.2.label)]) := by
  induction fs generalizing labels prev pre with
  | nil => rfl
  | cons f fs ih =>
    rw [loopEvs, diagnostics_append, diagnostics_append]
    have h2 : diagnostics .lblDuplicate (stepRange fig prev f) = [] := by
      unfold stepRange
      split
      · split
        · rfl
        · split <;> rfl
      · rfl
    rw [h2, List.append_nil, ih _ (pre ++ [f])]
    · rw [withEarlier, List.filter_cons]
      have : (isName f.label && (pre.map (·.label)).contains f.label) = true ↔ Tracked f.label ∧ f.label ∈ labels := by
        rw [Bool.and_eq_true, isName_iff, List.contains_iff_mem]
        exact ⟨fun h => ⟨h.1, (hl _ h.1).mpr h.2⟩, fun h => ⟨h.1, (hl _ h.1).mp h.2⟩⟩
      unfold stepDup
      by_cases hd : Tracked f.label ∧ f.label ∈ labels
      · rw [if_pos hd, if_pos (this.mpr hd)]
        rfl
      · rw [if_neg hd, if_neg (fun h => hd (this.mp h))]
        rfl
    · intro l ht
      by_cases hf : Tracked f.label
      · rw [if_pos hf]
        simp only [List.mem_cons, List.map_append, List.map_cons, List.map_nil, List.mem_append, List.not_mem_nil, or_false]
        rw [hl l ht]
        exact Or.comm
      · rw [if_neg hf]
        simp only [List.map_append, List.map_cons, List.map_nil, List.mem_append, List.mem_cons, List.not_mem_nil, or_false]
        rw [hl l ht]
        constructor
        · exact .inl
        · rintro (h | h)
          · exact h
          · exact absurd (h ▸ ht) hf

theorem misordered_short {fs : List StructField} (h : fs.length < 2) : ¬ Misordered fs := by
  have hh : ∀ gs : List StructField, gs.length < 2 → ¬ HeadInverted gs := by
    rintro gs hg ⟨a, B, g, C, rfl, -⟩
    simp at hg
    omega
  rintro (h1 | ⟨A, b, R, rfl, -, h1⟩)
  · exact hh _ h h1
  · exact hh R (by simp at h; omega) h1

/-- what `structEvs` consists of -/
theorem structEvs_diagnostics (m : EntityMeta) (ty : StructTy) (fields : List StructField) :
    entities (structEvs m.figId fields) = [] ∧
    diagnostics .tblFieldOverlap (structEvs m.figId fields) = expectedOverlaps ⟨m, .struct ty fields⟩ ∧
    diagnostics .tblFieldGap (structEvs m.figId fields) = expectedGaps ⟨m, .struct ty fields⟩ ∧
    diagnostics .tblRowOrderReversed (structEvs m.figId fields) = expectedOrder ⟨m, .struct ty fields⟩ ∧
    diagnostics .lblDuplicate (structEvs m.figId fields) = expectedDupLabels ⟨m, .struct ty fields⟩ ∧
    diagnostics .valDuplicate (structEvs m.figId fields) = expectedDupValues ⟨m, .struct ty fields⟩ := by
  unfold structEvs expectedOverlaps expectedGaps expectedOrder expectedDupLabels expectedDupValues
  match fields with
  | [] => simp [misordered_short, entities, diagnostics, neighbours, withEarlier]
  | [f] =>
    simp [misordered_short, entities, diagnostics, neighbours, withEarlier]
  | f :: g :: fs =>
    by_cases h : Misordered (f :: g :: fs)
    · have ho := (orderWrong_iff f (g :: fs)).mpr h
      simp only [h, ho, if_true]
      refine ⟨rfl, rfl, rfl, rfl, rfl, rfl⟩
    · have ho : ¬ orderWrong (fieldGetRange f) (f :: g :: fs) = true := fun hh => h ((orderWrong_iff f (g :: fs)).mp hh)
      simp only [h, ho, if_false, Bool.false_eq_true]
      refine ⟨entities_loop .., loop_overlaps .., loop_gaps .., loop_none (by decide) (by decide) (by decide) ..,
        ?_, loop_none (by decide) (by decide) (by decide) ..⟩
      rw [loop_dups m.figId [f.label] [f] _ _ (by simp)]
      conv => rhs; rw [withEarlier, List.filter_cons]
      simp

theorem values_dups (fig : Str) (labels values : List Str) (pre fs : List ValueField)
    (hl : ∀ l, l ∈ labels ↔ l ∈ pre.map (·.label)) (hv : ∀ v, v ∈ values ↔ v ∈ pre.map (·.val)) :
    entities (valueEvs fig labels values fs) = [] ∧
    diagnostics .lblDuplicate (valueEvs fig labels values fs) =
      ((withEarlier pre (fs.filter (fun f => isName f.label))).filter (fun p => (p.1.map (·.label)).contains p.2.label)).map
        (fun p => onRow .lblDuplicate fig p.2.val [(c!"label", .str p.2.label)]) ∧
    diagnostics .valDuplicate (valueEvs fig labels values fs) =
      ((withEarlier pre (fs.filter (fun f => isName f.label))).filter (fun p => (p.1.map (·.val)).contains p.2.val)).map
        (fun p => onRow .valDuplicate fig p.2.val) ∧
    ∀ c, c ≠ .lblDuplicate → c ≠ .valDuplicate → diagnostics c (valueEvs fig labels values fs) = [] := by
  induction fs generalizing labels values pre with
  | nil => exact ⟨rfl, rfl, rfl, fun _ _ _ => rfl⟩
  | cons f fs ih =>
    rw [valueEvs]
    by_cases ht : Tracked f.label
    · rw [if_pos ht, List.filter_cons_of_pos (by simpa using (isName_iff _).mpr ht)]
      obtain ⟨h1, h2, h3, h4⟩ := ih (f.label :: labels) (f.val :: values) (pre ++ [f])
        (by intro l; simp only [List.mem_cons, hl, List.map_append, List.map_cons, List.map_nil, List.mem_append,
              List.not_mem_nil, or_false]; exact Or.comm)
        (by intro l; simp only [List.mem_cons, hv, List.map_append, List.map_cons, List.map_nil, List.mem_append,
              List.not_mem_nil, or_false]; exact Or.comm)
      simp only [entities_append, diagnostics_append, h1, h2, h3, withEarlier, List.filter_cons, List.contains_iff_mem, ← hl, ← hv,
        List.append_nil]
      have e1 : entities (stepValue fig labels values f) = [] := by
        unfold stepValue
        rw [entities_append]
        split <;> split <;> rfl
      have e2 : diagnostics .lblDuplicate (stepValue fig labels values f) =
          if f.label ∈ labels then [onRow .lblDuplicate fig f.val [(c!"label", .str f.label)]] else [] := by
        unfold stepValue
        rw [diagnostics_append]
        split <;> split <;> rfl
      have e3 : diagnostics .valDuplicate (stepValue fig labels values f) =
          if f.val ∈ values then [onRow .valDuplicate fig f.val] else [] := by
        unfold stepValue
        rw [diagnostics_append]
        split <;> split <;> rfl
      refine ⟨e1, ?_, ?_, ?_⟩
      · rw [e2]
        split <;> rfl
      · rw [e3]
        split <;> rfl
      · intro c c1 c2
        rw [h4 c c1 c2, List.append_nil]
        unfold stepValue
        rw [diagnostics_append]
        have g1 : ∀ x y z, diagnostics c [.lint (issue .lblDuplicate x y z)] = [] := by
          intro x y z
          rw [diagnostics_lint, if_neg (fun h => c1 h.symm)]
        have g2 : ∀ x y z, diagnostics c [.lint (issue .valDuplicate x y z)] = [] := by
          intro x y z
          rw [diagnostics_lint, if_neg (fun h => c2 h.symm)]
        split <;> split <;> (try simp only [g1, g2]) <;> rfl
    · rw [if_neg ht, List.filter_cons_of_neg (by simpa using fun h => ht ((isName_iff _).mp h))]
      exact ih labels values pre hl hv

/-- what `valuesEvs` consists of -/
theorem valuesEvs_diagnostics (m : EntityMeta) (fields : List ValueField) :
    entities (valuesEvs m.figId fields) = [] ∧
    diagnostics .lblDuplicate (valuesEvs m.figId fields) = expectedDupLabels ⟨m, .values fields⟩ ∧
    diagnostics .valDuplicate (valuesEvs m.figId fields) = expectedDupValues ⟨m, .values fields⟩ ∧
    ∀ c, c ≠ .lblDuplicate → c ≠ .valDuplicate → diagnostics c (valuesEvs m.figId fields) = [] := by
  unfold valuesEvs expectedDupLabels expectedDupValues
  split
  · rename_i hlen
    have hw : withEarlier [] (fields.filter (fun f => isName f.label)) = (fields.filter (fun f => isName f.label)).map (fun f => ([], f)) := by
      have := List.length_filter_le (fun f : ValueField => isName f.label) fields
      generalize fields.filter (fun f => isName f.label) = gs at this
      match gs with
      | [] => rfl
      | [g] => rfl
      | g :: g' :: gs => simp at this; omega
    simp only [hw, List.filter_map, Function.comp_def, List.map_nil, List.contains_nil]
    simp [entities, diagnostics]
  · exact values_dups m.figId [] [] [] fields (by simp) (by simp)

variable [Uni]

theorem exact_of (env : Env) (c : LintErr) (expd : Entity → List LintEntry) (hc : c ∉ ownCodes)
    (hs : ∀ m ty fields, diagnostics c (structEvs m.figId fields) = expd ⟨m, .struct ty fields⟩)
    (hv : ∀ m fields, diagnostics c (valuesEvs m.figId fields) = expd ⟨m, .values fields⟩) :
    FigInv env (fun _ evs => diagnostics c evs = (entities evs).flatMap expd) where
  nil _ := rfl
  app _ a b ha hb := by simp only [diagnostics_append, entities_append, List.flatMap_append, ha, hb]
  nest _ _ _ _ h := h
  split _ _ _ _ _ _ _ _ h := h
  own m err row ctx _ he _ := by
    rw [diagnostics_lint, if_neg]
    · rfl
    · intro h
      exact hc (h ▸ he)
  struct m ty fields evs _ hg _ := by
    have := (structEvs_diagnostics m ty fields).1
    simp only [diagnostics_append, entities_append, List.flatMap_append, hg, this, hs m ty fields, List.nil_append]
    simp [entities, diagnostics]
  value m fields evs _ hg _ := by
    have := (valuesEvs_diagnostics m fields).1
    simp only [diagnostics_append, entities_append, List.flatMap_append, hg, this, hv m fields, List.nil_append]
    simp [entities, diagnostics]

/-- For every document, the diagnostics T1001, T1002, T1004, L1002, V1002 are exactly those which the entities put out
call for, in their order. -/
theorem validation_exact (env : Env) (hE : EnvOk env) (root : Node) :
    diagnostics .tblFieldOverlap (parseDoc env root).evs = (entities (parseDoc env root).evs).flatMap expectedOverlaps ∧
    diagnostics .tblFieldGap (parseDoc env root).evs = (entities (parseDoc env root).evs).flatMap expectedGaps ∧
    diagnostics .tblRowOrderReversed (parseDoc env root).evs = (entities (parseDoc env root).evs).flatMap expectedOrder ∧
    diagnostics .lblDuplicate (parseDoc env root).evs = (entities (parseDoc env root).evs).flatMap expectedDupLabels ∧
    diagnostics .valDuplicate (parseDoc env root).evs = (entities (parseDoc env root).evs).flatMap expectedDupValues := by
  have key : ∀ (c : LintErr) (expd : Entity → List LintEntry), c ∉ ownCodes → c ≠ .tblFigIdExtractErr →
      (∀ m ty fields, diagnostics c (structEvs m.figId fields) = expd ⟨m, .struct ty fields⟩) →
      (∀ m fields, diagnostics c (valuesEvs m.figId fields) = expd ⟨m, .values fields⟩) →
      diagnostics c (parseDoc env root).evs = (entities (parseDoc env root).evs).flatMap expd := by
    intro c expd h1 h2 h3 h4
    refine (exact_of env c expd h1 h3 h4).parseDoc' hE ?_ root
    intro k title
    rw [diagnostics_lint, if_neg (fun h => h2 h.symm)]
    rfl
  refine ⟨key _ _ (by decide) (by decide) ?_ ?_, key _ _ (by decide) (by decide) ?_ ?_, key _ _ (by decide) (by decide) ?_ ?_,
    key _ _ (by decide) (by decide) ?_ ?_, key _ _ (by decide) (by decide) ?_ ?_⟩
  · exact fun m ty fields => (structEvs_diagnostics m ty fields).2.1
  · exact fun m fields => (valuesEvs_diagnostics m fields).2.2.2 _ (by decide) (by decide)
  · exact fun m ty fields => (structEvs_diagnostics m ty fields).2.2.1
  · exact fun m fields => (valuesEvs_diagnostics m fields).2.2.2 _ (by decide) (by decide)
  · exact fun m ty fields => (structEvs_diagnostics m ty fields).2.2.2.1
  · exact fun m fields => (valuesEvs_diagnostics m fields).2.2.2 _ (by decide) (by decide)
  · exact fun m ty fields => (structEvs_diagnostics m ty fields).2.2.2.2.1
  · exact fun m fields => (valuesEvs_diagnostics m fields).2.1
  · exact fun m ty fields => (structEvs_diagnostics m ty fields).2.2.2.2.2
  · exact fun m fields => (valuesEvs_diagnostics m fields).2.2.1

/-! ### consequences for the layout -/

theorem struct_src (env : Env) (hE : EnvOk env) (root : Node) : ∀ m ty fields,
    Ev.ent ⟨m, .struct ty fields⟩ ∈ (parseDoc env root).evs → ∀ f ∈ fields, StructSrc m.figId (parseDoc env root).evs f := by
  have hG : FigInv env (fun _ evs => ∀ m ty fields, Ev.ent ⟨m, .struct ty fields⟩ ∈ evs → ∀ f ∈ fields, StructSrc m.figId evs f) := by
    constructor
    · intro _ m ty fields h; simp at h
    · intro _ a b ha hb m ty fields h f hf
      rcases List.mem_append.mp h with h | h
      · exact (ha m ty fields h f hf).mono (by simp)
      · exact (hb m ty fields h f hf).mono (by simp)
    · exact fun _ _ _ _ h => h
    · exact fun _ _ _ _ _ _ _ _ h => h
    · intro m err row ctx _ _ _ m' ty fields h; simp at h
    · intro m ty fields evs _ hg hs m' ty' fields' h f hf
      rcases List.mem_append.mp h with h | h
      · exact (hg m' ty' fields' h f hf).mono (by simp)
      · rcases List.mem_append.mp h with h | h
        · have := mem_entities.mpr h
          rw [(structEvs_diagnostics m ty fields).1] at this
          simp at this
        · simp only [List.mem_singleton, Ev.ent.injEq, Entity.mk.injEq, Body.struct.injEq] at h
          obtain ⟨rfl, rfl, rfl⟩ := h
          exact (hs f hf).mono (by simp)
    · intro m fields evs _ hg hs m' ty' fields' h f hf
      rcases List.mem_append.mp h with h | h
      · exact (hg m' ty' fields' h f hf).mono (by simp)
      · rcases List.mem_append.mp h with h | h
        · have := mem_entities.mpr h
          rw [(valuesEvs_diagnostics m fields).1] at this
          simp at this
        · simp at h
  exact hG.parseDoc' hE (by intro k title m ty fields h; simp at h) root

theorem parseRange_reversed {fig v key : Str} {fl : Bool} {l h : Int} (hf : fig ≠ [])
    (ho : (parseRange fig v key fl).out = .ok (.int l h)) (hlt : h < l) :
    Ev.lint (issue .rangeReversed fig (some key)) ∈ (parseRange fig v key fl).evs := by
  unfold parseRange at ho ⊢
  obtain hm | ⟨mt, hm⟩ := Option.eq_none_or_eq_some (reRange.pmatch v)
  · rw [hm] at ho
    obtain ⟨a, _, h2, _⟩ := M.bind_out_ok ho
    simp [M.pure_run] at h2
  · rw [hm] at ho ⊢
    obtain ⟨hi, h1, h2, h3, _⟩ := M.bind_out_ok ho
    obtain ⟨lo, h4, h5, h6, _⟩ := M.bind_out_ok h2
    rw [h3, h6]
    by_cases hgt : lo > hi
    · simp only [if_pos hgt] at h5 ⊢
      obtain ⟨_, _, h7, h8, _⟩ := M.bind_out_ok h5
      rw [h8, addIssue_row hf]
      simp [M.emit_run]
    · simp only [if_neg hgt] at h5
      simp only [M.pure_run, Except.ok.injEq, RangeV.int.injEq] at h5
      omega

theorem StructSrc.reversed {fig : Str} {evs : List Ev} {f : StructField} (hf : fig ≠ []) (h : StructSrc fig evs f) {l r : Int}
    (hr : intRange f = some (l, r)) (hlt : r < l) : Reported .rangeReversed fig evs := by
  have hrange : f.range = .int l r := by
    unfold intRange at hr
    split at hr
    · simp at hr
    · split at hr
      · simp only [Option.some.injEq, Prod.mk.injEq] at hr
        rename_i he
        rw [he, hr.1, hr.2]
      · simp at hr
  cases h with
  | ellipsisRow =>
    simp only [RangeV.int.injEq] at hrange
    omega
  | special a b fl r' f h1 h2 h3 =>
    have : f.range = r' := by
      unfold handleSpecialCase at h3
      repeat' split at h3
      all_goals first | (simp only [Option.some.injEq] at h3; rw [← h3]; rfl) | simp at h3
    rw [hrange] at this
    subst this
    exact ⟨_, mem_diagnostics.mpr ⟨h2 (parseRange_reversed hf h1 hlt), rfl⟩, rfl⟩
  | normal dyn cols a b c fl fl' r' label h1 h2 h3 h4 h5 h6 h7 =>
    have : r' = .int l r := hrange
    subst this
    unfold rowRange at h4 h5
    split at h4
    · unfold parseDynamicRange at h4
      obtain hm | ⟨mt, hm⟩ := Option.eq_none_or_eq_some (reDynamicRange.pmatch (replace1 ' ' [] (replace1 '\n' [] a)))
      · rw [hm] at h4
        obtain ⟨_, _, h2, _⟩ := M.bind_out_ok h4
        simp [M.pure_run] at h2
      · rw [hm] at h4
        simp [M.pure_run] at h4
    · rename_i hd
      rw [if_neg hd] at h5
      exact ⟨_, mem_diagnostics.mpr ⟨h5 (parseRange_reversed hf h4 hlt), rfl⟩, rfl⟩

/-- every entity has a figure id -/
theorem entity_figId_ne (env : Env) (hE : EnvOk env) (root : Node) (e : Entity) (h : Ev.ent e ∈ (parseDoc env root).evs) :
    e.info.figId ≠ [] := by
  have hG : FigInv env (fun _ evs => ∀ e, Ev.ent e ∈ evs → e.info.figId ≠ []) := by
    constructor
    · intro _ e h; simp at h
    · intro _ a b ha hb e h
      rcases List.mem_append.mp h with h | h
      · exact ha e h
      · exact hb e h
    · exact fun _ _ _ _ h => h
    · exact fun _ _ _ _ _ _ _ _ h => h
    · intro m err row ctx _ _ _ e h; simp at h
    · intro m ty fields evs hm hg hs e h
      rcases List.mem_append.mp h with h | h
      · exact hg e h
      · rcases List.mem_append.mp h with h | h
        · have := mem_entities.mpr h
          rw [(structEvs_diagnostics m ty fields).1] at this
          simp at this
        · simp only [List.mem_singleton, Ev.ent.injEq] at h
          rw [h]; exact hm
    · intro m fields evs hm hg hs e h
      rcases List.mem_append.mp h with h | h
      · exact hg e h
      · rcases List.mem_append.mp h with h | h
        · have := mem_entities.mpr h
          rw [(valuesEvs_diagnostics m fields).1] at this
          simp at this
        · simp only [List.mem_singleton, Ev.ent.injEq] at h
          rw [h]; exact hm
  exact hG.parseDoc' hE (by intro k title e h; simp at h) root e h

section
variable {env : Env} (hE : EnvOk env) {root : Node} {m : EntityMeta} {ty : StructTy} {fields : List StructField}
  (hent : Entity.mk m (.struct ty fields) ∈ entities (parseDoc env root).evs)
include hE hent

theorem not_reversed (h : ¬ Reported .rangeReversed m.figId (parseDoc env root).evs) (f : StructField) (hf : f ∈ fields) (l r : Int)
    (hr : intRange f = some (l, r)) : l ≤ r := by
  by_cases hlt : r < l
  · exact absurd ((struct_src env hE root m ty fields (mem_entities.mp hent) f hf).reversed
      (entity_figId_ne env hE root _ (mem_entities.mp hent)) hr hlt) h
  · omega

theorem not_misordered (h : ¬ Reported .tblRowOrderReversed m.figId (parseDoc env root).evs) : ¬ Misordered fields := by
  intro hm
  apply h
  have := (validation_exact env hE root).2.2.1
  obtain ⟨x, hx⟩ : ∃ x, expectedOrder ⟨m, .struct ty fields⟩ = [x] := by simp [expectedOrder, hm]
  refine ⟨x, ?_, ?_⟩
  · rw [this, List.mem_flatMap]
    exact ⟨_, hent, by simp [hx]⟩
  · simp only [expectedOrder, hm, if_true, List.cons.injEq, and_true] at hx
    rw [← hx]

theorem not_overlapping (h : ¬ Reported .tblRowOrderReversed m.figId (parseDoc env root).evs)
    (h' : ¬ Reported .tblFieldOverlap m.figId (parseDoc env root).evs) : ∀ p ∈ neighbours fields, overlaps p.1 p.2 = false := by
  intro p hp
  rw [Bool.eq_false_iff]
  intro ho
  have hm := not_misordered hE hent h
  apply h'
  have := (validation_exact env hE root).1
  refine ⟨onRow .tblFieldOverlap m.figId (rowOf p.2), ?_, rfl⟩
  rw [this, List.mem_flatMap]
  refine ⟨_, hent, ?_⟩
  simp only [expectedOverlaps, hm, if_false, List.mem_map, List.mem_filter]
  exact ⟨p, ⟨hp, ho⟩, rfl⟩

theorem not_gapped (h : ¬ Reported .tblRowOrderReversed m.figId (parseDoc env root).evs)
    (h' : ¬ Reported .tblFieldGap m.figId (parseDoc env root).evs) : ∀ p ∈ neighbours fields, leavesGap p.1 p.2 = false := by
  intro p hp
  rw [Bool.eq_false_iff]
  intro ho
  have hm := not_misordered hE hent h
  apply h'
  have := (validation_exact env hE root).2.1
  refine ⟨onRow .tblFieldGap m.figId (rowOf p.2), ?_, rfl⟩
  rw [this, List.mem_flatMap]
  refine ⟨_, hent, ?_⟩
  simp only [expectedGaps, hm, if_false, List.mem_map, List.mem_filter]
  exact ⟨p, ⟨hp, ho⟩, rfl⟩
end

omit [Uni] in
theorem neighbours_cons_cons {α : Type} (f g : α) (fs : List α) : neighbours (f :: g :: fs) = (f, g) :: neighbours (g :: fs) := rfl

omit [Uni] in
theorem neighbours_infix {α : Type} (A R C : List α) (p : α × α) (h : p ∈ neighbours R) : p ∈ neighbours (A ++ R ++ C) := by
  induction A with
  | nil =>
    induction R with
    | nil => simp [neighbours] at h
    | cons f R ih =>
      cases R with
      | nil => simp [neighbours] at h
      | cons g R =>
        rw [neighbours_cons_cons] at h
        simp only [List.nil_append, List.cons_append] at ih ⊢
        rw [neighbours_cons_cons]
        rcases List.mem_cons.mp h with h | h
        · exact h ▸ List.mem_cons_self ..
        · exact List.mem_cons_of_mem _ (ih h)
  | cons a A ih =>
    cases hA : A ++ R ++ C with
    | nil => rw [hA] at ih; simp [neighbours] at ih
    | cons b B =>
      rw [List.cons_append, List.cons_append, hA, neighbours_cons_cons]
      rw [hA] at ih
      exact List.mem_cons_of_mem _ ih

omit [Uni] in
theorem run_ascending (R : List StructField) (h1 : ∀ x ∈ R, ∃ l h, intRange x = some (l, h) ∧ l ≤ h)
    (h2 : ∀ p ∈ neighbours R, overlaps p.1 p.2 = false) :
    R.Pairwise (fun x y => ∀ l h l' h', intRange x = some (l, h) → intRange y = some (l', h') → h < l') := by
  induction R with
  | nil => exact List.Pairwise.nil
  | cons f R ih =>
    cases R with
    | nil => simp
    | cons g R =>
      rw [neighbours_cons_cons] at h2
      have ih := ih (fun x hx => h1 x (List.mem_cons_of_mem _ hx)) (fun p hp => h2 p (List.mem_cons_of_mem _ hp))
      have h0 : ∀ l h l' h', intRange f = some (l, h) → intRange g = some (l', h') → h < l' := by
        intro l h l' h' hf hg
        have := h2 (f, g) (by simp)
        simp only [overlaps, hf, hg, decide_eq_false_iff_not] at this
        omega
      refine List.Pairwise.cons ?_ ih
      intro y hy l h l' h' hf hy'
      rcases List.mem_cons.mp hy with rfl | hy
      · exact h0 l h l' h' hf hy'
      · obtain ⟨a, b, hg, hab⟩ := h1 g (by simp)
        have := h0 l h a b hf hg
        have := (List.pairwise_cons.mp ih).1 y hy a b l' h' hg hy'
        omega

omit [Uni] in
theorem run_covers (f : StructField) (R : List StructField) (h1 : ∀ x ∈ f :: R, ∃ l h, intRange x = some (l, h) ∧ l ≤ h)
    (h2 : ∀ p ∈ neighbours (f :: R), overlaps p.1 p.2 = false) (h3 : ∀ p ∈ neighbours (f :: R), leavesGap p.1 p.2 = false)
    (o l h : Int) (hf : intRange f = some (l, h)) (hl : l ≤ o) (g : StructField) (hg : g ∈ f :: R) (l' h' : Int)
    (hg' : intRange g = some (l', h')) (ho : o ≤ h') : ∃ x ∈ f :: R, Covers x o := by
  induction R generalizing f l h with
  | nil =>
    simp only [List.mem_singleton] at hg
    subst hg
    exact ⟨g, by simp, l, h, hf, hl, by rw [hf] at hg'; simp at hg'; omega⟩
  | cons x R ih =>
    rw [neighbours_cons_cons] at h2 h3
    by_cases hoh : o ≤ h
    · exact ⟨f, by simp, l, h, hf, hl, hoh⟩
    · obtain ⟨a, b, hx, hab⟩ := h1 x (by simp)
      have e1 := h2 (f, x) (by simp)
      have e2 := h3 (f, x) (by simp)
      simp only [overlaps, leavesGap, hf, hx, decide_eq_false_iff_not] at e1 e2
      have hg2 : g ∈ x :: R := by
        rcases List.mem_cons.mp hg with rfl | hg
        · rw [hf] at hg'; simp at hg'; omega
        · exact hg
      obtain ⟨y, hy, hc⟩ := ih x (fun y hy => h1 y (List.mem_cons_of_mem _ hy)) (fun p hp => h2 p (List.mem_cons_of_mem _ hp))
        (fun p hp => h3 p (List.mem_cons_of_mem _ hp)) a b hx (by omega) hg2
      exact ⟨y, List.mem_cons_of_mem _ hy, hc⟩

/-- C17: if two fields of a run share an offset, then T1001, T1004 or R1002 is reported for the figure. -/
theorem C17_overlap_not_silent (env : Env) (hE : EnvOk env) (root : Node) (m : EntityMeta) (ty : StructTy)
    (A B C : List StructField) (f g : StructField)
    (hent : Entity.mk m (.struct ty (A ++ f :: (B ++ g :: C))) ∈ entities (parseDoc env root).evs)
    (hB : ∀ x ∈ B, intRange x ≠ none) (o : Int) (hf : Covers f o) (hg : Covers g o) :
    Reported .tblFieldOverlap m.figId (parseDoc env root).evs ∨ Reported .tblRowOrderReversed m.figId (parseDoc env root).evs ∨
    Reported .rangeReversed m.figId (parseDoc env root).evs := by
  by_cases h1 : Reported .tblFieldOverlap m.figId (parseDoc env root).evs
  · exact .inl h1
  by_cases h2 : Reported .tblRowOrderReversed m.figId (parseDoc env root).evs
  · exact .inr (.inl h2)
  by_cases h3 : Reported .rangeReversed m.figId (parseDoc env root).evs
  · exact .inr (.inr h3)
  exfalso
  obtain ⟨l, h, hf1, hf2, hf3⟩ := hf
  obtain ⟨l', h', hg1, hg2, hg3⟩ := hg
  have hno := not_overlapping hE hent h2 h1
  have hrev := not_reversed hE hent h3
  have e : A ++ f :: (B ++ g :: C) = A ++ (f :: (B ++ [g])) ++ C := by simp
  have hp := run_ascending (f :: (B ++ [g])) ?_ ?_
  · have := (List.pairwise_cons.mp hp).1 g (by simp) l h l' h' hf1 hg1
    omega
  · intro x hx
    have hx' : x ∈ A ++ f :: (B ++ g :: C) := by
      rw [e]; exact List.mem_append_left _ (List.mem_append_right _ hx)
    have : ∃ p, intRange x = some p := by
      rcases List.mem_cons.mp hx with rfl | hx
      · exact ⟨_, hf1⟩
      · rcases List.mem_append.mp hx with hx | hx
        · exact Option.ne_none_iff_exists'.mp (hB x hx)
        · simp only [List.mem_singleton] at hx
          exact ⟨_, hx ▸ hg1⟩
    obtain ⟨⟨a, b⟩, hab⟩ := this
    exact ⟨a, b, hab, hrev x hx' a b hab⟩
  · intro p hp
    apply hno
    rw [e]
    exact neighbours_infix A _ C p hp

/-- C18: if an offset at or above the low of some field of a run, and at or below the high of some field of it, belongs to
no field of the run, then T1001, T1002, T1004 or R1002 is reported for the figure. -/
theorem C18_gap_not_silent (env : Env) (hE : EnvOk env) (root : Node) (m : EntityMeta) (ty : StructTy)
    (A R C : List StructField) (hent : Entity.mk m (.struct ty (A ++ R ++ C)) ∈ entities (parseDoc env root).evs)
    (hR : ∀ x ∈ R, intRange x ≠ none) (o : Int) (f g : StructField) (hf : f ∈ R) (hg : g ∈ R) (l h l' h' : Int)
    (hfr : intRange f = some (l, h)) (hgr : intRange g = some (l', h')) (hl : l ≤ o) (hh : o ≤ h')
    (hno : ∀ x ∈ R, ¬ Covers x o) :
    Reported .tblFieldOverlap m.figId (parseDoc env root).evs ∨ Reported .tblFieldGap m.figId (parseDoc env root).evs ∨
    Reported .tblRowOrderReversed m.figId (parseDoc env root).evs ∨ Reported .rangeReversed m.figId (parseDoc env root).evs := by
  by_cases h1 : Reported .tblFieldOverlap m.figId (parseDoc env root).evs
  · exact .inl h1
  by_cases h4 : Reported .tblFieldGap m.figId (parseDoc env root).evs
  · exact .inr (.inl h4)
  by_cases h2 : Reported .tblRowOrderReversed m.figId (parseDoc env root).evs
  · exact .inr (.inr (.inl h2))
  by_cases h3 : Reported .rangeReversed m.figId (parseDoc env root).evs
  · exact .inr (.inr (.inr h3))
  exfalso
  have k1 := not_overlapping hE hent h2 h1
  have k2 := not_gapped hE hent h2 h4
  have hrev := not_reversed hE hent h3
  have hint : ∀ x ∈ R, ∃ l h, intRange x = some (l, h) ∧ l ≤ h := by
    intro x hx
    obtain ⟨⟨a, b⟩, hab⟩ := Option.ne_none_iff_exists'.mp (hR x hx)
    exact ⟨a, b, hab, hrev x (List.mem_append_left _ (List.mem_append_right _ hx)) a b hab⟩
  have n1 : ∀ p ∈ neighbours R, overlaps p.1 p.2 = false := fun p hp => k1 p (neighbours_infix A R C p hp)
  have n2 : ∀ p ∈ neighbours R, leavesGap p.1 p.2 = false := fun p hp => k2 p (neighbours_infix A R C p hp)
  have hasc := run_ascending R hint n1
  cases R with
  | nil => simp at hf
  | cons x R =>
    obtain ⟨a, b, hx, hab⟩ := hint x (by simp)
    have hao : a ≤ o := by
      rcases List.mem_cons.mp hf with rfl | hf
      · rw [hfr] at hx; simp at hx; omega
      · have := (List.pairwise_cons.mp hasc).1 f hf a b l h hx hfr
        omega
    obtain ⟨y, hy, hc⟩ := run_covers x R hint n1 n2 o a b hx hao g hg l' h' hgr hh
    exact hno y hy hc

/-- C16: a struct figure with integer ranges only, for which none of T1001, T1002, T1004, R1002 is reported, is a partition:
no offset belongs to two fields, and the offsets of the fields are exactly those from the low of the first to the high of
the last field. -/
theorem C16_partition (env : Env) (hE : EnvOk env) (root : Node) (m : EntityMeta) (ty : StructTy) (fields : List StructField)
    (hent : Entity.mk m (.struct ty fields) ∈ entities (parseDoc env root).evs) (hint : ∀ f ∈ fields, intRange f ≠ none)
    (h1 : ¬ Reported .tblFieldOverlap m.figId (parseDoc env root).evs)
    (h2 : ¬ Reported .tblFieldGap m.figId (parseDoc env root).evs)
    (h3 : ¬ Reported .tblRowOrderReversed m.figId (parseDoc env root).evs)
    (h4 : ¬ Reported .rangeReversed m.figId (parseDoc env root).evs) :
    fields.Pairwise (fun f g => ∀ o, ¬ (Covers f o ∧ Covers g o)) ∧
    ∀ first last l h l' h', fields.head? = some first → fields.getLast? = some last → intRange first = some (l, h) →
      intRange last = some (l', h') → ∀ o, (∃ f ∈ fields, Covers f o) ↔ (l ≤ o ∧ o ≤ h') := by
  have k1 := not_overlapping hE hent h3 h1
  have k2 := not_gapped hE hent h3 h2
  have hrev := not_reversed hE hent h4
  have hint' : ∀ x ∈ fields, ∃ l h, intRange x = some (l, h) ∧ l ≤ h := by
    intro x hx
    obtain ⟨⟨a, b⟩, hab⟩ := Option.ne_none_iff_exists'.mp (hint x hx)
    exact ⟨a, b, hab, hrev x hx a b hab⟩
  have hasc := run_ascending fields hint' k1
  constructor
  · refine hasc.imp ?_
    rintro f g h o ⟨⟨l, r, a1, a2, a3⟩, ⟨l', r', b1, b2, b3⟩⟩
    have := h l r l' r' a1 b1
    omega
  · intro first last l h l' h' hfirst hlast hfr hlr o
    constructor
    · rintro ⟨f, hf, a, b, hab, ha, hb⟩
      constructor
      · cases fields with
        | nil => simp at hf
        | cons x R =>
          simp only [List.head?_cons, Option.some.injEq] at hfirst
          subst hfirst
          rcases List.mem_cons.mp hf with rfl | hf
          · rw [hfr] at hab; simp at hab; omega
          · have := (List.pairwise_cons.mp hasc).1 f hf l h a b hfr hab
            have := hrev x (by simp) l h hfr
            omega
      · obtain ⟨ys, hys⟩ := List.getLast?_eq_some_iff.mp hlast
        subst hys
        rcases List.mem_append.mp hf with hf | hf
        · have := (List.pairwise_append.mp hasc).2.2 f hf last (by simp) a b l' h' hab hlr
          have := hrev last (by simp) l' h' hlr
          omega
        · simp only [List.mem_singleton] at hf
          subst hf
          rw [hlr] at hab; simp at hab; omega
    · rintro ⟨ho1, ho2⟩
      cases fields with
      | nil => simp at hfirst
      | cons x R =>
        simp only [List.head?_cons, Option.some.injEq] at hfirst
        subst hfirst
        exact run_covers x R hint' k1 k2 o l h hfr ho1 last (List.mem_of_getLast? hlast) l' h' hlr ho2

/-! ### C19 -/

/-- an ascending layout without holes: an integer-ranged field begins after the end of every earlier one, and directly after
the end of its predecessor if that is integer-ranged, too -/
def WellLaid (fields : List StructField) : Prop :=
  fields.Pairwise (fun x y => ∀ l h l' h', intRange x = some (l, h) → intRange y = some (l', h') → l ≤ h ∧ h < l') ∧
  ∀ A x y C, fields = A ++ x :: y :: C → ∀ l h l' h', intRange x = some (l, h) → intRange y = some (l', h') → l' = h + 1

omit [Uni] in
theorem mem_neighbours {α : Type} {fs : List α} {p : α × α} (h : p ∈ neighbours fs) :
    ∃ A C, fs = A ++ p.1 :: p.2 :: C := by
  induction fs with
  | nil => simp [neighbours] at h
  | cons f fs ih =>
    cases fs with
    | nil => simp [neighbours] at h
    | cons g fs =>
      rw [neighbours_cons_cons] at h
      rcases List.mem_cons.mp h with h | h
      · exact ⟨[], fs, by simp [h]⟩
      · obtain ⟨A, C, e⟩ := ih h
        exact ⟨f :: A, C, by simp [e]⟩

omit [Uni] in
theorem misordered_pair {fs : List StructField} (h : Misordered fs) :
    ∃ A a B g C, fs = A ++ a :: (B ++ g :: C) ∧ (∀ x ∈ B, ¬ Breaks x) ∧ Inverted a g := by
  rcases h with ⟨a, B, g, C, h1, h2, h3⟩ | ⟨A, b, R, h0, _, a, B, g, C, h1, h2, h3⟩
  · exact ⟨[], a, B, g, C, h1, h2, h3⟩
  · exact ⟨A ++ [b], a, B, g, C, by rw [h0, h1]; simp, h2, h3⟩

omit [Uni] in
theorem WellLaid.not_misordered {fs : List StructField} (h : WellLaid fs) : ¬ Misordered fs := by
  intro hm
  obtain ⟨A, a, B, g, C, e, _, l, r, l', r', h1, h2, h3⟩ := misordered_pair hm
  have hp := h.1
  rw [e] at hp
  have := (List.pairwise_cons.mp (List.pairwise_append.mp hp).2.1).1 g (by simp) l r l' r' h1 h2
  omega

/-- C19: if every struct entity with a figure id is well laid out, then none of T1001, T1002, T1004 is reported for this id. -/
theorem C19_no_false_alarm (env : Env) (hE : EnvOk env) (root : Node) (fig : Str)
    (h : ∀ m ty fields, Entity.mk m (.struct ty fields) ∈ entities (parseDoc env root).evs → m.figId = fig → WellLaid fields) :
    ¬ Reported .tblFieldOverlap fig (parseDoc env root).evs ∧ ¬ Reported .tblFieldGap fig (parseDoc env root).evs ∧
    ¬ Reported .tblRowOrderReversed fig (parseDoc env root).evs := by
  obtain ⟨h1, h2, h3, -⟩ := validation_exact env hE root
  unfold Reported
  rw [h1, h2, h3]
  refine ⟨?_, ?_, ?_⟩
  all_goals
    rintro ⟨l, hl, hf⟩
    obtain ⟨⟨m, body⟩, he, hl⟩ := List.mem_flatMap.mp hl
    cases body with
    | values fs => simp [expectedOverlaps, expectedGaps, expectedOrder] at hl
    | struct ty fs =>
      simp only [expectedOverlaps, expectedGaps, expectedOrder] at hl
      split at hl
      · rename_i hm
        first
        | (simp at hl; done)
        | (simp only [List.mem_singleton] at hl
           subst hl
           exact (h m ty fs he hf).not_misordered hm)
      · first
        | (simp at hl; done)
        | (simp only [List.mem_map, List.mem_filter] at hl
           obtain ⟨p, ⟨hp, ho⟩, rfl⟩ := hl
           have hw := h m ty fs he hf
           obtain ⟨A, C, e⟩ := mem_neighbours hp
           simp only [overlaps, leavesGap] at ho
           split at ho
           · rename_i a b c d hx hy
             have := hw.2 A p.1 p.2 C e _ _ _ _ hx hy
             simp only [decide_eq_true_eq] at ho
             omega
           · simp at ho)

/-! ### C20 -/

/-- C20: T1004 is reported exactly once for every struct figure in which a field starts below the first field of its run (in
the order of the entities), and never otherwise. -/
theorem C20_order_exact (env : Env) (hE : EnvOk env) (root : Node) :
    diagnostics .tblRowOrderReversed (parseDoc env root).evs =
      (entities (parseDoc env root).evs).flatMap expectedOrder := (validation_exact env hE root).2.2.1

/-- C20, soundness: T1004 is reported only if some field starts below an earlier one. -/
theorem C20_order_sound (env : Env) (hE : EnvOk env) (root : Node) (fig : Str)
    (h : Reported .tblRowOrderReversed fig (parseDoc env root).evs) :
    ∃ m ty A f B g C l r l' r', Entity.mk m (.struct ty (A ++ f :: (B ++ g :: C))) ∈ entities (parseDoc env root).evs ∧
      m.figId = fig ∧ intRange f = some (l, r) ∧ intRange g = some (l', r') ∧ l' < l := by
  obtain ⟨x, hx, hf⟩ := h
  rw [C20_order_exact env hE root] at hx
  obtain ⟨⟨m, body⟩, he, hx⟩ := List.mem_flatMap.mp hx
  cases body with
  | values fs => simp [expectedOrder] at hx
  | struct ty fs =>
    simp only [expectedOrder] at hx
    split at hx
    · rename_i hm
      simp only [List.mem_singleton] at hx
      subst hx
      obtain ⟨A, a, B, g, C, e, _, l, r, l', r', h1, h2, h3⟩ := misordered_pair hm
      exact ⟨m, ty, A, a, B, g, C, l, r, l', r', e ▸ he, hf, h1, h2, h3⟩
    · simp at hx

/-- C20, completeness, for the first field of a run only (missing: an inversion between two later fields of a run, which is
not reported as T1004, see `C20_order_complete_false` and `C20_order_never_silent`). -/
theorem C20_order_complete_partial (env : Env) (hE : EnvOk env) (root : Node) (m : EntityMeta) (ty : StructTy)
    (A B C : List StructField) (f g : StructField)
    (hent : Entity.mk m (.struct ty (A ++ f :: (B ++ g :: C))) ∈ entities (parseDoc env root).evs)
    (hA : ∀ b, A.getLast? = some b → Breaks b) (hB : ∀ x ∈ B, ¬ Breaks x) (l r l' r' : Int)
    (hf : intRange f = some (l, r)) (hg : intRange g = some (l', r')) (hlt : l' < l) :
    Reported .tblRowOrderReversed m.figId (parseDoc env root).evs := by
  by_contra hn
  apply not_misordered hE hent hn
  have hh : HeadInverted (f :: (B ++ g :: C)) := ⟨f, B, g, C, rfl, hB, l, r, l', r', hf, hg, hlt⟩
  rcases List.eq_nil_or_concat A with rfl | ⟨A', b, rfl⟩
  · exact .inl hh
  · exact .inr ⟨A', b, _, by simp, hA b (by simp), hh⟩

/-- C20: a field which starts below an earlier field of its run is never silent: T1001, T1004 or R1002 is reported. -/
theorem C20_order_never_silent (env : Env) (hE : EnvOk env) (root : Node) (m : EntityMeta) (ty : StructTy)
    (A B C : List StructField) (f g : StructField)
    (hent : Entity.mk m (.struct ty (A ++ f :: (B ++ g :: C))) ∈ entities (parseDoc env root).evs)
    (hB : ∀ x ∈ B, intRange x ≠ none) (l r l' r' : Int)
    (hf : intRange f = some (l, r)) (hg : intRange g = some (l', r')) (hlt : l' < l) :
    Reported .tblFieldOverlap m.figId (parseDoc env root).evs ∨ Reported .tblRowOrderReversed m.figId (parseDoc env root).evs ∨
    Reported .rangeReversed m.figId (parseDoc env root).evs := by
  by_contra hn
  simp only [not_or] at hn
  have hno := not_overlapping hE hent hn.2.1 hn.1
  have hrev := not_reversed hE hent hn.2.2
  have e : A ++ f :: (B ++ g :: C) = A ++ (f :: (B ++ [g])) ++ C := by simp
  have hp := run_ascending (f :: (B ++ [g])) ?_ ?_
  · have := (List.pairwise_cons.mp hp).1 g (by simp) l r l' r' hf hg
    have := hrev f (by simp) l r hf
    omega
  · intro x hx
    have hx' : x ∈ A ++ f :: (B ++ g :: C) := by
      rw [e]; exact List.mem_append_left _ (List.mem_append_right _ hx)
    have : ∃ p, intRange x = some p := by
      rcases List.mem_cons.mp hx with rfl | hx
      · exact ⟨_, hf⟩
      · rcases List.mem_append.mp hx with hx | hx
        · exact Option.ne_none_iff_exists'.mp (hB x hx)
        · simp only [List.mem_singleton] at hx
          exact ⟨_, hx ▸ hg⟩
    obtain ⟨⟨a, b⟩, hab⟩ := this
    exact ⟨a, b, hab, hrev x hx' a b hab⟩
  · intro p hp
    apply hno
    rw [e]
    exact neighbours_infix A _ C p hp

/-! ### C21, C22 -/

/-- C21: the L1002 of a document are, entity by entity: for a struct figure without T1004 one for every field with a name
which an earlier field has; for a value figure one for every field with a name which an earlier such field has. -/
theorem C21_duplicate_labels_exact (env : Env) (hE : EnvOk env) (root : Node) :
    diagnostics .lblDuplicate (parseDoc env root).evs =
      (entities (parseDoc env root).evs).flatMap expectedDupLabels := (validation_exact env hE root).2.2.2.1

/-- C22: the V1002 of a document are, entity by entity, one for every field of a value figure with a name whose value an
earlier field with a name has. (The L1002 of value figures are part of `C21_duplicate_labels_exact`.) -/
theorem C22_duplicate_values_exact (env : Env) (hE : EnvOk env) (root : Node) :
    diagnostics .valDuplicate (parseDoc env root).evs =
      (entities (parseDoc env root).evs).flatMap expectedDupValues := (validation_exact env hE root).2.2.2.2

/-- T1001 and T1002 are reported exactly for neighbouring fields which overlap, or leave a gap, in figures without T1004. -/
theorem C17_C18_neighbours_exact (env : Env) (hE : EnvOk env) (root : Node) :
    diagnostics .tblFieldOverlap (parseDoc env root).evs = (entities (parseDoc env root).evs).flatMap expectedOverlaps ∧
    diagnostics .tblFieldGap (parseDoc env root).evs = (entities (parseDoc env root).evs).flatMap expectedGaps :=
  ⟨(validation_exact env hE root).1, (validation_exact env hE root).2.1⟩

/-! ### examples -/

instance (c : LintErr) (fig : Str) (evs : List Ev) : Decidable (Reported c fig evs) :=
  inferInstanceAs (Decidable (∃ l ∈ diagnostics c evs, l.fig = fig))

end Spex

namespace Spex
open Sample

/-- a bytes table with one row for every pair of a range and a text -/
def bytesFig (title : Str) (rows : List (Str × Str)) : Node :=
  figure title [c!"Bytes", c!"Description"] (rows.map fun (r, t) => [td r, td t])

/-- the codes reported for figure 7 in a document which consists of this bytes table, and the ranges of its fields -/
def layoutCodes (rows : List (Str × Str)) : List LintErr × List (Option (Int × Int)) :=
  letI := Uni.ascii
  let evs := (parseDoc (envPlain false) (doc [bytesFig c!"Figure 7: Test" rows])).evs
  (evs.filterMap fun | .ent _ => none | .lint l => some l.err,
   (entities evs).flatMap fun e => match e.body with
    | .struct _ fs => fs.map intRange
    | .values _ => [])

/-- C16, C19: a clean figure with three fields -/
example : layoutCodes [(c!"3:0", c!"Alpha Beta (AB): x"), (c!"04", c!"Gamma (GA): y"), (c!"15:05", c!"Reserved")] =
    ([], [some (0, 3), some (4, 4), some (5, 15)]) := by decide +kernel

/-- C17, C18: an overlap and a gap -/
example : layoutCodes [(c!"3:0", c!"Alpha Beta (AB): x"), (c!"05:03", c!"Gamma (GA): y"), (c!"15:08", c!"Reserved")] =
    ([.tblFieldOverlap, .tblFieldGap], [some (0, 3), some (3, 5), some (8, 15)]) := by decide +kernel

/-- C20: rows in reverse order -/
example : layoutCodes [(c!"15:08", c!"Alpha Beta (AB): x"), (c!"07:04", c!"Gamma (GA): y"), (c!"3:0", c!"Reserved")] =
    ([.tblRowOrderReversed], [some (8, 15), some (4, 7), some (0, 3)]) := by decide +kernel

/-- C21, C22: labels and values occurring twice -/
example : letI := Uni.ascii
    let evs := (parseDoc (envPlain false) (doc [bytesFig c!"Figure 7: Test" [(c!"0", c!"Alpha (AB): x"), (c!"1", c!"Beta (AB): y")],
      figure c!"Figure 8: Codes" [c!"Value", c!"Description"] [[td c!"0h", td c!"Alpha: x"], [td c!"0H", td c!"Alpha: y"]]])).evs
    (diagnostics .lblDuplicate evs).map (fun l => (l.fig, l.row)) = [(c!"7", some c!"1"), (c!"8", some c!"0h")] ∧
    (diagnostics .valDuplicate evs).map (fun l => (l.fig, l.row)) = [(c!"8", some c!"0h")] := by decide +kernel

/-- C20, not complete: the third field starts below the second one, but no T1004 is reported (T1001 is). -/
theorem C20_order_complete_false : letI := Uni.ascii
    ∃ (root : Node) (m : EntityMeta) (a f g : StructField),
      Entity.mk m (.struct .bytes [a, f, g]) ∈ entities (parseDoc (envPlain false) root).evs ∧
      intRange a = some (0, 3) ∧ intRange f = some (16, 31) ∧ intRange g = some (8, 15) ∧
      ¬ Reported .tblRowOrderReversed m.figId (parseDoc (envPlain false) root).evs ∧
      Reported .tblFieldOverlap m.figId (parseDoc (envPlain false) root).evs := by
  refine ⟨doc [bytesFig c!"Figure 7: Test" [(c!"3:0", c!"Alpha (AB): x"), (c!"31:16", c!"Beta (B): y"), (c!"15:08", c!"Gamma (C): z")]],
    ⟨some c!"Figure 7: Test", c!"7", none⟩, ⟨c!"ab", .int 0 3, some c!"x"⟩, ⟨c!"b", .int 16 31, some c!"y"⟩,
    ⟨c!"c", .int 8 15, some c!"z"⟩, ?_⟩
  decide +kernel

end Spex
