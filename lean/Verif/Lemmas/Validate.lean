import Verif.Model.ValueTable
import Verif.Lemmas.Monad
/-
The diagnostics of validate_fields in closed form.
-/
set_option autoImplicit false
namespace Spex

/-- is the label not one of the markers -/
def Tracked (l : Str) : Prop := l ≠ RESERVED ∧ l ≠ ELLIPSIS

instance (l : Str) : Decidable (Tracked l) := inferInstanceAs (Decidable (_ ∧ _))

def stepDup (fig : Str) (labels : List Str) (f : StructField) : List Ev :=
  if Tracked f.label ∧ f.label ∈ labels then
    [.lint (issue .lblDuplicate fig (some (rangeToRowKey f.range)) [(c!"label", .str f.label)])] else []

def stepRange (fig : Str) (prev : Option RangeV) (f : StructField) : List Ev :=
  match prev, fieldGetRange f with
  | some (.int _ ph), some (.int cl ch) =>
    if ph ≥ cl then [.lint (issue .tblFieldOverlap fig (some (rangeToRowKey (.int cl ch))))]
    else if ph + 1 ≠ cl then [.lint (issue .tblFieldGap fig (some (rangeToRowKey (.int cl ch))))]
    else []
  | _, _ => []

def loopEvs (fig : Str) : List Str → Option RangeV → List StructField → List Ev
  | _, _, [] => []
  | labels, prev, f :: fs => stepDup fig labels f ++ stepRange fig prev f ++
      loopEvs fig (if Tracked f.label then f.label :: labels else labels) (fieldGetRange f) fs

theorem validateLoop_run (fig : Str) (hf : fig ≠ []) (fs : List StructField) (labels : List Str) (prev : Option RangeV) (fl : Bool) :
    validateLoop fig labels prev fs fl = ⟨loopEvs fig labels prev fs, fl, .ok ()⟩ := by
  induction fs generalizing labels prev with
  | nil => rfl
  | cons f fs ih =>
    have hd : dupIssue fig labels f fl = ⟨stepDup fig labels f, fl, .ok ()⟩ := by
      unfold dupIssue stepDup Tracked
      split
      · rw [addIssue_row hf]; rfl
      · rfl
    have hn : ∀ p, fieldGetRange f = none → stepRange fig p f = [] := by
      intro p hg
      unfold stepRange
      rw [hg]
      cases p with
      | none => rfl
      | some p => cases p <;> rfl
    unfold validateLoop loopEvs
    rw [M.bind_run, hd]
    simp only
    by_cases he : f.label = ELLIPSIS
    · have hg : fieldGetRange f = none := by unfold fieldGetRange; rw [if_pos he]
      rw [if_pos he, ih, hn _ hg, hg, List.append_nil]
      rfl
    · rw [if_neg he]
      cases hg : fieldGetRange f with
      | none =>
        simp only
        rw [ih, hn _ hg, List.append_nil]
        rfl
      | some r =>
        have hr : rangeIssue fig prev r fl = ⟨stepRange fig prev f, fl, .ok ()⟩ := by
          unfold rangeIssue stepRange
          rw [hg]
          cases prev with
          | none => rfl
          | some p =>
            cases p with
            | dyn => rfl
            | raw => rfl
            | int pl ph =>
              cases r with
              | dyn => rfl
              | raw => rfl
              | int cl ch =>
                simp only
                split
                · rw [addIssue_row hf]; rfl
                · split
                  · rw [addIssue_row hf]; rfl
                  · rfl
        simp only
        rw [M.bind_run, hr]
        simp only
        rw [ih, List.append_assoc]
        rfl

theorem loopEvs_append (fig : Str) (A B : List StructField) (labels : List Str) (prev : Option RangeV) :
    ∃ labels' prev', loopEvs fig labels prev (A ++ B) = loopEvs fig labels prev A ++ loopEvs fig labels' prev' B ∧
      (∀ l, Tracked l → (l ∈ labels' ↔ l ∈ labels ∨ l ∈ A.map (·.label))) ∧
      (∀ A' a, A = A' ++ [a] → prev' = fieldGetRange a) ∧ (A = [] → prev' = prev) := by
  induction A generalizing labels prev with
  | nil => exact ⟨labels, prev, rfl, by simp, by simp, fun _ => rfl⟩
  | cons a A ih =>
    obtain ⟨l', p', h1, h2, h3, h4⟩ := ih (if Tracked a.label then a.label :: labels else labels) (fieldGetRange a)
    refine ⟨l', p', ?_, ?_, ?_, by simp⟩
    · simp only [List.cons_append, loopEvs, h1, List.append_assoc]
    · intro l hl
      rw [h2 l hl]
      by_cases ht : Tracked a.label
      · simp only [ht, if_true, List.mem_cons, List.map_cons]
        constructor
        · rintro ((h | h) | h)
          · exact .inr (.inl h)
          · exact .inl h
          · exact .inr (.inr h)
        · rintro (h | h | h)
          · exact .inl (.inr h)
          · exact .inl (.inl h)
          · exact .inr h
      · simp only [ht, if_false, List.map_cons, List.mem_cons]
        have : l ≠ a.label := fun e => ht (e ▸ hl)
        simp [this]
    · intro A' x hx
      cases A' with
      | nil =>
        simp only [List.nil_append, List.cons.injEq] at hx
        rw [h4 hx.2, hx.1]
      | cons y A' =>
        simp only [List.cons_append, List.cons.injEq] at hx
        exact h3 A' x hx.2

/-! ### value tables -/

def stepValue (fig : Str) (labels values : List Str) (f : ValueField) : List Ev :=
  (if f.label ∈ labels then [.lint (issue .lblDuplicate fig (some f.val) [(c!"label", .str f.label)])] else []) ++
  (if f.val ∈ values then [.lint (issue .valDuplicate fig (some f.val))] else [])

def valueEvs (fig : Str) : List Str → List Str → List ValueField → List Ev
  | _, _, [] => []
  | labels, values, f :: fs =>
    if Tracked f.label then stepValue fig labels values f ++ valueEvs fig (f.label :: labels) (f.val :: values) fs
    else valueEvs fig labels values fs

theorem validateValuesLoop_run (fig : Str) (hf : fig ≠ []) (fs : List ValueField) (labels values : List Str) (fl : Bool) :
    validateValuesLoop fig labels values fs fl = ⟨valueEvs fig labels values fs, fl, .ok ()⟩ := by
  induction fs generalizing labels values with
  | nil => rfl
  | cons f fs ih =>
    unfold validateValuesLoop valueEvs
    by_cases ht : Tracked f.label
    · have h1 : dupLabelIssue fig labels f fl = ⟨if f.label ∈ labels then
          [.lint (issue .lblDuplicate fig (some f.val) [(c!"label", .str f.label)])] else [], fl, .ok ()⟩ := by
        unfold dupLabelIssue
        split
        · rw [addIssue_row hf]; rfl
        · rfl
      have h2 : dupValueIssue fig values f fl = ⟨if f.val ∈ values then
          [.lint (issue .valDuplicate fig (some f.val))] else [], fl, .ok ()⟩ := by
        unfold dupValueIssue
        split
        · rw [addIssue_row hf]; rfl
        · rfl
      rw [if_pos ht, if_neg (fun h => h.elim ht.1 ht.2), M.bind_run, h1]
      simp only
      rw [M.bind_run, h2]
      simp only
      rw [ih, stepValue, List.append_assoc]
    · rw [if_neg ht, if_pos (by
        unfold Tracked at ht
        by_cases h : f.label = RESERVED
        · exact .inl h
        · right
          by_cases h' : f.label = ELLIPSIS
          · exact h'
          · exact absurd ⟨h, h'⟩ ht), ih]

end Spex
