import Verif.Props.Layout
import Verif.Props.Headers
/-
All diagnostics about the layout of a figure, and about the values of a table, in order.
-/
set_option autoImplicit false
namespace Spex

/-! ### Specification -/

/-- what is reported about a field of a layout, given the ones before it: its name is one of theirs; it overlaps the last one of them or leaves a gap after it -/
def fieldReports (fig : Str) (p : List StructField × StructField) : List LintEntry :=
  (if isName p.2.label ∧ p.2.label ∈ p.1.map (·.label) then [onRow .lblDuplicate fig (rowOf p.2) [(c!"label", .str p.2.label)]] else []) ++
  (match p.1.getLast? with
    | some q => if overlaps q p.2 then [onRow .tblFieldOverlap fig (rowOf p.2)] else if leavesGap q p.2 then [onRow .tblFieldGap fig (rowOf p.2)] else []
    | none => [])

open Classical in
/-- what is reported about a layout -/
noncomputable def layoutReports (fig : Str) (fs : List StructField) : List Ev :=
  if Misordered fs then [.lint ⟨.tblRowOrderReversed, fig, LintErr.tblRowOrderReversed.text, none, []⟩]
  else ((withEarlier [] fs).flatMap (fieldReports fig)).map .lint

/-- what is reported about a value, given the ones with names before it -/
def valueReports (fig : Str) (p : List ValueField × ValueField) : List LintEntry :=
  (if p.2.label ∈ p.1.map (·.label) then [onRow .lblDuplicate fig p.2.val [(c!"label", .str p.2.label)]] else []) ++
  (if p.2.val ∈ p.1.map (·.val) then [onRow .valDuplicate fig p.2.val] else [])

/-- what is reported about a table of values -/
def valuesReports (fig : Str) (fs : List ValueField) : List Ev :=
  ((withEarlier [] (fs.filter (fun f => isName f.label))).flatMap (valueReports fig)).map .lint

/-- what is reported about the headings of a table -/
def headReports (fig : Str) (heads : List Str) : List Ev :=
  (heads.filter (fun h => NonStandard h)).map fun h =>
    .lint ⟨.tblHdrErr, fig, LintErr.tblHdrErr.text, none, [(c!"got", .str h), (c!"expected", .str (standardName h))]⟩

/-! ### Proof -/

theorem loopEvs_reports (fig : Str) (labels : List Str) (pre : List StructField) (p : StructField) (fs : List StructField)
    (hl : ∀ l, Tracked l → (l ∈ labels ↔ l ∈ (pre ++ [p]).map (·.label))) :
    loopEvs fig labels (fieldGetRange p) fs = ((withEarlier (pre ++ [p]) fs).flatMap (fieldReports fig)).map .lint := by
  induction fs generalizing labels pre p with
  | nil => rfl
  | cons f fs ih =>
    rw [loopEvs, withEarlier, List.flatMap_cons, List.map_append, ih _ (pre ++ [p]) f]
    · congr 1
      unfold fieldReports
      rw [List.map_append, stepRange_eq]
      congr 1
      · unfold stepDup
        have : (isName f.label = true ∧ f.label ∈ (pre ++ [p]).map (·.label)) ↔ Tracked f.label ∧ f.label ∈ labels := by
          rw [isName_iff]
          exact ⟨fun h => ⟨h.1, (hl _ h.1).mpr h.2⟩, fun h => ⟨h.1, (hl _ h.1).mp h.2⟩⟩
        by_cases hd : Tracked f.label ∧ f.label ∈ labels
        · rw [if_pos hd, if_pos (this.mpr hd)]; rfl
        · rw [if_neg hd, if_neg (fun h => hd (this.mp h))]; rfl
      · simp only [List.getLast?_append, List.getLast?_singleton, Option.some_or]
        by_cases h1 : overlaps p f = true
        · simp [h1]
        · by_cases h2 : leavesGap p f = true
          · simp [h1, h2]
          · simp [h1, h2]
    · intro l ht
      by_cases hf : Tracked f.label
      · rw [if_pos hf, List.mem_cons, hl l ht]
        simp only [List.map_append, List.map_cons, List.map_nil, List.mem_append, List.mem_cons, List.not_mem_nil, or_false]
        exact Or.comm
      · rw [if_neg hf, hl l ht]
        constructor
        · intro h
          rw [List.map_append, List.mem_append]
          exact .inl h
        · intro h
          rw [List.map_append, List.mem_append] at h
          rcases h with h | h
          · exact h
          · simp only [List.map_cons, List.map_nil, List.mem_singleton] at h
            exact absurd (h ▸ ht) hf

theorem structEvs_reports (fig : Str) (fs : List StructField) : structEvs fig fs = layoutReports fig fs := by
  unfold layoutReports
  match fs with
  | [] => rw [if_neg (misordered_short (by simp))]; rfl
  | [f] => rw [if_neg (misordered_short (by simp))]; simp [structEvs, withEarlier, fieldReports]
  | f :: g :: fs =>
    rw [structEvs]
    by_cases h : Misordered (f :: g :: fs)
    · rw [if_pos h, if_pos ((orderWrong_iff _ _).2 h)]
      rfl
    · rw [if_neg h, if_neg (fun e => h ((orderWrong_iff _ _).1 e)), loopEvs_reports fig [f.label] [] f (g :: fs) (by simp)]
      conv => rhs; rw [withEarlier, List.flatMap_cons]
      have : fieldReports fig ([], f) = [] := by simp [fieldReports]
      rw [this]
      rfl

theorem valueEvs_reports (fig : Str) (labels values : List Str) (pre fs : List ValueField)
    (hl : ∀ l, l ∈ labels ↔ l ∈ pre.map (·.label)) (hv : ∀ v, v ∈ values ↔ v ∈ pre.map (·.val)) :
    valueEvs fig labels values fs = ((withEarlier pre (fs.filter (fun f => isName f.label))).flatMap (valueReports fig)).map .lint := by
  induction fs generalizing labels values pre with
  | nil => rfl
  | cons f fs ih =>
    rw [valueEvs]
    by_cases ht : Tracked f.label
    · rw [if_pos ht, List.filter_cons_of_pos (by simpa using (isName_iff _).mpr ht), withEarlier, List.flatMap_cons, List.map_append,
        ih (f.label :: labels) (f.val :: values) (pre ++ [f])]
      · congr 1
        unfold stepValue valueReports
        simp only [hl, hv, List.map_append]
        congr 1 <;> split <;> rfl
      · intro l
        simp only [List.mem_cons, hl, List.map_append, List.map_cons, List.map_nil, List.mem_append, List.not_mem_nil, or_false]
        exact Or.comm
      · intro l
        simp only [List.mem_cons, hv, List.map_append, List.map_cons, List.map_nil, List.mem_append, List.not_mem_nil, or_false]
        exact Or.comm
    · rw [if_neg ht, List.filter_cons_of_neg (by simpa using fun h => ht ((isName_iff _).mp h))]
      exact ih labels values pre hl hv

theorem valuesEvs_reports (fig : Str) (fs : List ValueField) : valuesEvs fig fs = valuesReports fig fs := by
  unfold valuesEvs valuesReports
  split
  · rename_i h
    have := List.length_filter_le (fun f : ValueField => isName f.label) fs
    generalize fs.filter (fun f => isName f.label) = gs at this
    match gs with
    | [] => rfl
    | [g] => simp [withEarlier, valueReports]
    | _ :: _ :: _ => simp at this; omega
  · exact valueEvs_reports fig [] [] [] fs (by simp) (by simp)

theorem headerIssues_reports [Uni] (fig : Str) {tbl : Node} {heads : List Str} (h : (headerCells tbl).map (fun c => headingText c.toText) = heads) :
    headerIssues fig tbl = headReports fig heads := by
  subst h
  unfold headerIssues headReports
  rw [List.filter_map, List.map_map]
  rfl

end Spex
