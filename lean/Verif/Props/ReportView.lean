import Verif.Model.ReportView
import Verif.Props.Server
import Mathlib.Data.List.Induction
/-
C71: what the report page shows of the diagnostics.
-/
set_option autoImplicit false
namespace Spex

/-! ### Specification -/

/-- the diagnostics listed in a JSON file -/
def Lists (j : Json) (ls : List LintEntry) : Prop :=
  (jsonItem c!"meta" j).bind (jsonItem c!"lint") = some (.arr (ls.map LintEntry.toJson))

/-- a diagnostic as the page shows it -/
def cardOf (l : LintEntry) : ShownLint := ⟨l.err.code, l.msg, l.fig, l.row, l.ctx⟩

/-- since the filters were cleared for the last time, the row of this code was clicked an odd number of times -/
def Chosen (clicks : List Click) (code : Str) : Prop :=
  ((clicks.reverse.takeWhile (· ≠ .clear)).count (.toggle code)) % 2 = 1

instance (clicks : List Click) (code : Str) : Decidable (Chosen clicks code) := by unfold Chosen; infer_instance

/-- the diagnostic is to be shown: its code is chosen, or none is -/
def Wanted (clicks : List Click) (ls : List LintEntry) (l : LintEntry) : Prop :=
  (∃ m ∈ ls, Chosen clicks m.err.code) → Chosen clicks l.err.code

instance (clicks : List Click) (ls : List LintEntry) (l : LintEntry) : Decidable (Wanted clicks ls l) := by unfold Wanted; infer_instance

/-! ### JavaScript objects -/

theorem insertBy_perm {α : Type} (le : α → α → Bool) (a : α) (l : List α) : (insertBy le a l).Perm (a :: l) := by
  induction l with
  | nil => rfl
  | cons b l ih =>
    rw [insertBy]
    split
    · rfl
    · exact (ih.cons b).trans (.swap a b l)

theorem stableSort_perm {α : Type} (le : α → α → Bool) (l : List α) : (stableSort le l).Perm l := by
  induction l with
  | nil => rfl
  | cons a l ih => exact (insertBy_perm le a _).trans (ih.cons a)

theorem stableSort_pairwise {α : Type} {le : α → α → Bool} (trans : ∀ a b c, le a b = true → le b c = true → le a c = true)
    (total : ∀ a b, (le a b || le b a) = true) (l : List α) : (stableSort le l).Pairwise fun a b => le a b = true := by
  induction l with
  | nil => exact .nil
  | cons a l ih =>
    show (insertBy le a (stableSort le l)).Pairwise _
    generalize stableSort le l = m at ih
    clear l
    induction m with
    | nil => simp [insertBy]
    | cons b m ih2 =>
      rw [insertBy]
      obtain ⟨h1, h2⟩ := List.pairwise_cons.1 ih
      split
      · next h =>
        refine List.pairwise_cons.2 ⟨fun x hx => ?_, ih⟩
        rcases List.mem_cons.1 hx with rfl | hx
        · exact h
        · exact trans _ _ _ h (h1 x hx)
      · next h =>
        refine List.pairwise_cons.2 ⟨fun x hx => ?_, ih2 h2⟩
        rcases List.mem_cons.1 ((insertBy_perm le a m).mem_iff.1 hx) with rfl | hx
        · have := total x b
          simpa [h] using this
        · exact h1 x hx

section
variable {α : Type}

theorem jsUpdate_keys (k : Str) (f : α → α) (o : List (Str × α)) : (jsUpdate k f o).map (·.1) = o.map (·.1) := by
  induction o with
  | nil => rfl
  | cons e o ih =>
    obtain ⟨k', v⟩ := e
    rw [jsUpdate]
    by_cases h : k' = k
    · rw [if_pos h]; rfl
    · rw [if_neg h]; simp [ih]

theorem lookup_key (k : Str) (o : List (Str × α)) : (o.lookup k).isSome = true ↔ k ∈ o.map (·.1) := by
  induction o with
  | nil => simp
  | cons e o ih =>
    obtain ⟨k', v⟩ := e
    rw [List.lookup_cons]
    by_cases h : k = k'
    · subst h; simp
    · have : (k == k') = false := by simpa using h
      simp [this, ih, h]

theorem lookup_jsUpdate (k : Str) (f : α → α) (k' : Str) (o : List (Str × α)) :
    (jsUpdate k f o).lookup k' = if k' = k then (o.lookup k).map f else o.lookup k' := by
  induction o with
  | nil => simp [jsUpdate]
  | cons e o ih =>
    obtain ⟨k0, v⟩ := e
    rw [jsUpdate]
    by_cases h : k0 = k
    · subst h
      rw [if_pos rfl]
      by_cases h2 : k' = k0
      · subst h2; simp
      · have : (k' == k0) = false := by simpa using h2
        rw [if_neg h2, List.lookup_cons, List.lookup_cons, this]
    · rw [if_neg h, List.lookup_cons, ih]
      by_cases h2 : k' = k
      · subst h2
        have h3 : (k' == k0) = false := by simpa using fun e : k' = k0 => h e.symm
        rw [if_pos rfl, h3, if_pos rfl, List.lookup_cons, h3]
      · rw [if_neg h2, if_neg h2, List.lookup_cons]

theorem lookup_snoc (k k' : Str) (v : α) (o : List (Str × α)) (h : (o.lookup k).isSome = false) :
    (o ++ [(k, v)]).lookup k' = if k' = k then some v else o.lookup k' := by
  induction o with
  | nil =>
    by_cases h2 : k' = k
    · subst h2; simp
    · have : (k' == k) = false := by simpa using h2
      simp [List.lookup_cons, this, h2]
  | cons e o ih =>
    obtain ⟨k0, v0⟩ := e
    rw [List.cons_append, List.lookup_cons, List.lookup_cons]
    rw [List.lookup_cons] at h
    by_cases h3 : k = k0
    · subst h3; simp at h
    · have h4 : (k == k0) = false := by simpa using h3
      rw [h4] at h
      rw [ih h]
      by_cases h2 : k' = k
      · subst h2; rw [if_pos rfl, h4, if_pos rfl]
      · rw [if_neg h2, if_neg h2]

theorem nodup_snoc {k : Str} {v : α} {o : List (Str × α)} (hn : (o.map (·.1)).Nodup) (h : ¬ (o.lookup k).isSome = true) :
    ((o ++ [(k, v)]).map (·.1)).Nodup := by
  rw [lookup_key] at h
  rw [List.map_append, List.nodup_append]
  refine ⟨hn, by simp, ?_⟩
  intro a ha b hb
  simp only [List.map_cons, List.map_nil, List.mem_singleton] at hb
  subst hb
  rintro rfl
  exact h ha

theorem lookup_nodup {k : Str} {v : α} {o : List (Str × α)} (hn : (o.map (·.1)).Nodup) (h : (k, v) ∈ o) : o.lookup k = some v := by
  induction o with
  | nil => simp at h
  | cons e o ih =>
    obtain ⟨k0, v0⟩ := e
    rw [List.map_cons, List.nodup_cons] at hn
    rw [List.lookup_cons]
    rcases List.mem_cons.1 h with h | h2
    · cases h; simp
    · have : (k == k0) = false := by
        rw [beq_eq_false_iff_ne]
        rintro rfl
        exact hn.1 (List.mem_map.2 ⟨(k, v), h2, rfl⟩)
      rw [this]
      exact ih hn.2 h2

theorem jsEntries_perm (o : List (Str × α)) : (jsEntries o).Perm o := by
  rw [jsEntries]
  refine ((stableSort_perm _ _).append_right _).trans ?_
  have h := List.filter_append_perm (fun e : Str × α => (arrayIndex e.1).isSome) o
  have e : (fun e : Str × α => !(arrayIndex e.1).isSome) = fun e => (arrayIndex e.1).isNone := by
    funext x; cases arrayIndex x.1 <;> rfl
  rwa [e] at h

end

/-! ### the groups -/

theorem groupByFig_spec : ∀ (ls : List ShownLint) (acc : List (Str × List ShownLint)), (acc.map (·.1)).Nodup →
    (∀ e ∈ acc, e.2 ≠ []) → (∀ l ∈ ls, l.fig ∉ inheritedNames) →
    ∃ o, groupByFig acc ls = some o ∧ (o.map (·.1)).Nodup ∧ (∀ e ∈ o, e.2 ≠ []) ∧
      ∀ k, (o.lookup k).getD [] = (acc.lookup k).getD [] ++ ls.filter (fun l => l.fig = k)
  | [], acc, h1, h2, _ => ⟨acc, rfl, h1, h2, by simp⟩
  | l :: ls, acc, h1, h2, h3 => by
    have h4 : ∀ l ∈ ls, l.fig ∉ inheritedNames := fun x hx => h3 x (List.mem_cons_of_mem _ hx)
    rw [groupByFig]
    by_cases h : (acc.lookup l.fig).isSome = true
    · rw [if_pos h]
      have hv : ∀ e ∈ jsUpdate l.fig (· ++ [l]) acc, e.2 ≠ [] := by
        clear h1 h h4 h3
        induction acc with
        | nil => simp [jsUpdate]
        | cons e acc ih =>
          obtain ⟨k0, v⟩ := e
          rw [jsUpdate]
          by_cases h : k0 = l.fig
          · rw [if_pos h]
            intro e he
            rcases List.mem_cons.1 he with rfl | he
            · simp
            · exact h2 _ (List.mem_cons_of_mem _ he)
          · rw [if_neg h]
            intro e he
            rcases List.mem_cons.1 he with rfl | he
            · exact h2 _ (List.mem_cons_self ..)
            · exact ih (fun e he => h2 e (List.mem_cons_of_mem _ he)) _ he
      obtain ⟨o, g1, g2, g3, g4⟩ := groupByFig_spec ls (jsUpdate l.fig (· ++ [l]) acc) (by rw [jsUpdate_keys]; exact h1) hv h4
      refine ⟨o, g1, g2, g3, fun k => ?_⟩
      rw [g4, lookup_jsUpdate]
      by_cases hk : k = l.fig
      · subst hk
        rw [if_pos rfl]
        obtain ⟨v, hv⟩ := Option.isSome_iff_exists.1 h
        rw [hv]
        simp
      · rw [if_neg hk, List.filter_cons_of_neg (p := fun x : ShownLint => x.fig = k) (by simpa using fun e : l.fig = k => hk e.symm)]
    · rw [if_neg h, if_neg (h3 l (List.mem_cons_self ..))]
      obtain ⟨o, g1, g2, g3, g4⟩ := groupByFig_spec ls (acc ++ [(l.fig, [l])]) (nodup_snoc h1 h) (by
        intro e he
        rcases List.mem_append.1 he with he | he
        · exact h2 e he
        · simp only [List.mem_singleton] at he; subst he; simp) h4
      refine ⟨o, g1, g2, g3, fun k => ?_⟩
      rw [g4, lookup_snoc _ _ _ _ ((Bool.not_eq_true _).mp h)]
      by_cases hk : k = l.fig
      · subst hk
        have : acc.lookup l.fig = none := Option.not_isSome_iff_eq_none.1 h
        rw [if_pos rfl, this]
        simp
      · rw [if_neg hk, List.filter_cons_of_neg (p := fun x : ShownLint => x.fig = k) (by simpa using fun e : l.fig = k => hk e.symm)]

theorem groupByFig_throws : ∀ (ls : List ShownLint) (acc : List (Str × List ShownLint)), (∀ e ∈ acc, e.1 ∉ inheritedNames) →
    (∃ l ∈ ls, l.fig ∈ inheritedNames) → groupByFig acc ls = none
  | [], _, _, h => by obtain ⟨l, hl, -⟩ := h; simp at hl
  | l :: ls, acc, h1, h2 => by
    rw [groupByFig]
    by_cases h : (acc.lookup l.fig).isSome = true
    · rw [if_pos h]
      have hk : ∀ e ∈ jsUpdate l.fig (· ++ [l]) acc, e.1 ∉ inheritedNames := by
        intro e he
        have : e.1 ∈ (jsUpdate l.fig (· ++ [l]) acc).map (·.1) := List.mem_map.2 ⟨e, he, rfl⟩
        rw [jsUpdate_keys] at this
        obtain ⟨e', he', h'⟩ := List.mem_map.1 this
        rw [← h']
        exact h1 e' he'
      refine groupByFig_throws ls _ hk ?_
      obtain ⟨x, hx, hi⟩ := h2
      rcases List.mem_cons.1 hx with rfl | hx
      · obtain ⟨e, he, h'⟩ := List.mem_map.1 ((lookup_key _ _).1 h)
        exact absurd hi (h' ▸ h1 e he)
      · exact ⟨x, hx, hi⟩
    · rw [if_neg h]
      by_cases hi : l.fig ∈ inheritedNames
      · rw [if_pos hi]
      · rw [if_neg hi]
        refine groupByFig_throws ls _ ?_ ?_
        · intro e he
          rcases List.mem_append.1 he with he | he
          · exact h1 e he
          · simp only [List.mem_singleton] at he; subst he; exact hi
        · obtain ⟨x, hx, hx2⟩ := h2
          rcases List.mem_cons.1 hx with rfl | hx
          · exact absurd hx2 hi
          · exact ⟨x, hx, hx2⟩

/-- the row of a code in the summary -/
def rowFor (ls : List ShownLint) (code : Str) : Option SummaryRow :=
  (ls.find? fun l => l.code = code).map fun l => ⟨code, l.msg, (ls.filter fun l => l.code = code).length, false⟩

theorem jsUpdate_vals (k : Str) (o : List (Str × SummaryRow)) (h : (o.lookup k).isSome = true) :
    ((jsUpdate k (fun r => { r with amount := r.amount + 1 }) o).map (·.2.amount)).sum = (o.map (·.2.amount)).sum + 1 := by
  induction o with
  | nil => simp at h
  | cons e o ih =>
    obtain ⟨k0, v⟩ := e
    rw [jsUpdate]
    by_cases h' : k0 = k
    · rw [if_pos h']; simp; omega
    · rw [if_neg h']
      rw [List.lookup_cons, show (k == k0) = false by simpa using fun e : k = k0 => h' e.symm] at h
      have := ih h
      simp only [List.map_cons, List.sum_cons, this]
      omega

theorem groupByCode_spec : ∀ (ls : List ShownLint) (acc : List (Str × SummaryRow)), (acc.map (·.1)).Nodup →
    (∀ l ∈ ls, l.code ∉ inheritedNames) →
    ((groupByCode acc ls).map (·.1)).Nodup ∧
      ((groupByCode acc ls).map (·.2.amount)).sum = (acc.map (·.2.amount)).sum + ls.length ∧
      ∀ k, (groupByCode acc ls).lookup k = match acc.lookup k with
        | some r => some { r with amount := r.amount + (ls.filter fun l => l.code = k).length }
        | none => rowFor ls k
  | [], acc, h1, _ => ⟨h1, by simp [groupByCode], fun k => by rw [groupByCode]; cases acc.lookup k <;> simp [rowFor]⟩
  | l :: ls, acc, h1, h3 => by
    have h4 : ∀ l ∈ ls, l.code ∉ inheritedNames := fun x hx => h3 x (List.mem_cons_of_mem _ hx)
    rw [groupByCode]
    by_cases h : (acc.lookup l.code).isSome = true
    · rw [if_pos h]
      obtain ⟨g1, g2, g3⟩ := groupByCode_spec ls (jsUpdate l.code (fun r => { r with amount := r.amount + 1 }) acc)
        (by rw [jsUpdate_keys]; exact h1) h4
      refine ⟨g1, by rw [g2, jsUpdate_vals _ _ h]; simp; omega, fun k => ?_⟩
      rw [g3, lookup_jsUpdate]
      by_cases hk : k = l.code
      · subst hk
        rw [if_pos rfl]
        obtain ⟨v, hv⟩ := Option.isSome_iff_exists.1 h
        rw [hv]
        simp
        omega
      · have hk' : ¬ l.code = k := fun e => hk e.symm
        rw [if_neg hk, List.filter_cons_of_neg (p := fun x : ShownLint => x.code = k) (by simpa using hk')]
        cases acc.lookup k with
        | some r => rfl
        | none => simp [rowFor, hk']
    · rw [if_neg h, if_neg (h3 l (List.mem_cons_self ..))]
      obtain ⟨g1, g2, g3⟩ := groupByCode_spec ls (acc ++ [(l.code, ⟨l.code, l.msg, 1, false⟩)]) (nodup_snoc h1 h) h4
      refine ⟨g1, by rw [g2]; simp; omega, fun k => ?_⟩
      rw [g3, lookup_snoc _ _ _ _ ((Bool.not_eq_true _).mp h)]
      by_cases hk : k = l.code
      · subst hk
        have : acc.lookup l.code = none := Option.not_isSome_iff_eq_none.1 h
        rw [if_pos rfl, this]
        simp [rowFor]
        omega
      · have hk' : ¬ l.code = k := fun e => hk e.symm
        rw [if_neg hk, List.filter_cons_of_neg (p := fun x : ShownLint => x.code = k) (by simpa using hk')]
        cases acc.lookup k with
        | some r => rfl
        | none => simp [rowFor, hk']

/-! ### the clicks -/

theorem go_map (code : Str) (rows : List SummaryRow) (h : (rows.map (·.code)).Nodup) :
    clickRows.go code rows = rows.map fun r => if r.code = code then { r with selected := !r.selected } else r := by
  induction rows with
  | nil => rfl
  | cons r rows ih =>
    rw [List.map_cons, List.nodup_cons] at h
    rw [clickRows.go, List.map_cons]
    by_cases hr : r.code = code
    · rw [if_pos hr, if_pos hr]
      congr 1
      have : ∀ x ∈ rows, (if x.code = code then { x with selected := !x.selected } else x) = id x := by
        intro x hx
        refine if_neg fun hc => h.1 ?_
        rw [hr, ← hc]
        exact List.mem_map.2 ⟨x, hx, rfl⟩
      rw [List.map_congr_left this, List.map_id]
    · rw [if_neg hr, if_neg hr, ih h.2]

/-- the row with the state which the clicks give it -/
def clicked (clicks : List Click) (r : SummaryRow) : SummaryRow := { r with selected := decide (Chosen clicks r.code) }

theorem chosen_snoc (clicks : List Click) (c : Click) (code : Str) :
    Chosen (clicks ++ [c]) code ↔ match c with
      | .clear => False
      | .toggle d => if code = d then ¬ Chosen clicks code else Chosen clicks code := by
  unfold Chosen
  rw [List.reverse_append]
  simp only [List.reverse_cons, List.reverse_nil, List.nil_append, List.singleton_append]
  cases c with
  | clear => simp
  | toggle d =>
    rw [List.takeWhile_cons_of_pos (by simp), List.count_cons]
    by_cases h : code = d
    · subst h
      simp
      omega
    · have : ¬ d = code := fun e => h e.symm
      simp [h, this]

theorem clicks_rows (rows : List SummaryRow) (h : (rows.map (·.code)).Nodup) (clicks : List Click) :
    clicks.foldl clickRows (rows.map fun r => { r with selected := false }) = rows.map (clicked clicks) := by
  induction clicks using List.reverseRecOn with
  | nil => exact List.map_congr_left fun r _ => by simp [clicked, Chosen]
  | append_singleton clicks c ih =>
    rw [List.foldl_append, ih, List.foldl_cons, List.foldl_nil]
    cases c with
    | clear =>
      rw [clickRows, List.map_map]
      refine List.map_congr_left fun r _ => ?_
      have : ¬ Chosen (clicks ++ [.clear]) r.code := by rw [chosen_snoc]; simp
      simp [clicked, this]
    | toggle d =>
      rw [clickRows, go_map _ _ (by rw [List.map_map]; exact h), List.map_map]
      refine List.map_congr_left fun r _ => ?_
      have := chosen_snoc clicks (.toggle d) r.code
      simp only at this
      by_cases hd : r.code = d
      · rw [if_pos hd] at this
        subst hd
        by_cases hc : Chosen clicks r.code <;> simp [clicked, this, hc]
      · rw [if_neg hd] at this
        simp [clicked, hd, this]

/-! ### reading the file -/

theorem readLint_toJson (l : LintEntry) : readLint l.toJson = some (cardOf l) := by
  obtain ⟨err, fig, msg, row, ctx⟩ := l
  cases row with
  | none => rfl
  | some r => rfl

theorem Lists.read {j : Json} {ls : List LintEntry} (h : Lists j ls) : reportLints j = some (ls.map cardOf) := by
  rw [reportLints, h]
  simp only
  rw [List.mapM_map]
  clear h
  induction ls with
  | nil => rfl
  | cons l ls ih => rw [List.mapM_cons]; simp [readLint_toJson, ih]

theorem reportData_lints {xml : Str → Except Exn Node} {xp : XPathEngine} {j : Json} {html : Str} {d : ReportData} {ls : List LintEntry}
    (h : Lists j ls) (hd : reportData xml xp (jsonDump 0 j) html = some d) : d.lints = ls.map cardOf := by
  rw [reportData, C61_roundtrip, Option.bind_some, h.read] at hd
  cases hx : xml html with
  | error e => rw [hx] at hd; simp at hd
  | ok root =>
    rw [hx] at hd
    simp only at hd
    split at hd
    · cases hd; rfl
    · simp at hd

theorem code_inherited (c : LintErr) : c.code ∉ inheritedNames := by cases c <;> decide

theorem code_index (c : LintErr) : c.code ≠ [] := by cases c <;> simp [LintErr.code]

/-- the rows of the summary: their codes are all different, they belong to the diagnostics -/
theorem summary_rows (ls : List LintEntry) :
    ((lintGroupByCode (ls.map cardOf)).map (·.code)).Nodup ∧
    (∀ r ∈ lintGroupByCode (ls.map cardOf), rowFor (ls.map cardOf) r.code = some r) ∧
    (∀ l ∈ ls, ∃ r ∈ lintGroupByCode (ls.map cardOf), r.code = l.err.code) ∧
    ((lintGroupByCode (ls.map cardOf)).map (·.amount)).sum = ls.length ∧
    (lintGroupByCode (ls.map cardOf)).Pairwise (fun a b => b.amount ≤ a.amount) := by
  obtain ⟨g1, g2, g3⟩ := groupByCode_spec (ls.map cardOf) [] (by simp) (by
    intro l hl
    obtain ⟨x, -, rfl⟩ := List.mem_map.1 hl
    exact code_inherited x.err)
  generalize hg : groupByCode [] (ls.map cardOf) = g at g1 g2 g3
  have hp : (lintGroupByCode (ls.map cardOf)).Perm (g.map (·.2)) := by
    rw [lintGroupByCode, hg]
    exact (stableSort_perm _ _).trans ((jsEntries_perm g).map _)
  have hrow : ∀ e ∈ g, rowFor (ls.map cardOf) e.1 = some e.2 ∧ e.2.code = e.1 := by
    intro e he
    have h1 := lookup_nodup g1 (k := e.1) (v := e.2) he
    rw [g3] at h1
    simp only [List.lookup_nil] at h1
    refine ⟨h1, ?_⟩
    rw [rowFor] at h1
    obtain ⟨x, -, h2⟩ := Option.map_eq_some_iff.1 h1
    rw [← h2]
  have hk : g.map (fun e => e.2.code) = g.map (·.1) := List.map_congr_left fun e he => (hrow e he).2
  refine ⟨?_, ?_, ?_, ?_, ?_⟩
  · rw [(hp.map _).nodup_iff, List.map_map]
    exact hk ▸ g1
  · intro r hr
    obtain ⟨e, he, rfl⟩ := List.mem_map.1 (hp.mem_iff.1 hr)
    rw [(hrow e he).2]
    exact (hrow e he).1
  · intro l hl
    have h1 : (g.lookup l.err.code).isSome = true := by
      rw [g3]
      simp only [List.lookup_nil]
      rw [rowFor, Option.isSome_map, List.find?_isSome]
      exact ⟨cardOf l, List.mem_map.2 ⟨l, hl, rfl⟩, by simp [cardOf]⟩
    obtain ⟨e, he, h2⟩ := List.mem_map.1 ((lookup_key _ _).1 h1)
    exact ⟨e.2, hp.mem_iff.2 (List.mem_map.2 ⟨e, he, rfl⟩), (hrow e he).2.trans h2⟩
  · rw [(hp.map _).sum_nat, List.map_map]
    exact g2.trans (by simp)
  · rw [lintGroupByCode]
    have := stableSort_pairwise (le := fun a b : SummaryRow => decide (b.amount ≤ a.amount))
      (fun a b c h1 h2 => by simp only [decide_eq_true_eq] at *; omega) (fun a b => by simp; omega)
      ((jsEntries (groupByCode [] (ls.map cardOf))).map (·.2))
    exact this.imp (by simp)

/-- **C71** The summary has one row for each code of a diagnostic in the file, with the number of these diagnostics; the rows are
sorted by this number, and their sum is the number of all diagnostics. -/
theorem C71_summary (xml : Str → Except Exn Node) (xp : XPathEngine) (j : Json) (html : Str) (d : ReportData) (ls : List LintEntry)
    (h : Lists j ls) (hd : reportData xml xp (jsonDump 0 j) html = some d) (clicks : List Click) :
    ((summaryRows d.lints clicks).map (·.code)).Nodup ∧
    (∀ c, (∃ r ∈ summaryRows d.lints clicks, r.code = c) ↔ ∃ l ∈ ls, l.err.code = c) ∧
    (∀ r ∈ summaryRows d.lints clicks, r.amount = (ls.filter fun l => l.err.code = r.code).length ∧
      (r.selected = true ↔ Chosen clicks r.code) ∧ ∃ l ∈ ls, l.err.code = r.code ∧ l.msg = r.msg) ∧
    (summaryRows d.lints clicks).Pairwise (fun a b => b.amount ≤ a.amount) ∧ errorSum d.lints = ls.length := by
  have hl := reportData_lints h hd
  obtain ⟨g1, g2, g3, g4, g5⟩ := summary_rows ls
  rw [summaryRows, hl, clicks_rows _ g1]
  have hcode : (lintGroupByCode (ls.map cardOf)).map (fun r => (clicked clicks r).code) = (lintGroupByCode (ls.map cardOf)).map (·.code) := rfl
  have hfound : ∀ r ∈ lintGroupByCode (ls.map cardOf), (∃ l ∈ ls, l.err.code = r.code ∧ l.msg = r.msg) ∧
      r.amount = (ls.filter fun l => l.err.code = r.code).length := by
    intro r hr
    have h1 := g2 r hr
    rw [rowFor] at h1
    obtain ⟨x, h2, h3⟩ := Option.map_eq_some_iff.1 h1
    obtain ⟨l, hl, rfl⟩ := List.mem_map.1 (List.mem_of_find?_eq_some h2)
    have h4 := List.find?_some h2
    have h5 := congrArg SummaryRow.amount h3
    have h6 := congrArg SummaryRow.msg h3
    refine ⟨⟨l, hl, of_decide_eq_true h4, h6⟩, ?_⟩
    rw [← h5, List.filter_map, List.length_map]
    rfl
  refine ⟨?_, fun c => ⟨?_, ?_⟩, ?_, ?_, ?_⟩
  · rw [List.map_map]; exact g1
  · rintro ⟨r, hr, rfl⟩
    obtain ⟨x, hx, rfl⟩ := List.mem_map.1 hr
    obtain ⟨⟨l, h1, h2, -⟩, -⟩ := hfound x hx
    exact ⟨l, h1, h2⟩
  · rintro ⟨l, hl, rfl⟩
    obtain ⟨r, hr, h1⟩ := g3 l hl
    exact ⟨clicked clicks r, List.mem_map.2 ⟨r, hr, rfl⟩, h1⟩
  · intro r hr
    obtain ⟨x, hx, rfl⟩ := List.mem_map.1 hr
    obtain ⟨h1, h2⟩ := hfound x hx
    exact ⟨h2, by simp [clicked], h1⟩
  · rw [List.pairwise_map]
    exact g5
  · exact g4

/-- the diagnostics left by the filter are those wanted -/
theorem filtered_wanted (ls : List LintEntry) (clicks : List Click) :
    filteredLints (ls.map cardOf) (summaryRows (ls.map cardOf) clicks) = (ls.filter fun l => Wanted clicks ls l).map cardOf := by
  obtain ⟨g1, g2, g3, -, -⟩ := summary_rows ls
  rw [summaryRows, clicks_rows _ g1, filteredLints]
  have hmem : ∀ c, c ∈ (((lintGroupByCode (ls.map cardOf)).map (clicked clicks)).filter (·.selected)).map (·.code) ↔
      (∃ l ∈ ls, l.err.code = c) ∧ Chosen clicks c := by
    intro c
    rw [List.mem_map]
    constructor
    · rintro ⟨r, hr, rfl⟩
      rw [List.mem_filter] at hr
      obtain ⟨x, hx, rfl⟩ := List.mem_map.1 hr.1
      have h1 := g2 x hx
      rw [rowFor] at h1
      obtain ⟨y, h2, h3⟩ := Option.map_eq_some_iff.1 h1
      obtain ⟨l, hl, rfl⟩ := List.mem_map.1 (List.mem_of_find?_eq_some h2)
      have h4 := List.find?_some h2
      exact ⟨⟨l, hl, of_decide_eq_true h4⟩, by simpa [clicked] using hr.2⟩
    · rintro ⟨⟨l, hl, rfl⟩, hc⟩
      obtain ⟨r, hr, h1⟩ := g3 l hl
      refine ⟨clicked clicks r, List.mem_filter.2 ⟨List.mem_map.2 ⟨r, hr, rfl⟩, ?_⟩, h1⟩
      simpa [clicked, h1] using hc
  generalize (((lintGroupByCode (ls.map cardOf)).map (clicked clicks)).filter (·.selected)).map (·.code) = codes at hmem
  by_cases hz : codes = []
  · subst hz
    rw [if_neg (by simp)]
    congr 1
    symm
    rw [List.filter_eq_self]
    intro l hl
    simp only [decide_eq_true_eq]
    rintro ⟨m, hm, hc⟩
    have := (hmem m.err.code).2 ⟨⟨m, hm, rfl⟩, hc⟩
    simp at this
  · rw [if_pos (by simpa using hz), List.filter_map]
    congr 1
    refine List.filter_congr fun l hl => ?_
    have hw : Wanted clicks ls l ↔ l.err.code ∈ codes := by
      rw [hmem]
      constructor
      · intro h
        refine ⟨⟨l, hl, rfl⟩, h ?_⟩
        obtain ⟨c, hc⟩ := List.exists_mem_of_ne_nil _ hz
        obtain ⟨⟨m, hm, h1⟩, h2⟩ := (hmem c).1 hc
        exact ⟨m, hm, h1 ▸ h2⟩
      · rintro ⟨-, h⟩ -
        exact h
    rw [show decide (Wanted clicks ls l) = decide (l.err.code ∈ codes) from decide_eq_decide.2 hw]
    show (match codes.find? (fun c => decide (c = l.err.code)) with
      | some c => decide (c ≠ [])
      | none => false) = _
    cases hf : codes.find? (fun c => c = l.err.code) with
    | none =>
      rw [List.find?_eq_none] at hf
      simp only
      symm
      rw [decide_eq_false_iff_not]
      intro hc
      exact hf _ hc (by simp)
    | some c =>
      have h1 := List.find?_some hf
      have h2 := List.mem_of_find?_eq_some hf
      simp only [decide_eq_true_eq] at h1
      subst h1
      simp [h2, code_index]

/-- the names of the properties of `Object.prototype`, which every JavaScript object has -/
def ObjectName (s : Str) : Prop :=
  s = c!"constructor" ∨ s = c!"hasOwnProperty" ∨ s = c!"isPrototypeOf" ∨ s = c!"propertyIsEnumerable" ∨ s = c!"toLocaleString" ∨
  s = c!"toString" ∨ s = c!"valueOf" ∨ s = c!"__proto__" ∨
  ∃ verb ∈ [c!"define", c!"lookup"], ∃ what ∈ [c!"Getter", c!"Setter"], s = c!"__" ++ verb ++ what ++ c!"__"

theorem objectName_iff {s : Str} : ObjectName s ↔ s ∈ inheritedNames := by
  simp only [ObjectName, inheritedNames, List.mem_cons, List.not_mem_nil, or_false, exists_eq_or_imp, exists_eq_left, List.cons_append,
    List.nil_append]
  tauto

/-- **C71**, what holds of it for figures whose id is not the name of a property which all JavaScript objects have: whatever is
clicked on the report page, each diagnostic of the JSON file which is wanted is shown, once, under the id of its figure, in the order
of the file, and no other diagnostic is shown. -/
theorem C71_diagnostics_partial (xml : Str → Except Exn Node) (xp : XPathEngine) (j : Json) (html : Str) (d : ReportData)
    (ls : List LintEntry) (h : Lists j ls) (hd : reportData xml xp (jsonDump 0 j) html = some d) (clicks : List Click)
    (hn : ∀ l ∈ ls, Wanted clicks ls l → ¬ ObjectName l.fig) :
    ∃ as : List Article, articles d clicks = some as ∧ (as.map (·.heading)).Nodup ∧
      (∀ f, (∃ a ∈ as, a.heading = f) ↔ ∃ l ∈ ls, l.fig = f ∧ Wanted clicks ls l) ∧
      ∀ a ∈ as, a.cards = (ls.filter fun l => l.fig = a.heading ∧ Wanted clicks ls l).map cardOf := by
  have hl := reportData_lints h hd
  obtain ⟨o, g1, g2, g3, g4⟩ := groupByFig_spec ((ls.filter fun l => Wanted clicks ls l).map cardOf) [] (by simp) (by simp) (by
    intro x hx
    obtain ⟨l, hl, rfl⟩ := List.mem_map.1 hx
    rw [List.mem_filter] at hl
    exact fun hi => hn l hl.1 (by simpa using hl.2) (objectName_iff.2 hi))
  have hg : ∀ e ∈ o, e.2 = (ls.filter fun l => l.fig = e.1 ∧ Wanted clicks ls l).map cardOf := by
    intro e he
    have h1 := g4 e.1
    rw [lookup_nodup g2 (k := e.1) (v := e.2) he] at h1
    simp only [Option.getD_some, List.lookup_nil, Option.getD_none, List.nil_append] at h1
    rw [h1, List.filter_map, List.filter_filter]
    congr 1
    refine List.filter_congr fun l _ => ?_
    rw [Bool.decide_and]
    rfl
  have hp := jsEntries_perm o
  have hall : (jsEntries o).filter (fun e => e.2.length > 0) = jsEntries o := by
    rw [List.filter_eq_self]
    intro e he
    have := g3 e (hp.mem_iff.1 he)
    simpa [List.length_pos_iff] using this
  refine ⟨(jsEntries o).map fun e => ⟨e.1, shownFigure d.html e.1, e.2⟩, ?_, ?_, ?_, ?_⟩
  · rw [articles, hl, filtered_wanted, g1, Option.map_some, hall]
  · rw [List.map_map]
    exact ((hp.map _).nodup_iff).2 g2
  · intro f
    constructor
    · rintro ⟨a, ha, rfl⟩
      obtain ⟨e, he, rfl⟩ := List.mem_map.1 ha
      have h1 := g3 e (hp.mem_iff.1 he)
      rw [hg e (hp.mem_iff.1 he)] at h1
      have h2 : (ls.filter fun l => l.fig = e.1 ∧ Wanted clicks ls l) ≠ [] := fun h => h1 (by rw [h]; rfl)
      obtain ⟨l, hl⟩ := List.exists_mem_of_ne_nil _ h2
      rw [List.mem_filter] at hl
      exact ⟨l, hl.1, by simpa using hl.2⟩
    · rintro ⟨l, hl, rfl, hw⟩
      have h1 : (o.lookup l.fig).isSome = true := by
        have h2 := g4 l.fig
        have h3 : cardOf l ∈ (o.lookup l.fig).getD [] := by
          rw [h2]
          refine List.mem_append_right _ (List.mem_filter.2 ⟨List.mem_map.2 ⟨l, List.mem_filter.2 ⟨hl, by simpa using hw⟩, rfl⟩, ?_⟩)
          simp [cardOf]
        cases hq : o.lookup l.fig with
        | none => rw [hq] at h3; simp at h3
        | some v => rfl
      obtain ⟨e, he, h2⟩ := List.mem_map.1 ((lookup_key _ _).1 h1)
      exact ⟨_, List.mem_map.2 ⟨e, hp.mem_iff.2 he, rfl⟩, h2⟩
  · intro a ha
    obtain ⟨e, he, rfl⟩ := List.mem_map.1 ha
    exact hg e (hp.mem_iff.1 he)

/-- **C71** is false for such names: if one wanted diagnostic is about such a figure, no diagnostic is shown at all. -/
theorem C71_inherited_false (xml : Str → Except Exn Node) (xp : XPathEngine) (j : Json) (html : Str) (d : ReportData)
    (ls : List LintEntry) (h : Lists j ls) (hd : reportData xml xp (jsonDump 0 j) html = some d) (clicks : List Click)
    (l : LintEntry) (hm : l ∈ ls) (hw : Wanted clicks ls l) (hi : ObjectName l.fig) : articles d clicks = none := by
  rw [articles, reportData_lints h hd, filtered_wanted, groupByFig_throws _ [] (by simp), Option.map_none]
  exact ⟨cardOf l, List.mem_map.2 ⟨l, List.mem_filter.2 ⟨hm, by simpa using hw⟩, rfl⟩, objectName_iff.1 hi⟩

/-! ### the order of the articles -/

theorem groupByFig_order : ∀ (ls : List ShownLint) (acc o : List (Str × List ShownLint)), groupByFig acc ls = some o →
    ∃ news, o.map (·.1) = acc.map (·.1) ++ news ∧ (∀ s ∈ news, s ∉ acc.map (·.1)) ∧
      ∀ pre s post, news = pre ++ s :: post → ∃ b l a, ls = b ++ l :: a ∧ l.fig = s ∧ ∀ x ∈ b, x.fig ∉ s :: post
  | [], acc, o, h => by
    rw [groupByFig] at h
    cases h
    exact ⟨[], by simp, by simp, fun pre s post h => by simp at h⟩
  | l :: ls, acc, o, h => by
    rw [groupByFig] at h
    by_cases hf : (acc.lookup l.fig).isSome = true
    · rw [if_pos hf] at h
      obtain ⟨news, h1, h2, h3⟩ := groupByFig_order ls _ o h
      rw [jsUpdate_keys] at h1 h2
      refine ⟨news, h1, h2, fun pre s post he => ?_⟩
      obtain ⟨b, l', a, rfl, g2, g3⟩ := h3 pre s post he
      refine ⟨l :: b, l', a, rfl, g2, fun x hx => ?_⟩
      rcases List.mem_cons.1 hx with rfl | hx
      · exact fun hm => h2 x.fig (by rw [he]; exact List.mem_append_right _ hm) ((lookup_key _ _).1 hf)
      · exact g3 x hx
    · rw [if_neg hf] at h
      by_cases hi : l.fig ∈ inheritedNames
      · rw [if_pos hi] at h; cases h
      · rw [if_neg hi] at h
        obtain ⟨news, h1, h2, h3⟩ := groupByFig_order ls _ o h
        simp only [List.map_append, List.map_cons, List.map_nil, List.append_assoc, List.singleton_append] at h1
        refine ⟨l.fig :: news, h1, ?_, ?_⟩
        · intro s hs
          rcases List.mem_cons.1 hs with rfl | hs
          · exact fun hm => hf ((lookup_key _ _).2 hm)
          · exact fun hm => h2 s hs (by rw [List.map_append]; exact List.mem_append_left _ hm)
        · intro pre s post he
          cases pre with
          | nil =>
            cases he
            exact ⟨[], l, ls, rfl, rfl, by simp⟩
          | cons p pre =>
            have he' : news = pre ++ s :: post := (List.cons.inj he).2
            obtain ⟨b, l', a, rfl, g2, g3⟩ := h3 pre s post he'
            refine ⟨l :: b, l', a, rfl, g2, fun x hx => ?_⟩
            rcases List.mem_cons.1 hx with rfl | hx
            · exact fun hm => h2 x.fig (by rw [he']; exact List.mem_append_right _ hm) (by simp)
            · exact g3 x hx

theorem groupByFig_ok {ls : List ShownLint} {o : List (Str × List ShownLint)} (h : groupByFig [] ls = some o) :
    (o.map (·.1)).Nodup ∧ ∀ e ∈ o, e.2 ≠ [] := by
  have hi : ∀ l ∈ ls, l.fig ∉ inheritedNames := fun l hl hm => by
    rw [groupByFig_throws ls [] (by simp) ⟨l, hl, hm⟩] at h
    cases h
  obtain ⟨o', g1, g2, g3, -⟩ := groupByFig_spec ls [] (by simp) (by simp) hi
  rw [h] at g1
  cases g1
  exact ⟨g2, g3⟩

theorem numeralValue_natStr (n : Nat) : numeralValue (natStr n) = n := by
  rw [numeralValue, natStr, List.foldl_reverse]
  exact natDigits_value (n + 1) n (by omega)

theorem arrayIndex_some {k : Str} {n : Nat} : arrayIndex k = some n ↔ k = natStr n ∧ n < 4294967295 := by
  unfold arrayIndex
  constructor
  · intro h
    by_cases hc : natStr (numeralValue k) = k ∧ numeralValue k < 4294967295
    · rw [if_pos hc] at h; cases h; exact ⟨hc.1.symm, hc.2⟩
    · rw [if_neg hc] at h; cases h
  · rintro ⟨rfl, h⟩
    rw [numeralValue_natStr, if_pos ⟨rfl, h⟩]

/-- **C71**, the order of the figures: first those whose id is a number, in ascending order, then the others, in the order in which they
are first mentioned by the diagnostics shown. -/
theorem C71_order (xml : Str → Except Exn Node) (xp : XPathEngine) (j : Json) (html : Str) (d : ReportData)
    (ls : List LintEntry) (h : Lists j ls) (hd : reportData xml xp (jsonDump 0 j) html = some d) (clicks : List Click)
    (as : List Article) (ha : articles d clicks = some as) :
    ∃ (nums : List Nat) (others : List Str), as.map (·.heading) = nums.map natStr ++ others ∧ nums.Pairwise (· < ·) ∧ (∀ n ∈ nums, n < 4294967295) ∧
      (∀ s ∈ others, ∀ n < 4294967295, s ≠ natStr n) ∧
      ∀ pre s post, others = pre ++ s :: post →
        ∃ b l a, ls.filter (fun l => Wanted clicks ls l) = b ++ l :: a ∧ l.fig = s ∧ ∀ x ∈ b, x.fig ∉ s :: post := by
  rw [articles, reportData_lints h hd, filtered_wanted] at ha
  obtain ⟨o, g1, rfl⟩ := Option.map_eq_some_iff.1 ha
  obtain ⟨news, k1, -, k3⟩ := groupByFig_order _ _ _ g1
  simp only [List.map_nil, List.nil_append] at k1
  obtain ⟨hnd, hne⟩ := groupByFig_ok g1
  have hp := jsEntries_perm o
  have hall : (jsEntries o).filter (fun e => e.2.length > 0) = jsEntries o := by
    rw [List.filter_eq_self]
    intro e he
    have := hne e (hp.mem_iff.1 he)
    simpa [List.length_pos_iff] using this
  rw [hall, List.map_map]
  set srt := stableSort (fun a b => (arrayIndex a.1).getD 0 ≤ (arrayIndex b.1).getD 0) (o.filter fun e => (arrayIndex e.1).isSome) with hsrt
  have hsp : srt.Perm (o.filter fun e => (arrayIndex e.1).isSome) := stableSort_perm _ _
  have hsome : ∀ e ∈ srt, arrayIndex e.1 = some ((arrayIndex e.1).getD 0) := by
    intro e he
    have := (List.mem_filter.1 (hsp.mem_iff.1 he)).2
    cases hq : arrayIndex e.1 with
    | none => rw [hq] at this; cases this
    | some n => rfl
  refine ⟨srt.map fun e => (arrayIndex e.1).getD 0, (o.filter fun e => (arrayIndex e.1).isNone).map (·.1), ?_, ?_, ?_, ?_, ?_⟩
  · rw [jsEntries, List.map_append, List.map_map, ← hsrt]
    congr 1
    refine List.map_congr_left fun e he => ?_
    exact (arrayIndex_some.1 (hsome e he)).1
  · rw [List.pairwise_map]
    have h1 : srt.Pairwise fun a b => (arrayIndex a.1).getD 0 ≤ (arrayIndex b.1).getD 0 := by
      have := stableSort_pairwise (le := fun a b : Str × List ShownLint => decide ((arrayIndex a.1).getD 0 ≤ (arrayIndex b.1).getD 0))
        (by intro a b c; simp only [decide_eq_true_eq]; omega) (by intro a b; simp only [Bool.or_eq_true, decide_eq_true_eq]; omega)
        (o.filter fun e => (arrayIndex e.1).isSome)
      simpa using this
    have h2 : srt.Pairwise fun a b => a.1 ≠ b.1 := by
      have : (srt.map (·.1)).Nodup := ((hsp.map _).nodup_iff).2 ((List.filter_sublist.map _).nodup hnd)
      exact List.pairwise_map.1 this
    refine ((h1.and h2).imp_of_mem ?_)
    intro a b ha hb ⟨hab, hab2⟩
    refine lt_of_le_of_ne hab fun he => hab2 ?_
    rw [(arrayIndex_some.1 (hsome a ha)).1, (arrayIndex_some.1 (hsome b hb)).1, he]
  · intro n hn
    obtain ⟨e, he, rfl⟩ := List.mem_map.1 hn
    exact (arrayIndex_some.1 (hsome e he)).2
  · intro s hs n hn he
    obtain ⟨e, h1, rfl⟩ := List.mem_map.1 hs
    have h2 := (List.mem_filter.1 h1).2
    rw [arrayIndex_some.2 ⟨he, hn⟩] at h2
    cases h2
  · intro pre s post he
    have : (o.filter fun e => (arrayIndex e.1).isNone).map (·.1) = news.filter fun s => (arrayIndex s).isNone := by
      rw [← k1, List.filter_map]; rfl
    rw [this] at he
    obtain ⟨l1, l2, e1, e2, e3⟩ := List.filter_eq_append_iff.1 he
    obtain ⟨m1, m2, e4, -, -, e5⟩ := List.filter_eq_cons_iff.1 e3
    obtain ⟨b, l, a, f1, f2, f3⟩ := k3 (l1 ++ m1) s m2 (by rw [e1, e4]; simp)
    rw [List.map_eq_append_iff] at f1
    obtain ⟨b', la, f1, rfl, f4⟩ := f1
    obtain ⟨l', a', rfl, rfl, -⟩ := List.map_eq_cons_iff.1 f4
    refine ⟨b', l', a', f1, f2, fun x hx hm => f3 (cardOf x) (List.mem_map_of_mem hx) ?_⟩
    rcases List.mem_cons.1 hm with h | h
    · rw [show (cardOf x).fig = x.fig from rfl, h]; exact List.mem_cons_self
    · refine List.mem_cons_of_mem _ ?_
      rw [← e5] at h
      exact (List.mem_filter.1 h).1


/-! ### the report which the server shows -/

section
variable [Uni]

theorem runJson_ok {t : Tools} {o : Opts} {w w' : Files} {spec p : FPath} (h : runJson t o w spec = (w', .ok p)) :
    ∃ text root j, (w.set ⟨o.out, baseName spec.name ++ c!".json"⟩ []) spec = some text ∧ t.xml text = .ok root ∧ IsModel o root j ∧
      w' = (w.set ⟨o.out, baseName spec.name ++ c!".json"⟩ []).set ⟨o.out, baseName spec.name ++ c!".json"⟩ (jsonDump 0 j) := by
  rw [runJson] at h
  obtain ⟨h1, h2⟩ := Prod.mk.inj h
  rcases run_cases o (readHtml t (w.set ⟨o.out, baseName spec.name ++ c!".json"⟩ []) spec) with ⟨root, j, c1, c2, c3, c4⟩ | ⟨-, e, c2⟩
  · rw [readHtml] at c1
    cases ht : (w.set ⟨o.out, baseName spec.name ++ c!".json"⟩ []) spec with
    | none => rw [ht] at c1; cases c1
    | some text =>
      rw [ht] at c1
      exact ⟨text, root, j, rfl, c1, c2, by rw [← h1, c4]⟩
  · rw [c2] at h2; cases h2

/-- the two files of a report belong together -/
theorem report_files {t : Tools} {name content json html : Str} (hj : jsonReport t name content = some json)
    (hh : htmlReport t name content = some html) :
    ∃ root j, t.xml html = .ok root ∧ IsModel ⟨[], true, [], false⟩ root j ∧ json = jsonDump 0 j := by
  rw [jsonReport] at hj
  rw [htmlReport] at hh
  cases hr : runAlone t name content with
  | mk w' r =>
    cases r with
    | error e => rw [hr] at hj; cases hj
    | ok p =>
      rw [hr] at hj hh
      have hp : p = ⟨[], baseName name ++ c!".json"⟩ := (runSpec_name hr).1
      have hb := runAlone_base hr (by
        rw [hp] at hh ⊢
        simp only at hh
        rw [hh]; simp)
      have hne : (⟨[], baseName name ++ c!".html"⟩ : FPath) ≠ ⟨[], baseName name ++ c!".json"⟩ := by
        intro h; exact ext_ne (s := c!".htm") (t := c!".jso") (by decide) (FPath.mk.inj h).2
      subst hp
      simp only [withSuffix_json hb] at hj hh
      rw [runAlone, runSpec] at hr
      by_cases hs : suffix name = c!".docx"
      · rw [if_pos hs] at hr
        simp only at hr
        cases hc : convertWord t (fun f => if f = ⟨[], name⟩ then some content else none) ⟨[], name⟩ with
        | error e => rw [hc] at hr; cases hr
        | ok pc =>
          obtain ⟨page, css⟩ := pc
          rw [hc] at hr
          have e3 : baseName (baseName name ++ c!".html") = baseName name := baseName_of (baseName name) c!"html" hb (by decide) (by decide)
          have hne2 : (⟨[], baseName name ++ c!".html"⟩ : FPath) ≠ ⟨[], baseName name ++ c!".css"⟩ := by
            intro h; exact ext_ne (s := c!".htm") (t := c!".cs") (by decide) (FPath.mk.inj h).2
          obtain ⟨text, root, j, k1, k2, k3, k4⟩ := runJson_ok hr
          simp only [e3] at k1 k4
          rw [Files.set_other _ _ hne] at k1
          rw [k4] at hj hh
          rw [Files.set_other _ _ hne, Files.set_other _ _ hne, k1] at hh
          rw [Files.set_same] at hj
          cases hj
          cases hh
          exact ⟨root, j, k2, k3, rfl⟩
      · rw [if_neg hs] at hr
        obtain ⟨text, root, j, k1, k2, k3, k4⟩ := runJson_ok hr
        simp only at k1 k4
        rw [k4] at hj hh
        rw [Files.set_other _ _ hne, Files.set_other _ _ hne] at hh
        have hname : (⟨[], baseName name ++ c!".html"⟩ : FPath) = ⟨[], name⟩ := by
          by_contra hc
          rw [if_neg hc] at hh
          cases hh
        rw [if_pos hname] at hh
        rw [← hname, Files.set_other _ _ hne, if_pos rfl] at k1
        rw [Files.set_same] at hj
        cases hj
        cases hh
        cases k1
        exact ⟨root, j, k2, k3, rfl⟩

omit [Uni] in
theorem lists_model (key rev : Str) (ls : List LintEntry) (ents : List Json) :
    Lists (modelJson (openedInfo key rev ++ [(c!"lint", .arr (ls.map LintEntry.toJson))]) ents) ls := rfl

/-- **C71**, for the page which the server makes, under the conditions of C55: whatever the history, the page for a checksum is made from the
diagnostics of the run on a document with this checksum, and from the HTML text of this document. -/
theorem C71_served_partial (env : SrvEnv) (xp : XPathEngine) (files : Files) (dirs : List Str) (hf : ∀ f, files f ≠ none → f.dir ∈ dirs)
    (h : List SrvEv) (plain : ∀ x ∈ posted h, PlainName x.1)
    (distinct : ∀ x ∈ posted h, ∀ y ∈ posted h, baseName x.1 = baseName y.1 → x = y) (hash : Str) (d : ReportData)
    (hd : serveReport env xp (srvRun env (srvStart env files dirs) h) hash = .ok d) :
    ∃ x ∈ posted h, md5sum env.hasher x.2 chunkBytes = hash ∧ ∃ html root key rev j,
      htmlReport env.tools x.1 x.2 = some html ∧ env.tools.xml html = .ok root ∧ Stated root key rev ∧ (runOf true root key rev).out = .ok () ∧
      Lists j (allDiagnostics (runOf true root key rev).evs) ∧ reportData env.tools.xml xp (jsonDump 0 j) html = some d := by
  have p := pinv_run (ginv_start env files dirs hf) (pinv_start env files dirs (posted h)) h (fun x hx => ⟨hx, plain x hx⟩)
  generalize srvRun env (srvStart env files dirs) h = s at p hd
  rw [serveReport] at hd
  cases hq : lookupGet s.lookup hash with
  | none => rw [hq] at hd; cases hd
  | some q =>
    obtain ⟨n, c, h1, h2, h3, h4, ⟨n1, c1, jt, k1, k2, k3, k4⟩, n2, c2, ht, m1, m2, m3, m4⟩ := p.cached _ (lookupGet_some hq)
    have h4 : q = ⟨env.cache, baseName n ++ c!".json"⟩ := h4
    subst h4
    have e1 := distinct _ k1 _ h1 k2
    have e2 := distinct _ m1 _ h1 m2
    cases e1
    cases e2
    simp only [hq, k4, withSuffix_json h3, m4] at hd
    obtain ⟨root, j, r1, ⟨key, rev, r2, r3, r4⟩, r5⟩ := report_files k3 m3
    cases hr : reportData env.tools.xml xp jt ht with
    | none => rw [hr] at hd; cases hd
    | some d' =>
      rw [hr] at hd
      cases hd
      refine ⟨(n, c), h1, h2.symm, ht, root, key, rev, j, m3, r1, r2, r3, ?_, by rw [← r5]; exact hr⟩
      have hall : (allDiagnostics (runOf true root key rev).evs).filter (fun l => ∀ c ∈ ([] : List LintErr), l.err.code ≠ c.code) =
          allDiagnostics (runOf true root key rev).evs := by
        rw [List.filter_eq_self]; simp
      rw [r4]
      simp only [hall]
      exact lists_model ..
end

end Spex
