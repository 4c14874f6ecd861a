import Verif.Lemmas.Figure
import Verif.Lemmas.Size
/-
Two runs of the same figure: with different fuel, and with and without skip on error.
-/
set_option autoImplicit false
namespace Spex
variable [Uni]

/-- whenever `x` succeeds, or `b` holds, `y` does the same as `x` -/
def Le {α : Type} (b : Bool) (x y : M α) : Prop := ∀ f, (b = true ∨ ∃ a, (x f).out = .ok a) → y f = x f

namespace Le
variable {α β : Type} {b : Bool}

omit [Uni] in
theorem refl (x : M α) : Le b x x := fun _ _ => rfl

omit [Uni] in
theorem of_eq {x y : M α} (h : y = x) : Le b x y := fun _ _ => by rw [h]

omit [Uni] in
theorem bind {x y : M α} {k k' : α → M β} (hx : Le b x y) (hk : ∀ a, (∃ f, (x f).out = .ok a) → Le b (k a) (k' a)) :
    Le b (x >>= k) (y >>= k') := by
  intro f hf
  rcases hf with hb | ⟨c, hc⟩
  · rw [M.bind_run, M.bind_run, hx f (.inl hb)]
    cases ho : (x f).out with
    | error e => rfl
    | ok a => simp only [hk a ⟨f, ho⟩ _ (.inl hb)]
  · obtain ⟨a, h1, h2, -, -⟩ := M.bind_out_ok hc
    rw [M.bind_run, M.bind_run, hx f (.inr ⟨a, h1⟩), h1]
    simp only [hk a ⟨f, h1⟩ _ (.inr ⟨c, h2⟩)]

omit [Uni] in
theorem ite {c : Prop} [Decidable c] {x y x' y' : M α} (h1 : c → Le b x x') (h2 : ¬ c → Le b y y') :
    Le b (if c then x else y) (if c then x' else y') := by
  split
  · exact h1 ‹_›
  · exact h2 ‹_›
end Le

/-- the two recursive occurrences, on tables smaller than `N` -/
def ParseLe (b : Bool) (N : Nat) (p q : ParseFn) : Prop := ∀ m t, t.size < N → Le b (p m t) (q m t)

section
variable {b : Bool} {tbl : Node} {p q : ParseFn} (hp : ParseLe b tbl.size p q)
include hp

theorem le_subTables (m : EntityMeta) {row : Row} (hr : row ∈ (rowIter tbl).1) {td : Node} (htd : td ∈ row.node.childs tTd)
    (ts : List Node) (hts : ∀ t ∈ ts, t ∈ td.childs tTable) : Le b (subTables p m ts) (subTables q m ts) := by
  induction ts with
  | nil => exact .refl _
  | cons t ts ih =>
    exact .bind (hp m t (nested_smaller hr htd (hts t (List.mem_cons_self ..)))) (fun _ _ =>
      ih (fun x hx => hts x (List.mem_cons_of_mem _ hx)))

theorem le_structRow (fig : Str) (h : ErrHandler) (cols : Cols) (dyn : Bool) (row : Row) (hr : row ∈ (rowIter tbl).1) :
    Le b (structRow p fig h cols dyn row) (structRow q fig h cols dyn row) := by
  unfold structRow
  split
  · exact .refl _
  · refine .ite (fun _ => .refl _) (fun _ => .bind (.refl _) (fun r _ => .bind (.refl _) (fun l _ => .bind (.refl _) ?_)))
    rintro content ⟨f, hf⟩
    refine .bind (le_subTables hp _ hr ?_ _ (fun t h => h)) (fun _ _ => .refl _)
    rw [M.ofExcept_run] at hf
    unfold req at hf
    split at hf
    · rename_i hn
      simp only [Except.ok.injEq] at hf
      exact hf ▸ nthChild_mem hn
    · simp at hf

theorem le_structRows (fig : Str) (h : ErrHandler) (cols : Cols) (err : Option Exn) (rows : List Row)
    (hr : ∀ row ∈ rows, row ∈ (rowIter tbl).1) (dyn : Bool) :
    Le b (structRows p fig h cols err dyn rows) (structRows q fig h cols err dyn rows) := by
  induction rows generalizing dyn with
  | nil => exact .refl _
  | cons row rows ih =>
    have ih := fun dyn => ih (fun r h => hr r (List.mem_cons_of_mem _ h)) dyn
    unfold structRows
    refine .ite (fun _ => ih _) (fun _ => .bind (le_structRow hp fig h cols dyn row (hr row (List.mem_cons_self ..))) ?_)
    intro o _
    split
    · exact .refl _
    · exact ih _
    · exact .bind (ih _) (fun _ _ => .refl _)

theorem le_valueRow (ov : List ((Str × Str) × Str)) (fig : Str) (cols : Cols) (row : Row) (hr : row ∈ (rowIter tbl).1) :
    Le b (valueRow p ov fig cols row) (valueRow q ov fig cols row) := by
  unfold valueRow
  split
  · rename_i rowVal rowData h1 h2
    refine .ite (fun _ => .refl _) (fun _ => .bind (.refl _) (fun l _ => .bind ?_ (fun _ _ => .refl _)))
    exact le_subTables hp _ hr (nthChild_mem h2) _ (fun t h => h)
  · exact .refl _

theorem le_valueRows (ov : List ((Str × Str) × Str)) (fig : Str) (cols : Cols) (err : Option Exn) (rows : List Row)
    (hr : ∀ row ∈ rows, row ∈ (rowIter tbl).1) :
    Le b (valueRows p ov fig cols err rows) (valueRows q ov fig cols err rows) := by
  induction rows with
  | nil => exact .refl _
  | cons row rows ih =>
    have ih := ih (fun r h => hr r (List.mem_cons_of_mem _ h))
    unfold valueRows
    refine .ite (fun _ => ih) (fun _ => .bind (le_valueRow hp ov fig cols row (hr row (List.mem_cons_self ..))) ?_)
    intro o _
    split
    · exact .refl _
    · exact ih
    · exact .bind ih (fun _ _ => .refl _)

omit hp in
/-- the further figure consists of the rows after a row -/
theorem structRows_extra (fig : Str) (h : ErrHandler) (cols : Cols) (err : Option Exn) (rows : List Row) (dyn f : Bool)
    (fs : List StructField) (x : EntityMeta × Node)
    (ho : (structRows p fig h cols err dyn rows f).out = .ok (fs, some x)) :
    ∃ row ∈ rows, x.2 = .elem tTable [] row.following := by
  induction rows generalizing dyn f fs with
  | nil =>
    unfold structRows at ho
    split at ho
    · simp [M.pure_run] at ho
    · simp [M.raise_run] at ho
  | cons row rows ih =>
    unfold structRows at ho
    by_cases hth : containsTh row.node = true
    · rw [if_pos hth] at ho
      obtain ⟨r, hr, hx⟩ := ih _ _ _ ho
      exact ⟨r, List.mem_cons_of_mem _ hr, hx⟩
    · rw [if_neg hth] at ho
      obtain ⟨o, h1, h2, -, -⟩ := M.bind_out_ok ho
      cases o with
      | stop extra =>
        simp only [M.pure_run, Except.ok.injEq, Prod.mk.injEq] at h2
        refine ⟨row, List.mem_cons_self .., ?_⟩
        rw [h2.2] at h1
        clear ih h2 ho
        unfold structRow at h1
        cases hx : extractFields cols row.node with
        | error e =>
          rw [hx] at h1
          simp only at h1
          by_cases h1' : startsWith (lower row.node.toText) ELLIPSIS = true
          · rw [if_pos h1'] at h1; simp [M.pure_run] at h1
          rw [if_neg h1'] at h1
          by_cases h2' : startsWith (lower row.node.toText) c!"note" = true
          · rw [if_pos h2'] at h1; simp [M.pure_run] at h1
          rw [if_neg h2'] at h1
          obtain ⟨e, he⟩ | he | he : (∃ e, rowErrHandler h row = .stop e) ∨ rowErrHandler h row = .cont ∨ rowErrHandler h row = .raise := by
            cases rowErrHandler h row
            · exact .inl ⟨_, rfl⟩
            · exact .inr (.inl rfl)
            · exact .inr (.inr rfl)
          · rw [he] at h1
            simp only [M.pure_run, Except.ok.injEq, RowOut.stop.injEq] at h1
            subst h1
            unfold rowErrHandler at he
            split at he
            · split at he <;> simp at he
            · split at he <;> simp at he
            · split at he
              · simp at he
              · simp only [RowErrPolicy.stop.injEq, Option.some.injEq] at he
                rw [← he]
          · rw [he] at h1; simp [M.pure_run] at h1
          · rw [he] at h1; simp [M.raise_run] at h1
        | ok y =>
          obtain ⟨rangeF, contentF, labelF⟩ := y
          rw [hx] at h1
          simp only at h1
          by_cases hsp : (isSpecialCase rangeF || isSpecialCase labelF || isSpecialCase contentF) = true
          · rw [if_pos hsp] at h1
            by_cases hs : isSpecialCase rangeF = true
            · rw [if_pos hs] at h1; simp [M.pure_run] at h1
            · rw [if_neg hs] at h1
              obtain ⟨r, -, h2, -, -⟩ := M.bind_out_ok h1
              cases hh : handleSpecialCase contentF r <;> rw [hh] at h2 <;> simp [M.pure_run] at h2
          · rw [if_neg hsp] at h1
            obtain ⟨r, -, h2, -, -⟩ := M.bind_out_ok h1
            obtain ⟨l, -, h2, -, -⟩ := M.bind_out_ok h2
            obtain ⟨c, -, h2, -, -⟩ := M.bind_out_ok h2
            obtain ⟨_, -, h2, -, -⟩ := M.bind_out_ok h2
            simp [M.pure_run] at h2
      | skip =>
        obtain ⟨r, hr, hx⟩ := ih _ _ _ h2
        exact ⟨r, List.mem_cons_of_mem _ hr, hx⟩
      | field f' =>
        obtain ⟨⟨fs', extra⟩, h3, h4, -, -⟩ := M.bind_out_ok h2
        simp only [M.pure_run, Except.ok.injEq, Prod.mk.injEq] at h4
        obtain ⟨r, hr, hx⟩ := ih _ _ _ (by rw [h3, h4.2])
        exact ⟨r, List.mem_cons_of_mem _ hr, hx⟩

theorem le_structCall (c : StructCls) (m : EntityMeta) (cols : Cols) :
    Le b (structCall p c m cols tbl) (structCall q c m cols tbl) := by
  unfold structCall
  refine .bind (le_structRows hp _ _ _ _ _ (fun r h => h) _) ?_
  rintro ⟨fs, extra⟩ ⟨f, hf⟩
  refine .bind (.refl _) (fun _ _ => .bind (.refl _) (fun _ _ => ?_))
  cases extra with
  | none => exact .refl _
  | some x =>
    obtain ⟨row, hrow, hx⟩ := structRows_extra _ _ _ _ _ _ _ _ _ hf
    exact hp _ _ (by rw [hx]; exact following_smaller hrow)

theorem le_valueCall (ov : List ((Str × Str) × Str)) (m : EntityMeta) (cols : Cols) :
    Le b (valueCall p ov m cols tbl) (valueCall q ov m cols tbl) := by
  unfold valueCall
  exact .bind (le_valueRows hp _ _ _ _ _ (fun r h => h)) (fun _ _ => .refl _)

theorem le_onParseFig (env env' : Env) (h : if b then env' = env else env.skip = false ∧ env' = { env with skip := true })
    (m : EntityMeta) : Le b (onParseFig env p m tbl) (onParseFig env' q m tbl) := by
  have hov : env'.overrides = env.overrides ∧ env'.labelOverrides = env.labelOverrides := by
    cases b with
    | true => simp only [if_true] at h; rw [h]; exact ⟨rfl, rfl⟩
    | false => simp only [Bool.false_eq_true, if_false] at h; rw [h.2]; exact ⟨rfl, rfl⟩
  have hcall : ∀ c cols, Le b (callExtractor env p c m cols tbl) (callExtractor env' q c m cols tbl) := by
    intro c cols
    unfold callExtractor
    cases c with
    | struct c => exact le_structCall hp c m cols
    | value => simp only; rw [hov.2]; exact le_valueCall hp _ m cols
  have hrun : ∀ hdrs c mapping, Le b (runExtractor env p m tbl hdrs c mapping) (runExtractor env' q m tbl hdrs c mapping) := by
    intro hdrs c mapping
    unfold runExtractor
    refine .bind (.refl _) (fun cols _ => ?_)
    intro f hf
    rw [M.tryCatch_run, M.tryCatch_run]
    cases b with
    | true =>
      simp only [if_true] at h
      rw [hcall c cols f (.inl rfl), h]
    | false =>
      simp only [Bool.false_eq_true, if_false] at h
      rcases hf with hb | ⟨a, ha⟩
      · simp at hb
      · rw [M.tryCatch_run] at ha
        cases ho : (callExtractor env p c m cols tbl f).out with
        | ok a' => rw [hcall c cols f (.inr ⟨a', ho⟩), ho]
        | error e =>
          rw [ho] at ha
          have : ∀ f, ∃ e', (onFigError env m e f).out = .error e' := by
            intro f
            cases hr : (onFigError env m e f).out with
            | error e' => exact ⟨e', rfl⟩
            | ok a' =>
              exfalso
              simp only [onFigError, h.1, Bool.not_false, Bool.or_true, if_true] at hr
              obtain ⟨u, -, h2, -, -⟩ := M.bind_out_ok hr
              by_cases hu : (!u) = true
              · simp only [if_pos hu] at h2
                obtain ⟨_, -, h2, -, -⟩ := M.bind_out_ok h2
                obtain ⟨_, -, h2, -, -⟩ := M.bind_out_ok h2
                simp [M.raise_run] at h2
              · simp only [if_neg hu] at h2
                simp [M.raise_run] at h2
          obtain ⟨e', he'⟩ := this (callExtractor env p c m cols tbl f).flag
          simp only [he'] at ha
          simp at ha
  unfold onParseFig
  rw [hov.1]
  refine .bind (.refl _) (fun _ _ => .bind (.refl _) (fun hdrs _ => ?_))
  split
  · split
    · exact .refl _
    · exact hrun _ _ _
  · split
    · exact .refl _
    · exact hrun _ _ _
end

/-- With enough fuel the amount does not matter. -/
theorem parseFig_fuel (env : Env) (n k : Nat) (m : EntityMeta) (tbl : Node) (hn : tbl.size ≤ n) (hk : tbl.size ≤ k) :
    parseFig env k m tbl = parseFig env n m tbl := by
  have key : ∀ n k m tbl, tbl.size ≤ n → tbl.size ≤ k → Le true (parseFig env n m tbl) (parseFig env k m tbl) := by
    intro n
    induction n with
    | zero => intro k m tbl h; have := size_pos tbl; omega
    | succ n ih =>
      intro k m tbl hn hk
      cases k with
      | zero => have := size_pos tbl; omega
      | succ k =>
        exact le_onParseFig (fun m t ht => ih k m t (by omega) (by omega)) env env rfl m
  funext f
  exact key n k m tbl hn hk f (.inl rfl)

/-- A figure which is processed without an exception is processed in the same way with skip on error. -/
theorem parseFigure_skip (env : Env) (hs : env.skip = false) (m : EntityMeta) (tbl : Node) (f : Bool) (a : Unit)
    (h : (parseFigure env m tbl f).out = .ok a) : parseFigure { env with skip := true } m tbl f = parseFigure env m tbl f := by
  have key : ∀ n m tbl, Le false (parseFig env n m tbl) (parseFig { env with skip := true } n m tbl) := by
    intro n
    induction n with
    | zero => intro m tbl; exact .refl _
    | succ n ih => intro m tbl; exact le_onParseFig (fun m t _ => ih m t) env _ (by simp [hs]) m
  exact key tbl.size m tbl f (.inr ⟨a, h⟩)

theorem parseFigure_flag (env : Env) (m : EntityMeta) (tbl : Node) (f : Bool) :
    parseFigure env m tbl f = parseFigure env m tbl false := by
  unfold parseFigure
  have := size_pos tbl
  cases h : tbl.size with
  | zero => omega
  | succ n => simp only [parseFig, onParseFig, M.bind_run, M.setFlag_run]

end Spex
