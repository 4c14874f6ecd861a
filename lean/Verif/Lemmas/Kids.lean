import Verif.Props.Schema
import Verif.Props.Output
/-
The entities of a figure as a tree: each nested entity hangs at a field of its parent.
-/
set_option autoImplicit false
namespace Spex

/-! ### specification -/

/-- the field of a row with an ellipsis -/
def ellField : StructField := ⟨ELLIPSIS, .int (-1) (-1), none⟩

/-- what stands for a field in the ids of the figures of its description: its lower end, as far as it could be read -/
def lowEnd (f : StructField) : Str :=
  match f.range with
  | .int l _ => intStr l
  | .dyn l _ => l
  | .raw s => s

/-- the keys of the fields of an entity, from the first row to the last; ellipses have none -/
def fieldKeys : Body → List Str
  | .values fs => (fs.filter (fun f => f.val ≠ ELLIPSIS)).map (·.val)
  | .struct .bytes fs => (fs.filter (· ≠ ellField)).map lowEnd
  | .struct .bits fs => ((fs.reverse).filter (· ≠ ellField)).map lowEnd

/-- The entities of a figure: field by field those of the tables in the description of this field, then its own. A table which
is not used gives none. With `one`, each description has at most one table. -/
inductive FigTree (one : Prop) : EntityMeta → List Entity → Prop
  | none (m : EntityMeta) : FigTree one m []
  | own (m : EntityMeta) (body : Body) (ks : List (Str × List (List Entity))) : ks.map (·.1) = fieldKeys body →
      (one → ∀ p ∈ ks, p.2.length ≤ 1) →
      (∀ p ∈ ks, ∀ es ∈ p.2, FigTree one ⟨Option.none, m.figId ++ '_' :: p.1, some m.figId⟩ es) →
      FigTree one m (ks.flatMap (fun p => p.2.flatten) ++ [⟨m, body⟩])

/-- `c` is `n` or stands in `n`, at any depth -/
inductive Deep (c : Node) : Node → Prop
  | self : Deep c c
  | kid (k n : Node) : k ∈ n.kids → Deep c k → Deep c n

/-- no cell has two tables -/
def OneTable (n : Node) : Prop := ∀ c, Deep c n → c.hasTag tTd = true → (c.childs tTable).length ≤ 1

/-! ### proof -/

theorem OneTable.kid {n k : Node} (h : OneTable n) (hk : k ∈ n.kids) : OneTable k := fun c hc => h c (.kid k n hk hc)

theorem OneTable.child {n k : Node} {t : Str} (h : OneTable n) (hk : k ∈ n.childs t) : OneTable k := h.kid (List.mem_filter.mp hk).1

variable [Uni]

theorem OneTable.cell {tbl : Node} (h : OneTable tbl) {row : Row} (hr : row ∈ (rowIter tbl).1) {td : Node} (htd : td ∈ row.node.childs tTd) :
    (td.childs tTable).length ≤ 1 ∧ ∀ t ∈ td.childs tTable, OneTable t := by
  refine rowIter_cells (P := fun td => (td.childs tTable).length ≤ 1 ∧ ∀ t ∈ td.childs tTable, OneTable t) ?_ tbl ?_ row hr td htd
  · intro td h
    unfold Node.childs at h ⊢
    rwa [dropRowspan_kids]
  · intro tr htr td htd
    have h1 := (h.child htr).child htd
    exact ⟨h1 td .self (List.mem_filter.mp htd).2, fun t ht => h1.child ht⟩

theorem OneTable.following {tbl : Node} (h : OneTable tbl) {row : Row} (hr : row ∈ (rowIter tbl).1) :
    OneTable (.elem tTable [] row.following) := by
  have hc : ∀ ks : List Node, ∀ row ∈ candidateRows ks, row.following ⊆ ks := by
    intro ks
    induction ks with
    | nil => intro row hr; simp [candidateRows] at hr
    | cons k ks ih =>
      intro row hr
      simp only [candidateRows] at hr
      split at hr
      · rcases List.mem_cons.mp hr with rfl | hr
        · exact fun x hx => List.mem_cons_of_mem _ (List.mem_filter.mp hx).1
        · exact fun x hx => List.mem_cons_of_mem _ (ih row hr hx)
      · exact fun x hx => List.mem_cons_of_mem _ (ih row hr hx)
  have key : ∀ (rows : List Row) (alst : List Pend), ∀ row ∈ (rowIterGo alst rows).1,
      row.following = [] ∨ row ∈ rows := by
    intro rows
    induction rows with
    | nil => intro alst row hr; simp [rowIterGo] at hr
    | cons r rows ih =>
      intro alst row hr
      simp only [rowIterGo] at hr
      split at hr
      · rcases List.mem_cons.mp hr with rfl | hr
        · exact .inr (List.mem_cons_self ..)
        · exact (ih _ row hr).imp id (List.mem_cons_of_mem _)
      · cases hrb : rebuildRow r alst with
        | error e => rw [hrb] at hr; simp at hr
        | ok row' =>
          rw [hrb] at hr
          simp only at hr
          split at hr
          · simp at hr
          · rcases List.mem_cons.mp hr with rfl | hr
            · unfold rebuildRow at hrb
              split at hrb
              · simp only [Except.ok.injEq] at hrb
                exact .inr (hrb ▸ List.mem_cons_self ..)
              · split at hrb
                · simp at hrb
                · simp only [Except.ok.injEq] at hrb
                  exact .inl (by rw [← hrb])
            · exact (ih _ row hr).imp id (List.mem_cons_of_mem _)
  have hsub : row.following ⊆ tbl.kids := by
    rcases key _ _ row hr with h | h
    · rw [h]; simp
    · exact hc _ row h
  intro c hd htd
  cases hd with
  | self => simp [Node.hasTag, tTable, tTd] at htd
  | kid k n hk hd => exact h c (.kid k tbl (hsub hk) hd) htd

/-- what a computation which succeeds gives, and the entities it puts out -/
def Puts {α : Type} (x : M α) (Q : α → List Entity → Prop) : Prop := ∀ f a, (x f).out = .ok a → Q a (entities (x f).evs)

namespace Puts
variable {α β : Type} {Q : α → List Entity → Prop} {Q' : β → List Entity → Prop}

omit [Uni] in
theorem pure {a : α} (h : Q a []) : Puts (Pure.pure a : M α) Q := by
  intro f b hb
  rw [M.pure_run] at hb ⊢
  simp only [Except.ok.injEq] at hb
  exact hb ▸ h

omit [Uni] in
theorem raise {e : Exn} : Puts (M.raise e : M α) Q := by
  intro f b hb
  simp [M.raise_run] at hb

omit [Uni] in
theorem bind {x : M α} {k : α → M β} (hx : Puts x Q) (hk : ∀ a es, Q a es → Puts (k a) (fun b es' => Q' b (es ++ es'))) :
    Puts (x >>= k) Q' := by
  intro f b hb
  obtain ⟨a, h1, h2, h3, -⟩ := M.bind_out_ok hb
  rw [h3, entities_append]
  exact hk a _ (hx f a h1) _ b h2

omit [Uni] in
theorem ofExcept {x : Except Exn α} (h : ∀ a, x = .ok a → Q a []) : Puts (M.ofExcept x) Q := fun _ a ha => h a ha

omit [Uni] in
theorem weaken {Q₂ : α → List Entity → Prop} {x : M α} (h : Puts x Q) (hq : ∀ a es, Q a es → Q₂ a es) : Puts x Q₂ :=
  fun f a ha => hq a _ (h f a ha)

omit [Uni] in
theorem ite {c : Prop} [Decidable c] {x y : M α} (h1 : c → Puts x Q) (h2 : ¬ c → Puts y Q) : Puts (if c then x else y) Q := by
  split
  · exact h1 ‹_›
  · exact h2 ‹_›

omit [Uni] in
theorem ofSat {fig : Str} {x : M α} {Q0 : α → Prop} {R : Exn → Prop} (h : Sat (RowLint fig) Q0 R x) :
    Puts x (fun a es => es = [] ∧ ∃ f, (x f).out = .ok a) := by
  intro f a ha
  refine ⟨entities_nil fun e he => ?_, f, ha⟩
  obtain ⟨err, key, ctx, h, -⟩ := (h f).1 e he
  exact ⟨_, h⟩
end Puts

section
variable {env : Env} {one : Prop} {m : EntityMeta} (hm : MetaOk m) {tbl : Node} {parse : ParseFn}

/-- the entities are those of figures without a parent -/
def Forest (one : Prop) (es : List Entity) : Prop :=
  ∃ ts : List (EntityMeta × List Entity), es = ts.flatMap (·.2) ∧ ∀ t ∈ ts, t.1.parent = none ∧ FigTree one t.1 t.2

/-- the entities of a figure which did not fail -/
def Planted (one : Prop) (m : EntityMeta) (r : Res Unit) : Prop :=
  r.out = .ok () → (m.parent.isSome = true → FigTree one m (entities r.evs)) ∧
    (m.parent = none → r.flag = false → Forest one (entities r.evs))

/-- the recursive occurrence -/
def ParseTree (one : Prop) (N : Nat) (parse : ParseFn) : Prop :=
  ∀ m t f, t.size < N → MetaOk m → (one → OneTable t) → Planted one m (parse m t f)

variable (hp : ParseTree one tbl.size parse) (ho : one → OneTable tbl)
include hp ho

theorem gives_subTables (key : Str) {row : Row} (hr : row ∈ (rowIter tbl).1) {td : Node} (htd : td ∈ row.node.childs tTd)
    (ts : List Node) (hts : ∀ t ∈ ts, t ∈ td.childs tTable) :
    Puts (subTables parse ⟨none, m.figId ++ '_' :: key, some m.figId⟩ ts)
      (fun _ es => ∃ ess : List (List Entity), es = ess.flatten ∧ ess.length = ts.length ∧ ∀ x ∈ ess, FigTree one (nestedMeta m key) x) := by
  induction ts with
  | nil => exact .pure ⟨[], rfl, rfl, by simp⟩
  | cons t ts ih =>
    have ht := hts t (List.mem_cons_self ..)
    refine Puts.bind (Q := fun _ es => FigTree one (nestedMeta m key) es) ?_ (fun _ es hes => (ih
      (fun x hx => hts x (List.mem_cons_of_mem _ hx))).weaken ?_)
    · intro f a ha
      exact (hp (nestedMeta m key) t f (nested_smaller hr htd ht) (metaOk_nested m key) (fun h => ((ho h).cell hr htd).2 t ht) ha).1 rfl
    · rintro _ es' ⟨ess, h1, h2, h3⟩
      refine ⟨es :: ess, by rw [h1]; rfl, by simp [h2], ?_⟩
      intro x hx
      rcases List.mem_cons.mp hx with rfl | hx
      · exact hes
      · exact h3 x hx

theorem gives_extract (key : Str) {row : Row} (hr : row ∈ (rowIter tbl).1) {td : Node} (htd : td ∈ row.node.childs tTd) :
    Puts (extractDataSubTable parse ⟨none, m.figId ++ '_' :: key, some m.figId⟩ td)
      (fun _ es => ∃ ess : List (List Entity), es = ess.flatten ∧ (one → ess.length ≤ 1) ∧ ∀ x ∈ ess, FigTree one (nestedMeta m key) x) := by
  refine (gives_subTables hp ho key hr htd _ (fun t h => h)).weaken ?_
  rintro _ es ⟨ess, h1, h2, h3⟩
  exact ⟨ess, h1, fun h => h2 ▸ ((ho h).cell hr htd).1, h3⟩

/-- what a field of a struct figure has in its description -/
def FieldTree (one : Prop) (m : EntityMeta) (f : StructField) (ess : List (List Entity)) : Prop :=
  (ess = [] ∨ f ≠ ellField) ∧ (one → ess.length ≤ 1) ∧ ∀ x ∈ ess, FigTree one (nestedMeta m (lowEnd f)) x

omit [Uni] hp ho in
theorem FieldTree.none (f : StructField) : FieldTree one m f [] := ⟨.inl rfl, by simp, by simp⟩

include hm in
theorem gives_structRow (h : ErrHandler) (cols : Cols) (dyn : Bool) (row : Row) (hr : row ∈ (rowIter tbl).1) :
    Puts (structRow parse m.figId h cols dyn row) (fun o es => match o with
      | .field f => ∃ ess : List (List Entity), es = ess.flatten ∧ FieldTree one m f ess
      | .skip => es = []
      | .stop extra => es = [] ∧ ExtraOk h extra) := by
  unfold structRow
  split
  · refine Puts.ite (fun _ => Puts.pure ⟨[], rfl, .none _⟩) (fun _ => Puts.ite (fun _ => Puts.pure ⟨rfl, trivial⟩) (fun _ => ?_))
    split
    · exact Puts.pure ⟨rfl, rowErr_extra h row _ ‹_›⟩
    · exact Puts.raise
    · exact Puts.pure rfl
  · refine Puts.ite (fun _ => Puts.ite (fun _ => Puts.pure rfl) (fun _ => ?_)) (fun _ => ?_)
    · refine Puts.bind (Puts.ofSat (sat_parseRange hm.1 _ _)) (fun r es hes => ?_)
      rw [hes.1]
      split
      · exact Puts.pure ⟨[], rfl, .none _⟩
      · exact Puts.pure rfl
    · rename_i rangeF contentF labelF hex _
      refine Puts.bind (Puts.ofSat (sat_rowRange hm.1 dyn rangeF)) (fun r es hes => ?_)
      obtain ⟨rfl, fl, hr0⟩ := hes
      refine Puts.bind (Puts.ofSat (sat_parseLabel hm.1 cols labelF _)) (fun label es hes => ?_)
      obtain ⟨rfl, -⟩ := hes
      refine Puts.bind (Q := fun c es => c ∈ row.node.childs tTd ∧ es = []) (Puts.ofExcept ?_) (fun content es hc => ?_)
      · intro a ha
        unfold req at ha
        split at ha
        · rename_i hn
          simp only [Except.ok.injEq] at ha
          exact ⟨ha ▸ nthChild_mem hn, rfl⟩
        · simp at ha
      · obtain ⟨hc, rfl⟩ := hc
        refine Puts.bind (gives_extract hp ho _ hr hc) (fun _ es hes => ?_)
        obtain ⟨ess, h1, h2, h3⟩ := hes
        refine Puts.pure ⟨ess, by simp [h1], .inr ?_, h2, ?_⟩
        · intro heq
          have hrange : r = .int (-1) (-1) := by
            have := congrArg StructField.range heq
            simpa [structField_range, ellField] using this
          subst hrange
          unfold rowRange at hr0
          cases dyn with
          | true =>
            rw [if_pos rfl] at hr0
            unfold parseDynamicRange at hr0
            cases hmt : reDynamicRange.pmatch (replace1 ' ' [] (replace1 '\n' [] rangeF)) with
            | none =>
              rw [hmt] at hr0
              obtain ⟨_, _, h, -⟩ := M.bind_out_ok hr0
              simp [M.pure_run] at h
            | some mt =>
              rw [hmt] at hr0
              simp [M.pure_run] at hr0
          | false =>
            rw [if_neg (by simp)] at hr0
            rcases parseRange_result hm.1 hr0 with ⟨lo, hi, h⟩ | h
            · simp only [RangeV.int.injEq] at h
              omega
            · simp at h
        · have : lowEnd (structField r label (contentExtractBrief contentF)) = rangeToRowKey r := by
            unfold lowEnd
            rw [structField_range]
            cases r <;> rfl
          rw [this]
          exact h3

include hm in
theorem gives_structRows (h : ErrHandler) (cols : Cols) (err : Option Exn) (rows : List Row) (hr : ∀ row ∈ rows, row ∈ (rowIter tbl).1)
    (dyn : Bool) :
    Puts (structRows parse m.figId h cols err dyn rows) (fun o es => ∃ ks : List (StructField × List (List Entity)),
      ks.map (·.1) = o.1 ∧ es = ks.flatMap (fun p => p.2.flatten) ∧ (∀ p ∈ ks, FieldTree one m p.1 p.2) ∧ ExtraOk h o.2) := by
  induction rows generalizing dyn with
  | nil =>
    unfold structRows
    split
    · exact .pure ⟨[], rfl, rfl, by simp, trivial⟩
    · exact .raise
  | cons row rows ih =>
    have ih := ih (fun r h => hr r (List.mem_cons_of_mem _ h))
    unfold structRows
    refine Puts.ite (fun _ => ih _) (fun _ => ?_)
    refine Puts.bind (gives_structRow hm hp ho h cols dyn row (hr row (List.mem_cons_self ..))) (fun o es hes => ?_)
    cases o with
    | stop extra => exact .pure ⟨[], rfl, by simpa using hes.1, by simp, hes.2⟩
    | skip =>
      simp only at hes
      subst hes
      exact ih _
    | field f =>
      obtain ⟨ess, rfl, hf⟩ := hes
      refine Puts.bind (ih _) (fun o es hes => ?_)
      obtain ⟨ks, h1, h2, h3, h4⟩ := hes
      refine Puts.pure ⟨(f, ess) :: ks, by simp [h1], by simp [h2], ?_, h4⟩
      intro p hp
      rcases List.mem_cons.mp hp with rfl | hp
      · exact hf
      · exact h3 p hp

include hm in
theorem gives_valueRows (ov : List ((Str × Str) × Str)) (cols : Cols) (err : Option Exn) (rows : List Row)
    (hr : ∀ row ∈ rows, row ∈ (rowIter tbl).1) :
    Puts (valueRows parse ov m.figId cols err rows) (fun o es => ∃ ks : List (ValueField × List (List Entity)),
      ks.map (·.1) = o ∧ es = ks.flatMap (fun p => p.2.flatten) ∧ ∀ p ∈ ks, (p.2 = [] ∨ p.1.val ≠ ELLIPSIS) ∧ (one → p.2.length ≤ 1) ∧
        ∀ x ∈ p.2, FigTree one (nestedMeta m p.1.val) x) := by
  induction rows with
  | nil =>
    unfold valueRows
    split
    · exact .pure ⟨[], rfl, rfl, by simp⟩
    · exact .raise
  | cons row rows ih =>
    have ih := ih (fun r h => hr r (List.mem_cons_of_mem _ h))
    unfold valueRows
    refine Puts.ite (fun _ => ih) (fun _ => ?_)
    refine Puts.bind (Q := fun o es => match o with
      | .field f => ∃ ess : List (List Entity), es = ess.flatten ∧ (ess = [] ∨ f.val ≠ ELLIPSIS) ∧ (one → ess.length ≤ 1) ∧
          ∀ x ∈ ess, FigTree one (nestedMeta m f.val) x
      | _ => es = []) ?_ (fun o es hes => ?_)
    · unfold valueRow
      split
      · rename_i rowVal rowData h1 h2
        refine Puts.ite (fun _ => Puts.pure ⟨[], rfl, .inl rfl, by simp, by simp⟩) (fun hv => ?_)
        refine Puts.bind (Puts.ofSat (sat_valueLabel hm.1 _ cols row.node _ rowData)) (fun label es hes => ?_)
        obtain ⟨rfl, -⟩ := hes
        refine Puts.bind (gives_extract hp ho _ (hr row (List.mem_cons_self ..)) (nthChild_mem h2)) (fun _ es hes => ?_)
        obtain ⟨ess, h1, h2, h3⟩ := hes
        exact Puts.pure ⟨ess, by simp [h1], .inr hv, h2, h3⟩
      · refine Puts.ite (fun _ => Puts.pure ⟨[], rfl, .inl rfl, by simp, by simp⟩) (fun _ => Puts.ite (fun _ => Puts.pure rfl)
          (fun _ => Puts.pure rfl))
    cases o with
    | stop extra => exact .pure ⟨[], rfl, by simpa using hes, by simp⟩
    | skip =>
      simp only at hes
      subst hes
      exact ih
    | field f =>
      obtain ⟨ess, rfl, hf⟩ := hes
      refine Puts.bind ih (fun o es hes => ?_)
      obtain ⟨ks, h1, h2, h3⟩ := hes
      refine Puts.pure ⟨(f, ess) :: ks, by simp [h1], by simp [h2], ?_⟩
      intro p hp
      rcases List.mem_cons.mp hp with rfl | hp
      · exact hf
      · exact h3 p hp

omit [Uni] hp ho in
theorem flatMap_drop {α β : Type} (q : α → Bool) (g : α → List β) (l : List α) (h : ∀ a ∈ l, q a = false → g a = []) :
    l.flatMap g = (l.filter q).flatMap g := by
  induction l with
  | nil => rfl
  | cons a l ih =>
    have ih := ih fun b hb => h b (List.mem_cons_of_mem _ hb)
    cases hq : q a with
    | true => simp [hq, ih]
    | false => simp [hq, ih, h a (List.mem_cons_self ..) hq]

omit [Uni] hp ho in
include hm in
/-- a failure is noticed -/
theorem planted_catch {x : M Unit} (h : ∀ f, Planted one m (x f)) (f : Bool) : Planted one m (M.tryCatch x (onFigError env m) f) := by
  intro ho
  cases hx : (x f).out with
  | ok u =>
    have : M.tryCatch x (onFigError env m) f = x f := by
      rw [M.tryCatch_run, hx]
    rw [this] at ho ⊢
    exact h f ho
  | error e =>
    rw [M.tryCatch_run, hx] at ho ⊢
    simp only at ho ⊢
    have hi : ∀ ctx, addIssue .tblParseErr m.figId none ctx = M.emit (.lint (issue .tblParseErr m.figId none ctx)) :=
      fun ctx => addIssue_none hm.1 (by decide)
    have hfl : ∀ fl, (onFigError env m e fl).flag = true := by
      intro fl
      unfold onFigError
      cases fl <;> by_cases hsk : (m.parent.isSome || !env.skip) = true <;>
        simp [M.bind_run, M.getFlag_run, M.setFlag_run, hi, hsk, M.raise_run, M.pure_run, M.emit_run]
    have hpn : m.parent.isSome = true → ∀ fl, (onFigError env m e fl).out = .error e := by
      intro hs fl
      unfold onFigError
      cases fl <;>
        simp [M.bind_run, M.getFlag_run, M.setFlag_run, hi, hs, M.raise_run, M.emit_run]
    refine ⟨fun hs => ?_, fun _ hf => ?_⟩
    · rw [hpn hs] at ho
      cases ho
    · rw [hfl] at hf
      cases hf

include hm in
theorem planted_structCall (hE : EnvOk env) (c : StructCls) (cols : Cols)
    (hc : ∀ pre newId, c.handler = .split pre newId → env.overrides.lookup m.figId = some (.struct c)) (f : Bool) :
    Planted one m (structCall parse c m cols tbl f) := by
  intro hout
  unfold structCall at hout ⊢
  simp only at hout ⊢
  obtain ⟨⟨fs, extra⟩, h1, h2, h3, h4⟩ := M.bind_out_ok hout
  rw [h3, h4, entities_append]
  obtain ⟨ks, k1, k2, k3, k4⟩ := gives_structRows hm hp ho c.handler cols (rowIter tbl).2 (rowIter tbl).1 (fun r h => h) false f _ h1
  simp only at h2 k1 k4 ⊢
  rw [M.bind_run, validateStruct_run _ hm.1] at h2 ⊢
  simp only at h2 ⊢
  rw [M.bind_run, M.yield_run] at h2 ⊢
  simp only at h2 ⊢
  rw [entities_append, entities_append, show entities (structEvs m.figId (layoutOrder c.ty fs)) = [] from
    entities_nil fun x hx => by obtain ⟨err, row, ctx, h, -⟩ := structEvs_own _ _ x hx; exact ⟨_, h⟩, List.nil_append, ← List.append_assoc]
  have hown : FigTree one m (entities (structRows parse m.figId c.handler cols (rowIter tbl).2 false (rowIter tbl).1 f).evs ++
      entities [Ev.ent ⟨m, .struct c.ty (layoutOrder c.ty fs)⟩]) := by
    rw [k2, flatMap_drop (fun p => decide (p.1 ≠ ellField)) _ ks (fun p hp hq => by
      rcases (k3 p hp).1 with h | h
      · simp [h]
      · simp [h] at hq)]
    have := FigTree.own (one := one) m (.struct c.ty (layoutOrder c.ty fs)) ((ks.filter (fun p => decide (p.1 ≠ ellField))).map
      (fun p => (lowEnd p.1, p.2))) ?_ ?_ ?_
    · rw [List.flatMap_map] at this
      exact this
    · rw [List.map_map]
      have : fieldKeys (.struct c.ty (layoutOrder c.ty fs)) = (fs.filter (· ≠ ellField)).map lowEnd := by
        cases c.ty <;> simp [fieldKeys, layoutOrder]
      rw [this, ← k1, List.filter_map, List.map_map]
      rfl
    · intro h p hp
      obtain ⟨q, hq, rfl⟩ := List.mem_map.mp hp
      exact (k3 q (List.mem_filter.mp hq).1).2.1 h
    · intro p hp
      obtain ⟨q, hq, rfl⟩ := List.mem_map.mp hp
      exact (k3 q (List.mem_filter.mp hq).1).2.2
  cases extra with
  | none =>
    simp only [parseExtra, M.pure_run]
    rw [show entities ([] : List Ev) = [] from rfl, List.append_nil]
    refine ⟨fun _ => hown, fun hpn _ => ⟨[(m, _)], by simp; rfl, ?_⟩⟩
    intro t ht
    rw [List.mem_singleton] at ht
    subst ht
    exact ⟨hpn, hown⟩
  | some x =>
    obtain ⟨m2, t2⟩ := x
    obtain ⟨pre, newId, title, j1, rfl⟩ := k4
    obtain ⟨row, hrow, j2⟩ := structRows_extra _ _ _ _ _ _ _ _ _ h1
    simp only at j2
    subst j2
    have hov := hc _ _ j1
    have hE' := hE _ _ _ _ hov j1
    have := hp ⟨title, newId, none⟩ (.elem tTable [] row.following) (structRows parse m.figId c.handler cols (rowIter tbl).2 false
      (rowIter tbl).1 f).flag (following_smaller hrow) ⟨hE'.1, by simp⟩ (fun h => (ho h).following hrow)
    refine ⟨fun hs => absurd (hm.2 hs) hE'.2.1, fun hpn hfl => ?_⟩
    obtain ⟨ts, e1, e2⟩ := (this h2).2 rfl hfl
    simp only [parseExtra]
    rw [e1]
    refine ⟨(m, _) :: ts, by rw [List.flatMap_cons], ?_⟩
    intro t ht
    rcases List.mem_cons.mp ht with rfl | ht
    · exact ⟨hpn, hown⟩
    · exact e2 t ht

include hm in
theorem planted_valueCall (ov : List ((Str × Str) × Str)) (cols : Cols) (f : Bool) : Planted one m (valueCall parse ov m cols tbl f) := by
  intro hout
  unfold valueCall at hout ⊢
  simp only at hout ⊢
  obtain ⟨fs, h1, h2, h3, h4⟩ := M.bind_out_ok hout
  rw [h3, h4, entities_append]
  obtain ⟨ks, k1, k2, k3⟩ := gives_valueRows hm hp ho ov cols (rowIter tbl).2 (rowIter tbl).1 (fun r h => h) f _ h1
  rw [M.bind_run, validateValues_run _ hm.1] at h2 ⊢
  simp only at h2 ⊢
  rw [M.yield_run] at h2 ⊢
  simp only at h2 ⊢
  rw [entities_append, show entities (valuesEvs m.figId fs) = [] from
    entities_nil fun x hx => by obtain ⟨err, row, ctx, h, -⟩ := valuesEvs_own _ _ x hx; exact ⟨_, h⟩, List.nil_append]
  have hown : FigTree one m (entities (valueRows parse ov m.figId cols (rowIter tbl).2 (rowIter tbl).1 f).evs ++
      entities [Ev.ent ⟨m, .values fs⟩]) := by
    rw [k2, flatMap_drop (fun p => decide (p.1.val ≠ ELLIPSIS)) _ ks (fun p hp hq => by
      rcases (k3 p hp).1 with h | h
      · simp [h]
      · simp [h] at hq)]
    have := FigTree.own (one := one) m (.values fs) ((ks.filter (fun p => decide (p.1.val ≠ ELLIPSIS))).map
      (fun p => (p.1.val, p.2))) ?_ ?_ ?_
    · rw [List.flatMap_map] at this
      exact this
    · rw [List.map_map]
      simp only [fieldKeys]
      rw [← k1, List.filter_map, List.map_map]
      rfl
    · intro h p hp
      obtain ⟨q, hq, rfl⟩ := List.mem_map.mp hp
      exact (k3 q (List.mem_filter.mp hq).1).2.1 h
    · intro p hp
      obtain ⟨q, hq, rfl⟩ := List.mem_map.mp hp
      exact (k3 q (List.mem_filter.mp hq).1).2.2
  refine ⟨fun _ => hown, fun hpn _ => ⟨[(m, _)], by simp; rfl, ?_⟩⟩
  intro t ht
  rw [List.mem_singleton] at ht
  subst ht
  exact ⟨hpn, hown⟩

include hm in
theorem planted_onParseFig (hE : EnvOk env) (f : Bool) : Planted one m (onParseFig env parse m tbl f) := by
  have hh : entities (headerIssues m.figId tbl) = [] :=
    entities_nil fun x hx => by obtain ⟨err, row, ctx, h, -⟩ := headerIssues_own _ _ x hx; exact ⟨_, h⟩
  have hpre : ∀ r : Res Unit, Planted one m r → Planted one m ⟨headerIssues m.figId tbl ++ r.evs, r.flag, r.out⟩ := by
    intro r hr
    unfold Planted at hr ⊢
    simp only [entities_append, hh, List.nil_append]
    exact hr
  have run : ∀ c mapping, c.canApply (columnNames tbl) = some mapping →
      (env.overrides.lookup m.figId = none ∧ firstApplicable extractors (columnNames tbl) = some (c, mapping) ∨
        env.overrides.lookup m.figId = some c ∧ c.canApply (columnNames tbl) = some mapping) →
      Planted one m (runExtractor env parse m tbl (columnNames tbl) c mapping false) := by
    intro c mapping hcan hsel
    obtain ⟨cols, hcols⟩ := mkCols_ok hcan
    unfold runExtractor
    rw [hcols, M.ofExcept_ok, pure_bind]
    cases c with
    | value => exact planted_catch hm (fun f => planted_valueCall hm hp ho _ cols f) false
    | struct c =>
      refine planted_catch hm (fun f => planted_structCall hm hp ho hE c cols ?_ f) false
      intro pre newId hh
      rcases hsel with ⟨_, h2⟩ | ⟨h1, _⟩
      · have := (firstApplicable_some h2).1
        simp only [extractors, List.mem_cons, Cls.struct.injEq, List.not_mem_nil, or_false, reduceCtorEq, false_or] at this
        rcases this with h | h <;> (subst h; simp [bytesCls, bitsCls] at hh)
      · exact h1
  unfold onParseFig
  rw [M.bind_run, M.setFlag_run]
  simp only
  rw [M.bind_run, C15_headers m.figId tbl hm.1 false]
  simp only [List.nil_append]
  obtain hov | ⟨c, hov⟩ := Option.eq_none_or_eq_some (env.overrides.lookup m.figId)
  · obtain hnone | ⟨⟨c, mapping⟩, hsome⟩ := Option.eq_none_or_eq_some (firstApplicable extractors (columnNames tbl))
    · simp only [hov, hnone]
      rw [addIssue_none hm.1 (by decide)]
      intro _
      have : entities (headerIssues m.figId tbl ++ [Ev.lint (issue .tblSkipped m.figId none
          [(c!"columns", .arr ((columnNames tbl).map Json.str))])]) = [] := by
        rw [entities_append, hh]; rfl
      refine ⟨fun _ => ?_, fun _ _ => ⟨[], ?_, by simp⟩⟩
      · change FigTree one m (entities (headerIssues m.figId tbl ++ [Ev.lint (issue .tblSkipped m.figId none
          [(c!"columns", .arr ((columnNames tbl).map Json.str))])]))
        rw [this]
        exact .none m
      · exact this
    · simp only [hov, hsome]
      exact hpre _ (run c mapping (firstApplicable_some hsome).2 (.inl ⟨hov, hsome⟩))
  · obtain hnone | ⟨mapping, hsome⟩ := Option.eq_none_or_eq_some (c.canApply (columnNames tbl))
    · simp only [hov, hnone]
      intro h
      simp [M.raise_run] at h
    · simp only [hov, hsome]
      exact hpre _ (run c mapping hsome (.inr ⟨hov, hsome⟩))
end

theorem planted_parseFig {env : Env} (hE : EnvOk env) (one : Prop) (n : Nat) (m : EntityMeta) (tbl : Node) (hn : tbl.size ≤ n) (hm : MetaOk m)
    (ho : one → OneTable tbl) (f : Bool) : Planted one m (parseFig env n m tbl f) := by
  induction n generalizing m tbl f with
  | zero => have := size_pos tbl; omega
  | succ n ih => exact planted_onParseFig hm (fun m' t f' ht hm' ho' => ih m' t (by omega) hm' ho' f') ho hE f

omit [Uni] in
theorem Forest.append {one : Prop} {a b : List Entity} (ha : Forest one a) (hb : Forest one b) : Forest one (a ++ b) := by
  obtain ⟨s, h1, h2⟩ := ha
  obtain ⟨t, h3, h4⟩ := hb
  refine ⟨s ++ t, by simp [h1, h3], ?_⟩
  intro x hx
  rcases List.mem_append.mp hx with h | h
  · exact h2 x h
  · exact h4 x h

omit [Uni] in
theorem Forest.nil {one : Prop} : Forest one [] := ⟨[], rfl, by simp⟩

/-- the entities of a document in which no figure failed -/
theorem forest_parseTables {env : Env} (hE : EnvOk env) (one : Prop) (ts : List Node)
    (ho : one → ∀ t ∈ ts, OneTable (removeFirstTr (unwrapTable t))) (k : Nat) (f : Bool)
    (hout : (parseTables env k ts f).out = .ok ()) (hrep : reports (parseTables env k ts f).evs = []) :
    Forest one (entities (parseTables env k ts f).evs) := by
  induction ts generalizing k f with
  | nil => exact .nil
  | cons t ts ih =>
    have ih := ih fun h t ht => ho h t (List.mem_cons_of_mem _ ht)
    simp only [parseTables] at hout hrep ⊢
    obtain h1 | ⟨tr, h1⟩ := Option.eq_none_or_eq_some ((unwrapTable t).nthChild tTr 1)
    · rw [h1] at hout
      simp [M.raise_run] at hout
    simp only [h1] at hout hrep ⊢
    obtain h2 | ⟨title, h2⟩ := Option.eq_none_or_eq_some (figureTitle tr)
    · simp only [h2] at hout hrep ⊢
      exact ih k f hout hrep
    simp only [h2] at hout hrep ⊢
    obtain h3 | ⟨fid, h3⟩ := Option.eq_none_or_eq_some (figureId title)
    · simp only [h3] at hout hrep ⊢
      rw [M.bind_run, addIssue_none (by simp [figIdMissing]) (by decide)] at hout hrep ⊢
      simp only [M.emit_run] at hout hrep ⊢
      rw [entities_append]
      refine ih _ _ hout ?_
      unfold reports at hrep ⊢
      rw [diagnostics_append] at hrep
      exact (List.append_eq_nil_iff.mp hrep).2
    simp only [h3] at hout hrep ⊢
    obtain ⟨u, k1, k2, k3, k4⟩ := M.bind_out_ok hout
    rw [k3] at hrep ⊢
    rw [entities_append]
    unfold reports at hrep
    rw [diagnostics_append, List.append_eq_nil_iff] at hrep
    have hm : MetaOk ⟨some title, fid, none⟩ := ⟨figureId_ne h3, by simp⟩
    refine .append ?_ (ih _ _ k2 hrep.2)
    refine (planted_parseFig hE one _ _ _ (Nat.le_refl _) hm (fun h => ho h t (List.mem_cons_self ..)) f k1).2 rfl ?_
    rcases figOk_parseFigure hE ⟨some title, fid, none⟩ (removeFirstTr (unwrapTable t)) hm f with ⟨a1, a2, a3⟩ | ⟨c, a1, a2, a3⟩ | ⟨e, c, a1, a2, a3⟩
    · exact a2
    · obtain ⟨l, b, -⟩ := a3.report
      unfold reports at b
      rw [hrep.1] at b
      cases b
    · rw [a1] at k1
      cases k1

end Spex
