import Verif.Lemmas.Kids
import Verif.Props.ListStyle
import Verif.Props.Document
/-
C87: the ids of figures tell the entities of a document apart, and lead from a nested entity to the field it describes.
-/
set_option autoImplicit false
namespace Spex
variable [Uni]

/-! ### the field of a nested entity -/

omit [Uni] in
/-- the parts a list is put together from -/
theorem split_flatMap {α β : Type} (g : α → List β) (l : List α) (A B : List β) (b : β) (h : l.flatMap g = A ++ b :: B) :
    ∃ a ∈ l, ∃ A' B' B'', g a = A' ++ b :: B' ∧ B = B' ++ B'' := by
  induction l generalizing A with
  | nil => simp at h
  | cons x l ih =>
    rw [List.flatMap_cons] at h
    rcases List.append_eq_append_iff.mp h with ⟨D, j1, j2⟩ | ⟨D, j1, j2⟩
    · obtain ⟨es, h1, A', C', C'', h2, h3⟩ := ih D j2
      exact ⟨es, List.mem_cons_of_mem _ h1, A', C', C'', h2, h3⟩
    · cases D with
      | nil =>
        simp only [List.nil_append] at j2
        obtain ⟨es, h1, A', C', C'', h2, h3⟩ := ih [] (by simp [← j2])
        exact ⟨es, List.mem_cons_of_mem _ h1, A', C', C'', h2, h3⟩
      | cons d D =>
        simp only [List.cons_append, List.cons.injEq] at j2
        obtain ⟨rfl, j2⟩ := j2
        exact ⟨x, List.mem_cons_self .., A, D, _, j1, j2⟩

omit [Uni] in
theorem FigTree.field {one : Prop} {m : EntityMeta} {es : List Entity} (h : FigTree one m es) (A B : List Entity) (e : Entity)
    (he : es = A ++ e :: B) :
    e.info = m ∨ ∃ p, e.info.parent = some p ∧ ∃ e' ∈ B, e'.info.figId = p ∧ ∃ k ∈ fieldKeys e'.body, e.info.figId = p ++ '_' :: k := by
  induction h generalizing A B with
  | none m => simp at he
  | own m body ks h1 h2 h3 ih =>
    rcases List.append_eq_append_iff.mp he with ⟨C, k1, k2⟩ | ⟨C, k1, k2⟩
    · cases C with
      | nil =>
        simp only [List.nil_append, List.cons.injEq] at k2
        exact .inl (by rw [← k2.1])
      | cons c C => simp at k2
    · have hB : ⟨m, body⟩ ∈ B ∨ (C = [] ∧ e = ⟨m, body⟩) := by
        cases C with
        | nil =>
          simp only [List.nil_append, List.cons.injEq] at k2
          exact .inr ⟨rfl, k2.1⟩
        | cons c C =>
          simp only [List.cons_append, List.cons.injEq] at k2
          exact .inl (by rw [k2.2]; simp)
      rcases hB with hB | ⟨-, rfl⟩
      · cases C with
        | nil =>
          simp only [List.nil_append, List.cons.injEq] at k2
          rw [k2.2] at hB
          simp at hB
        | cons c C =>
          simp only [List.cons_append, List.cons.injEq] at k2
          obtain ⟨rfl, k2⟩ := k2
          obtain ⟨p, hp, A₁, C₁, D₁, e1, e2⟩ := split_flatMap _ _ _ _ _ k1
          have e1 : p.2.flatMap id = A₁ ++ e :: C₁ := by rw [List.flatMap_id]; exact e1
          obtain ⟨es, hes, A', C', C'', e3, e4⟩ := split_flatMap _ _ _ _ _ e1
          simp only [id] at e3
          refine .inr ?_
          rcases ih p hp es hes A' C' e3 with h | ⟨q, j1, e', j2, j3⟩
          · refine ⟨m.figId, by rw [h], ⟨m, body⟩, hB, rfl, p.1, ?_, by rw [h]⟩
            simp only
            rw [← h1]
            exact List.mem_map_of_mem hp
          · refine ⟨q, j1, e', ?_, j3⟩
            rw [k2, e2, e4]
            simp [j2]
      · exact .inl rfl

/-- C87: in a document of which every figure could be processed, each nested entity is followed by the entity of its parent, and
this one has the field in whose description the nested figure stands: the id of the nested entity is that of the parent, an underscore, and the lower
end, or the value, of this field. -/
theorem C87_field (env : Env) (hE : EnvOk env) (root : Node) (hout : (parseDoc env root).out = .ok ())
    (hrep : reports (parseDoc env root).evs = []) (A B : List Entity) (e : Entity)
    (he : entities (parseDoc env root).evs = A ++ e :: B) (p : Str) (hp : e.info.parent = some p) :
    ∃ e' ∈ B, e'.info.figId = p ∧ ∃ k ∈ fieldKeys e'.body, e.info.figId = p ++ '_' :: k := by
  obtain ⟨ts, h1, h2⟩ := forest_parseTables hE False (figures root) (fun h => h.elim) 0 false hout hrep
  have h1 : entities (parseDoc env root).evs = _ := h1
  rw [he] at h1
  obtain ⟨t, ht, A', B', B'', e1, e2⟩ := split_flatMap _ _ _ _ _ h1.symm
  rcases (h2 t ht).2.field A' B' e e1 with h | ⟨q, j1, e', j2, j3⟩
  · rw [h, (h2 t ht).1] at hp
    cases hp
  · rw [hp] at j1
    simp only [Option.some.injEq] at j1
    subst j1
    exact ⟨e', by rw [e2]; simp [j2], j3⟩

/-! ### ids are unique -/

/-- the keys of the fields of an entity are different, and are not mistaken for two -/
def KeysOk (e : Entity) : Prop := (fieldKeys e.body).Nodup ∧ ∀ k ∈ fieldKeys e.body, '_' ∉ k

omit [Uni] in
theorem FigTree.mem_family {one : Prop} {m : EntityMeta} {es : List Entity} (h : FigTree one m es) :
    ∀ e ∈ es, Family m.figId e.info.figId := by
  induction h with
  | none m => simp
  | own m body ks h1 h2 h3 ih =>
    intro e he
    rcases List.mem_append.mp he with he | he
    · obtain ⟨p, hp, he⟩ := List.mem_flatMap.mp he
      obtain ⟨es, hes, he⟩ := List.mem_flatten.mp he
      exact .inr (ih p hp es hes e he).nested
    · rw [List.mem_singleton] at he
      exact he ▸ .refl _

omit [Uni] in
/-- what stands in front of the first underscore -/
theorem underscore_key (k k' r r' : Str) (h1 : '_' ∉ k) (h2 : '_' ∉ k') (h : k ++ '_' :: r = k' ++ '_' :: r') : k = k' := by
  induction k generalizing k' with
  | nil =>
    cases k' with
    | nil => rfl
    | cons c k' =>
      simp only [List.nil_append, List.cons_append, List.cons.injEq] at h
      simp [← h.1] at h2
  | cons c k ih =>
    cases k' with
    | nil =>
      simp only [List.nil_append, List.cons_append, List.cons.injEq] at h
      simp [h.1] at h1
    | cons c' k' =>
      simp only [List.cons_append, List.cons.injEq] at h
      rw [h.1, ih k' (by simp_all) (by simp_all) h.2]

omit [Uni] in
theorem Family.norm {k x : Str} (h : Family k x) : ∃ r, x ++ ['_'] = k ++ '_' :: r := by
  rcases h with rfl | ⟨rest, rfl⟩
  · exact ⟨[], by simp⟩
  · exact ⟨rest ++ ['_'], by simp⟩

omit [Uni] in
theorem Family.unique {k k' x : Str} (hk : '_' ∉ k) (hk' : '_' ∉ k') (h : Family k x) (h' : Family k' x) : k = k' := by
  obtain ⟨r, h1⟩ := h.norm
  obtain ⟨r', h2⟩ := h'.norm
  exact underscore_key k k' r r' hk hk' (h1.symm.trans h2)

omit [Uni] in
theorem family_key {fig k k' x : Str} (hk : '_' ∉ k) (hk' : '_' ∉ k') (h : Family (fig ++ '_' :: k) x) (h' : Family (fig ++ '_' :: k') x) :
    k = k' := by
  obtain ⟨r, h1⟩ := h.norm
  obtain ⟨r', h2⟩ := h'.norm
  rw [h1, List.append_assoc, List.append_assoc] at h2
  have := List.append_cancel_left h2
  simp only [List.cons_append, List.cons.injEq, true_and] at this
  exact underscore_key k k' r r' hk hk' this

omit [Uni] in
theorem FigTree.nodup {one : Prop} {m : EntityMeta} {es : List Entity} (h : FigTree one m es) (ho : one) (hk : ∀ e ∈ es, KeysOk e) :
    (es.map (·.info.figId)).Nodup := by
  induction h with
  | none m => simp
  | own m body ks h1 h2 h3 ih =>
    have hko := hk ⟨m, body⟩ (by simp)
    unfold KeysOk at hko
    simp only [← h1] at hko
    replace h2 := h2 ho
    replace hk : ∀ e ∈ ks.flatMap (fun p => p.2.flatten), KeysOk e := fun e he => hk e (by simp [he])
    rw [List.map_append, List.nodup_append]
    refine ⟨?_, by simp, ?_⟩
    · clear h1
      replace ih : ∀ p ∈ ks, ∀ es ∈ p.2, FigTree one ⟨Option.none, m.figId ++ '_' :: p.1, some m.figId⟩ es ∧
          ((∀ e ∈ es, KeysOk e) → (es.map (·.info.figId)).Nodup) := fun p hp es hes => ⟨h3 p hp es hes, ih p hp es hes⟩
      clear h3
      induction ks with
      | nil => simp
      | cons p ks ihk =>
        rw [List.flatMap_cons, List.map_append, List.nodup_append]
        refine ⟨?_, ihk ⟨(List.nodup_cons.mp hko.1).2, fun k hk => hko.2 k (List.mem_cons_of_mem _ hk)⟩ (fun q hq => h2 q (List.mem_cons_of_mem _ hq))
          (fun e he => hk e (by rw [List.flatMap_cons]; exact List.mem_append_right _ he)) (fun q hq => ih q (List.mem_cons_of_mem _ hq)), ?_⟩
        · have hl := h2 p (List.mem_cons_self ..)
          match hp2 : p.2, hl with
          | [], _ => simp
          | [es], _ =>
            have hes : es ∈ p.2 := by rw [hp2]; simp
            simp only [List.flatten_cons, List.flatten_nil, List.append_nil]
            exact (ih p (List.mem_cons_self ..) es hes).2 (fun e he => hk e (by
              rw [List.flatMap_cons, hp2]; simp [he]))
          | _ :: _ :: _, hl => simp at hl
        · intro a ha b hb hab
          subst hab
          obtain ⟨e, he, rfl⟩ := List.mem_map.mp ha
          obtain ⟨e', he', hee⟩ := List.mem_map.mp hb
          obtain ⟨es, hes, he⟩ := List.mem_flatten.mp he
          obtain ⟨q, hq, he'⟩ := List.mem_flatMap.mp he'
          obtain ⟨es', hes', he'⟩ := List.mem_flatten.mp he'
          have f1 := (ih p (List.mem_cons_self ..) es hes).1.mem_family e he
          have f2 := (ih q (List.mem_cons_of_mem _ hq) es' hes').1.mem_family e' he'
          rw [hee] at f2
          have := family_key (hko.2 p.1 (by simp)) (hko.2 q.1 (by simp; right; exact ⟨_, hq⟩)) f1 f2
          apply (List.nodup_cons.mp hko.1).1
          change p.1 ∈ _
          rw [this]
          exact List.mem_map_of_mem hq
    · intro a ha b hb hab
      subst hab
      obtain ⟨e, he, rfl⟩ := List.mem_map.mp ha
      simp only [List.map_cons, List.map_nil, List.mem_singleton] at hb
      obtain ⟨p, hp, he⟩ := List.mem_flatMap.mp he
      obtain ⟨es, hes, he⟩ := List.mem_flatten.mp he
      obtain ⟨rest, hr⟩ := ((h3 p hp es hes).mem_family e he).nested
      rw [hb] at hr
      exact append_ne_self hr.symm

omit [Uni] in
theorem FigTree.tops {one : Prop} {m : EntityMeta} {es : List Entity} (h : FigTree one m es) :
    (es = [] ∨ ∃ es' body, es = es' ++ [⟨m, body⟩] ∧ ∀ e ∈ es', e.info.parent.isSome = true) := by
  induction h with
  | none m => exact .inl rfl
  | own m body ks h1 h2 h3 ih =>
    refine .inr ⟨_, body, rfl, ?_⟩
    intro e he
    obtain ⟨p, hp, he⟩ := List.mem_flatMap.mp he
    obtain ⟨es, hes, he⟩ := List.mem_flatten.mp he
    rcases ih p hp es hes with rfl | ⟨es', b, rfl, hn⟩
    · simp at he
    · rcases List.mem_append.mp he with he | he
      · exact hn e he
      · rw [List.mem_singleton] at he
        rw [he]
        rfl

omit [Uni] in
theorem Forest.nodup {one : Prop} {es : List Entity} (h : Forest one es) (ho : one)
    (htop : ((es.filter (fun e => e.info.parent.isNone)).map (·.info.figId)).Nodup)
    (htop' : ∀ e ∈ es.filter (fun e => e.info.parent.isNone), '_' ∉ e.info.figId) (hk : ∀ e ∈ es, KeysOk e) :
    (es.map (·.info.figId)).Nodup := by
  obtain ⟨ts, rfl, hts⟩ := h
  induction ts with
  | nil => simp
  | cons t ts ih =>
    rw [List.flatMap_cons, List.filter_append, List.map_append] at htop
    simp only [List.flatMap_cons, List.filter_append] at htop'
    simp only [List.flatMap_cons] at hk
    rw [List.flatMap_cons, List.map_append, List.nodup_append]
    rw [List.nodup_append] at htop
    have top : ∀ u ∈ t :: ts, ∀ e ∈ u.2, ∃ e' ∈ u.2, e'.info = u.1 := by
      intro u hu e he
      rcases (hts u hu).2.tops with h | ⟨es', b, h, -⟩
      · rw [h] at he
        cases he
      · exact ⟨⟨u.1, b⟩, by rw [h]; simp, rfl⟩
    refine ⟨(hts t (List.mem_cons_self ..)).2.nodup ho (fun e he => hk e (List.mem_append_left _ he)),
      ih (fun u hu => hts u (List.mem_cons_of_mem _ hu)) htop.2.1 (fun e he => htop' e (List.mem_append_right _ he))
        (fun e he => hk e (List.mem_append_right _ he)), ?_⟩
    intro a ha b hb hab
    subst hab
    obtain ⟨e, he, rfl⟩ := List.mem_map.mp ha
    obtain ⟨e', he', hee⟩ := List.mem_map.mp hb
    obtain ⟨u, hu, he'⟩ := List.mem_flatMap.mp he'
    have f1 := (hts t (List.mem_cons_self ..)).2.mem_family e he
    have f2 := (hts u (List.mem_cons_of_mem _ hu)).2.mem_family e' he'
    rw [hee] at f2
    obtain ⟨x, hx, hx'⟩ := top t (List.mem_cons_self ..) e he
    obtain ⟨y, hy, hy'⟩ := top u (List.mem_cons_of_mem _ hu) e' he'
    have mx : x ∈ t.2.filter (fun e => e.info.parent.isNone) :=
      List.mem_filter.mpr ⟨hx, by rw [hx', (hts t (List.mem_cons_self ..)).1]; rfl⟩
    have my : y ∈ (ts.flatMap (·.2)).filter (fun e => e.info.parent.isNone) :=
      List.mem_filter.mpr ⟨List.mem_flatMap.mpr ⟨u, hu, hy⟩, by rw [hy', (hts u (List.mem_cons_of_mem _ hu)).1]; rfl⟩
    rw [← hx'] at f1
    rw [← hy'] at f2
    have := Family.unique (htop' x (List.mem_append_left _ mx)) (htop' y (List.mem_append_right _ my)) f1 f2
    exact htop.2.2 _ (List.mem_map_of_mem (f := (·.info.figId)) mx) _ (List.mem_map_of_mem (f := (·.info.figId)) my) this

omit [Uni] in
theorem unwrapTable_deep (t : Node) : Deep (unwrapTable t) t := by
  unfold unwrapTable
  split
  · rename_i inner h
    split
    · obtain ⟨c, h1, h2⟩ := Option.bind_eq_some_iff.mp h
      obtain ⟨r, h3, h4⟩ := Option.bind_eq_some_iff.mp h1
      refine .kid r t (List.mem_filter.mp (nthChild_mem h3)).1 (.kid c r (List.mem_filter.mp (nthChild_mem h4)).1 (.kid inner c ?_ .self))
      exact (List.mem_filter.mp (List.mem_of_mem_head? (Option.mem_def.mpr h2))).1
    · exact .self
  · exact .self

/-- C87: in a document of which every figure could be processed, the ids tell all its entities apart, if those of the figures which
do not stand in others do so, if those and the keys of fields have no underscores, if the fields of each entity have different keys, and if no cell
has two tables. -/
theorem C87_distinct_partial (env : Env) (hE : EnvOk env) (root : Node) (hout : (parseDoc env root).out = .ok ())
    (hrep : reports (parseDoc env root).evs = []) (hone : OneTable root)
    (htop : ((topEntities (parseDoc env root).evs).map (·.info.figId)).Nodup)
    (htop' : ∀ e ∈ topEntities (parseDoc env root).evs, '_' ∉ e.info.figId)
    (hkeys : ∀ e ∈ entities (parseDoc env root).evs, KeysOk e) :
    ((entities (parseDoc env root).evs).map (·.info.figId)).Nodup := by
  refine (forest_parseTables hE (OneTable root) (figures root) (fun h t ht => ?_) 0 false hout hrep).nodup hone htop htop' hkeys
  have hroot : Deep t root := by
    obtain ⟨b, hb, ht⟩ := List.mem_flatMap.mp ht
    exact .kid b root (List.mem_filter.mp hb).1 (.kid t b (List.mem_filter.mp ht).1 .self)
  have htrans : ∀ {a b c : Node}, Deep a b → Deep b c → Deep a c := by
    intro a b c h1 h2
    induction h2 with
    | self => exact h1
    | kid k n hk _ ih => exact .kid k n hk ih
  have hu : OneTable (unwrapTable t) := fun c hc => h c (htrans hc (htrans (unwrapTable_deep t) hroot))
  generalize unwrapTable t = u at hu
  intro c hc htd
  cases u with
  | text s => exact hu c hc htd
  | elem tg as ks =>
    unfold removeFirstTr at hc
    cases hc with
    | self =>
      refine Nat.le_trans ?_ (hu (.elem tg as ks) .self htd)
      exact (List.Sublist.filter _ List.eraseP_sublist).length_le
    | kid k n hk hc => exact hu c (.kid k _ (List.mem_of_mem_eraseP hk) hc) htd

/-! ### documents without diagnostics on ranges and values -/

/-- all fields have a range which could be read; all values have names, and no underscores -/
def PlainFields : Body → Prop
  | .struct _ fs => ∀ f ∈ fs, intRange f ≠ none
  | .values fs => ∀ f ∈ fs, isName f.label = true ∧ '_' ∉ f.val

omit [Uni] in
theorem intStr_underscore (i : Int) : '_' ∉ intStr i := by
  have hn : ∀ n : Nat, '_' ∉ natStr n := by
    intro n h
    have := natDigits_digit _ _ '_' (List.mem_reverse.1 h)
    revert this
    decide
  cases i with
  | ofNat n => exact hn n
  | negSucc n =>
    intro h
    rcases List.mem_cons.mp h with h | h
    · cases h
    · exact hn _ h

omit [Uni] in
theorem lowEnd_int {f : StructField} {l h : Int} (hf : intRange f = some (l, h)) : lowEnd f = intStr l := by
  unfold intRange at hf
  split at hf
  · cases hf
  · unfold lowEnd
    cases hr : f.range <;> rw [hr] at hf <;> simp at hf
    simp [hf.1]

omit [Uni] in
theorem withEarlier_nodup {α : Type} (g : α → Str) (fs pre : List α)
    (h : (withEarlier pre fs).filter (fun p => (p.1.map g).contains (g p.2)) = []) (hp : (pre.map g).Nodup) : ((pre ++ fs).map g).Nodup := by
  induction fs generalizing pre with
  | nil => simpa using hp
  | cons f fs ih =>
    simp only [withEarlier, List.filter_cons] at h
    split at h
    · cases h
    · rename_i hn
      have := ih (pre ++ [f]) h (by
        rw [List.map_append, List.nodup_append]
        refine ⟨hp, by simp, ?_⟩
        intro a ha b hb hab
        simp only [List.map_cons, List.map_nil, List.mem_singleton] at hb
        rw [hab, hb] at ha
        exact hn (List.contains_iff_mem.mpr ha))
      simpa using this

/-- C87: the ids of the entities are different in a document without any diagnostic on failed figures, on ranges and on repeated
values. -/
theorem C87_clean_partial (env : Env) (hE : EnvOk env) (root : Node) (hout : (parseDoc env root).out = .ok ())
    (hclean : ∀ c ∈ [LintErr.tblParseErr, .tblFieldOverlap, .tblFieldGap, .tblRowOrderReversed, .rangeReversed, .valDuplicate],
      diagnostics c (parseDoc env root).evs = [])
    (hplain : ∀ e ∈ entities (parseDoc env root).evs, PlainFields e.body) (hone : OneTable root)
    (htop : ((topEntities (parseDoc env root).evs).map (·.info.figId)).Nodup)
    (htop' : ∀ e ∈ topEntities (parseDoc env root).evs, '_' ∉ e.info.figId) :
    ((entities (parseDoc env root).evs).map (·.info.figId)).Nodup := by
  refine C87_distinct_partial env hE root hout (hclean _ (by simp)) hone htop htop' ?_
  have hnot : ∀ c ∈ [LintErr.tblParseErr, .tblFieldOverlap, .tblFieldGap, .tblRowOrderReversed, .rangeReversed, .valDuplicate], ∀ fig,
      ¬ Reported c fig (parseDoc env root).evs := by
    rintro c hc fig ⟨l, hl, -⟩
    rw [hclean c hc] at hl
    cases hl
  rintro ⟨m, body⟩ he
  have hpl := hplain _ he
  cases body with
  | struct ty fs =>
    have hpl : ∀ f ∈ fs, intRange f ≠ none := hpl
    have hpart := (C16_partition env hE root m ty fs he hpl (hnot _ (by simp) _) (hnot _ (by simp) _) (hnot _ (by simp) _) (hnot _ (by simp) _)).1
    have hrev := not_reversed hE he (hnot .rangeReversed (by simp) _)
    have hsub : ∃ gs : List StructField, fieldKeys (.struct ty fs) = gs.map lowEnd ∧ (∀ g ∈ gs, g ∈ fs) ∧
        gs.Pairwise (fun f g => ∀ o, ¬ (Covers f o ∧ Covers g o)) := by
      cases ty with
      | bytes => exact ⟨_, rfl, fun g hg => (List.mem_filter.mp hg).1, hpart.filter _⟩
      | bits =>
        refine ⟨_, rfl, fun g hg => List.mem_reverse.mp (List.mem_filter.mp hg).1, List.Pairwise.filter _ ?_⟩
        rw [List.pairwise_reverse]
        exact hpart.imp fun h o ho => h o ho.symm
    obtain ⟨gs, h1, h2, h3⟩ := hsub
    unfold KeysOk
    simp only
    rw [h1]
    constructor
    · rw [List.Nodup, List.pairwise_map]
      refine List.Pairwise.imp_of_mem ?_ h3
      intro f g hf hg hno heq
      obtain ⟨⟨l, h⟩, hlh⟩ := Option.ne_none_iff_exists'.mp (hpl f (h2 f hf))
      obtain ⟨⟨l', h'⟩, hlh'⟩ := Option.ne_none_iff_exists'.mp (hpl g (h2 g hg))
      rw [lowEnd_int hlh, lowEnd_int hlh'] at heq
      have := intStr_inj heq
      subst this
      exact hno l ⟨⟨l, h, hlh, Int.le_refl _, hrev f (h2 f hf) l h hlh⟩, ⟨l, h', hlh', Int.le_refl _, hrev g (h2 g hg) l h' hlh'⟩⟩
    · intro k hk
      obtain ⟨g, hg, rfl⟩ := List.mem_map.mp hk
      obtain ⟨⟨l, h⟩, hlh⟩ := Option.ne_none_iff_exists'.mp (hpl g (h2 g hg))
      rw [lowEnd_int hlh]
      exact intStr_underscore l
  | values fs =>
    have hpl : ∀ f ∈ fs, isName f.label = true ∧ '_' ∉ f.val := hpl
    have hdup := hclean .valDuplicate (by simp)
    rw [C22_duplicate_values_exact env hE root, List.flatMap_eq_nil_iff] at hdup
    have hd := hdup _ he
    simp only [expectedDupValues, List.map_eq_nil_iff] at hd
    rw [List.filter_eq_self.mpr (fun f hf => (hpl f hf).1)] at hd
    have := withEarlier_nodup (·.val) fs [] hd (by simp)
    refine ⟨?_, ?_⟩
    · exact this.sublist (List.Sublist.map _ List.filter_sublist)
    · intro k hk
      obtain ⟨f, hf, rfl⟩ := List.mem_map.mp hk
      exact (hpl f (List.mem_filter.mp hf).1).2

end Spex

namespace Spex
open Sample

/-! ### examples -/

mutual
/-- a check for `OneTable` -/
def oneTables : Node → Bool
  | .text _ => true
  | .elem t _ ks => (t != tTd || decide ((ks.filter (Node.hasTag tTable)).length ≤ 1)) && oneTablesAll ks
def oneTablesAll : List Node → Bool
  | [] => true
  | k :: ks => oneTables k && oneTablesAll ks
end

theorem oneTables_mem {ks : List Node} (h : oneTablesAll ks = true) : ∀ k ∈ ks, oneTables k = true := by
  induction ks with
  | nil => simp
  | cons k ks ih =>
    simp only [oneTablesAll, Bool.and_eq_true] at h
    intro x hx
    rcases List.mem_cons.mp hx with rfl | hx
    · exact h.1
    · exact ih h.2 x hx

theorem oneTable_of_check {n : Node} (h : oneTables n = true) : OneTable n := by
  intro c hc htd
  induction hc with
  | self =>
    cases c with
    | text s => simp [Node.hasTag] at htd
    | elem t as ks =>
      simp only [oneTables, Bool.and_eq_true, Bool.or_eq_true, bne_iff_ne, ne_eq, decide_eq_true_eq] at h
      rcases h.1 with h1 | h1
      · exact absurd (by simpa [Node.hasTag] using htd) h1
      · exact h1
  | kid k n hk hd ih =>
    cases n with
    | text s => simp [Node.kids] at hk
    | elem t as ks =>
      simp only [oneTables, Bool.and_eq_true] at h
      exact ih (oneTables_mem h.2 k hk)

/-- a bits table whose two fields have tables of values, and in the second of these is another table -/
def kidsDoc : Node := doc [figure c!"Figure 7: Command" [c!"Bits", c!"Description"]
  [[td c!"31:16", tdNest c!"Mode (MO): the mode" [c!"Value", c!"Definition"] [[td c!"0h", td c!"Alpha: a"], [td c!"1h", td c!"Beta: b"]]],
   [td c!"15:00", tdNest c!"Kind (KI): the kind" [c!"Value", c!"Definition"]
     [[td c!"0h", tdNest c!"Gamma: g" [c!"Bytes", c!"Description"] [[td c!"0", td c!"Zeta (ZE): z"]]], [td c!"1h", td c!"Delta: d"]]]],
  figure c!"Figure 8: More" [c!"Bytes", c!"Description"] [[td c!"0", td c!"Eta (ET): e"]]]

/-- C87_field, C87_clean_partial: the ids, the keys of the fields, and the hypotheses -/
example : letI := Uni.ascii
    let evs := (parseDoc (envPlain false) kidsDoc).evs
    (entities evs).map (fun e => (e.info.figId, e.info.parent, fieldKeys e.body)) =
      [(c!"7_16", some c!"7", [c!"0h", c!"1h"]), (c!"7_0_0h", some c!"7_0", [c!"0"]), (c!"7_0", some c!"7", [c!"0h", c!"1h"]),
       (c!"7", none, [c!"16", c!"0"]), (c!"8", none, [c!"0"])] ∧
    (parseDoc (envPlain false) kidsDoc).out.toOption = some () ∧ oneTables kidsDoc = true ∧
    ([LintErr.tblParseErr, .tblFieldOverlap, .tblFieldGap, .tblRowOrderReversed, .rangeReversed, .valDuplicate].all
      (fun c => (diagnostics c evs).isEmpty)) = true ∧
    (topEntities evs).map (·.info.figId) = [c!"7", c!"8"] ∧
    ((entities evs).all fun e => match e.body with
      | .struct _ fs => fs.all (fun f => (intRange f).isSome)
      | .values fs => fs.all (fun f => isName f.label && !f.val.contains '_')) = true := by decide +kernel

/-- a description with two tables -/
def twinDoc : Node := doc [figure c!"Figure 7: Command" [c!"Bits", c!"Description"]
  [[td c!"31:00", .elem tTd [] [.elem tP [] [.text c!"Mode (MO): the mode"],
     .elem tTable [] [tr [th c!"Value", th c!"Definition"], tr [td c!"0h", td c!"Alpha: a"]],
     .elem tTable [] [tr [th c!"Value", th c!"Definition"], tr [td c!"1h", td c!"Beta: b"]]]]]]

/-- C87 as a whole does not hold: two tables in one description give two entities with the same id, and nothing is reported. -/
theorem C87_distinct_false : letI := Uni.ascii
    ∃ root, (parseDoc (envPlain false) root).out = .ok () ∧
      (parseDoc (envPlain false) root).evs.all (fun | .ent _ => true | .lint _ => false) = true ∧
      (entities (parseDoc (envPlain false) root).evs).map (·.info.figId) = [c!"7_0", c!"7_0", c!"7"] := by
  refine ⟨twinDoc, ?_, ?_, ?_⟩
  · have : (@parseDoc Uni.ascii (envPlain false) twinDoc).out.toOption = some () := by decide +kernel
    cases h : (@parseDoc Uni.ascii (envPlain false) twinDoc).out with
    | ok u => rfl
    | error e => rw [h] at this; cases this
  · decide +kernel
  · decide +kernel

/-- the figure at the top has the id of a nested one -/
def clashDoc : Node := doc [goodFig, figure c!"Figure 7_16: More" [c!"Bytes", c!"Description"] [[td c!"0", td c!"Eta (ET): e"]]]

/-- C87: an id in a title which looks like that of a nested figure is taken as it is. -/
theorem C87_underscore_false : letI := Uni.ascii
    ∃ root, (parseDoc (envPlain false) root).out = .ok () ∧ OneTable root ∧
      (parseDoc (envPlain false) root).evs.all (fun | .ent _ => true | .lint _ => false) = true ∧
      (entities (parseDoc (envPlain false) root).evs).map (·.info.figId) = [c!"7_16", c!"7", c!"7_16"] := by
  refine ⟨clashDoc, ?_, oneTable_of_check (by decide +kernel), ?_, ?_⟩
  · have : (@parseDoc Uni.ascii (envPlain false) clashDoc).out.toOption = some () := by decide +kernel
    cases h : (@parseDoc Uni.ascii (envPlain false) clashDoc).out with
    | ok u => rfl
    | error e => rw [h] at this; cases this
  · decide +kernel
  · decide +kernel

/-- a figure which fails after the table in its first description -/
def orphanDoc : Node := doc [figure c!"Figure 7: Command" [c!"Bits", c!"Description"]
  [[td c!"31:16", tdNest c!"Mode (MO): the mode" [c!"Value", c!"Definition"] [[td c!"0h", td c!"Alpha: a"]]],
   [td c!"15:00", tdBare c!"Kind (KI): the kind"]]]

/-- C87: the nested entities of a figure which failed stay without their parent. -/
theorem C87_field_false : letI := Uni.ascii
    ∃ root, (parseDoc (envPlain true) root).out = .ok () ∧
      (entities (parseDoc (envPlain true) root).evs).map (fun e => (e.info.figId, e.info.parent)) = [(c!"7_16", some c!"7")] := by
  refine ⟨orphanDoc, ?_, ?_⟩
  · have : (@parseDoc Uni.ascii (envPlain true) orphanDoc).out.toOption = some () := by decide +kernel
    cases h : (@parseDoc Uni.ascii (envPlain true) orphanDoc).out with
    | ok u => rfl
    | error e => rw [h] at this; cases this
  · decide +kernel

end Spex
