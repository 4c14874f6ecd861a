import Verif.Props.Output
import Verif.Props.Style
/-
C63: the model writer, for any sequence of calls.
-/
set_option autoImplicit false
namespace Spex

/-- the values written for a key, in order -/
def valuesFor (k : Str) (ss : List Step) : List Json := ss.filterMap fun
  | .info k' v => if k' = k then some v else none
  | _ => none

/-- the keys written, in order -/
def keysWritten (ss : List Step) : List Str := ss.filterMap fun
  | .info k _ => some k
  | _ => none

/-- the entities written, in order -/
def entitiesWritten (ss : List Step) : List Json := ss.filterMap fun
  | .entity e => some e
  | _ => none

theorem dictSet_keys (k : Str) (v : Json) (d : List (Str × Json)) :
    (dictSet k v d).map (·.1) = if k ∈ d.map (·.1) then d.map (·.1) else d.map (·.1) ++ [k] := by
  induction d with
  | nil => simp [dictSet]
  | cons e d ih =>
    obtain ⟨k', v'⟩ := e
    rw [dictSet]
    by_cases h : k' = k
    · subst h; simp
    · rw [if_neg h]
      have : ¬ k = k' := fun h' => h h'.symm
      simp only [List.map_cons, ih, List.mem_cons, this, false_or]
      split <;> simp

theorem dictSet_lookup (k x : Str) (v : Json) (d : List (Str × Json)) :
    (dictSet k v d).lookup x = if x = k then some v else d.lookup x := by
  induction d with
  | nil =>
    rw [dictSet, List.lookup_cons]
    by_cases h : x = k
    · simp [h]
    · rw [show (x == k) = false by simpa using h, if_neg h]
  | cons e d ih =>
    obtain ⟨k', v'⟩ := e
    rw [dictSet]
    by_cases h : k' = k
    · subst h
      rw [if_pos rfl, List.lookup_cons, List.lookup_cons]
      by_cases hx : x = k'
      · simp [hx]
      · rw [show (x == k') = false by simpa using hx, if_neg hx]
    · rw [if_neg h, List.lookup_cons, List.lookup_cons, ih]
      by_cases hx : x = k'
      · subst hx
        simp [h]
      · rw [show (x == k') = false by simpa using hx]

/-- C63: whatever sequence of calls a writer receives, the file holds, once the writer is left, one JSON document: each key
of the metadata once, with the value written last, and all entities in the order written. -/
theorem C63_writer_history (ss : List Step) :
    ∃ info, (WriterSt.init.steps ss).exit.file.isOpen = false ∧
      readJson (WriterSt.init.steps ss).exit.file.content = some (modelJson info (entitiesWritten ss)) ∧
      (info.map (·.1)).Nodup ∧ (∀ k, k ∈ info.map (·.1) ↔ k ∈ keysWritten ss) ∧
      ∀ k, info.lookup k = (valuesFor k ss).getLast? := by
  have gen : ∀ ss : List Step, ∀ w : WriterSt, (w.doc.info.map (·.1)).Nodup →
      (((w.steps ss).doc.info.map (·.1)).Nodup ∧ (w.steps ss).doc.entities = w.doc.entities ++ entitiesWritten ss ∧
        (∀ k, k ∈ (w.steps ss).doc.info.map (·.1) ↔ k ∈ w.doc.info.map (·.1) ∨ k ∈ keysWritten ss) ∧
        ∀ k, (w.steps ss).doc.info.lookup k = match (valuesFor k ss).getLast? with | some v => some v | none => w.doc.info.lookup k) := by
    intro ss
    induction ss with
    | nil => intro w h; exact ⟨h, by simp [entitiesWritten, WriterSt.steps], by simp [keysWritten, WriterSt.steps], fun k => rfl⟩
    | cons s ss ih =>
      intro w h
      have hcons : w.steps (s :: ss) = (w.step s).steps ss := rfl
      rw [hcons]
      cases s with
      | progress p =>
        obtain ⟨h1, h2, h3, h4⟩ := ih w h
        exact ⟨h1, h2, h3, h4⟩
      | entity e =>
        obtain ⟨h1, h2, h3, h4⟩ := ih (w.step (.entity e)) h
        refine ⟨h1, ?_, h3, h4⟩
        rw [h2]
        show (w.doc.entities ++ [e]) ++ _ = w.doc.entities ++ (e :: entitiesWritten ss)
        simp
      | info k v =>
        have hn : ((dictSet k v w.doc.info).map (·.1)).Nodup := by
          rw [dictSet_keys]
          split
          · exact h
          · rename_i hk
            rw [List.nodup_append]
            refine ⟨h, by simp, ?_⟩
            intro x hx y hy hxy
            simp at hy; subst hy; subst hxy
            exact hk hx
        obtain ⟨h1, h2, h3, h4⟩ := ih (w.step (.info k v)) hn
        refine ⟨h1, h2, ?_, ?_⟩
        · intro x
          rw [h3 x]
          show x ∈ (dictSet k v w.doc.info).map (·.1) ∨ _ ↔ _ ∨ x ∈ k :: keysWritten ss
          rw [dictSet_keys]
          split
          · rename_i hk
            constructor
            · rintro (h | h)
              · exact .inl h
              · exact .inr (List.mem_cons_of_mem _ h)
            · rintro (h | h)
              · exact .inl h
              · rcases List.mem_cons.1 h with h | h
                · rw [h]; exact .inl hk
                · exact .inr h
          · simp only [List.mem_append, List.mem_cons, List.not_mem_nil, or_false]
            tauto
        · intro x
          rw [h4 x]
          have hv : valuesFor x (.info k v :: ss) = (if k = x then [v] else []) ++ valuesFor x ss := by
            unfold valuesFor
            rw [List.filterMap_cons]
            by_cases hk : k = x <;> simp [hk]
          rw [hv]
          cases hl : (valuesFor x ss).getLast? with
          | some y =>
            rw [List.getLast?_append, hl]; rfl
          | none =>
            have : valuesFor x ss = [] := List.getLast?_eq_none_iff.1 hl
            rw [this, List.append_nil]
            show (dictSet k v w.doc.info).lookup x = _
            rw [dictSet_lookup]
            by_cases hk : k = x
            · subst hk; simp
            · have : ¬ x = k := fun h => hk h.symm
              simp [hk, this]
  obtain ⟨h1, h2, h3, h4⟩ := gen ss .init (by simp [WriterSt.init, S2Model.empty])
  refine ⟨(WriterSt.init.steps ss).doc.info, ?_, ?_, h1, ?_, ?_⟩
  · unfold WriterSt.exit
    rw [steps_file]; rfl
  · unfold WriterSt.exit
    rw [steps_file, if_pos (show WriterSt.init.file.isOpen = true from rfl)]
    show readJson (jsonDump 0 (S2Model.toJson _)) = _
    rw [C61_roundtrip]
    unfold S2Model.toJson modelJson
    rw [h2]; rfl
  · intro k
    rw [h3 k]
    show k ∈ [] ∨ _ ↔ _
    simp
  · intro k
    rw [h4 k]
    cases (valuesFor k ss).getLast? <;> rfl

example : entitiesWritten [.info c!"a" (.num 1), .entity (.str c!"x"), .info c!"b" (.num 2), .info c!"a" (.num 3), .entity (.str c!"y")] =
    [.str c!"x", .str c!"y"] ∧
    valuesFor c!"a" [.info c!"a" (.num 1), .entity (.str c!"x"), .info c!"b" (.num 2), .info c!"a" (.num 3), .entity (.str c!"y")] =
    [.num 1, .num 3] := ⟨rfl, rfl⟩

end Spex
