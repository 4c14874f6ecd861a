import Verif.Model.Kill
import Verif.Lemmas.Brackets
import Verif.Props.Cli
import Verif.Props.Writer
/-
C81: a model file which was cut short is not JSON, so that a run which was killed leaves no half model which passes for one.
-/
set_option autoImplicit false
namespace Spex

/-- **C81** Whatever sequence of calls a writer receives: no part of its file, cut before the end, is JSON. -/
theorem C81_cut_short (ss : List Step) (part : Str) (h : part <+: (WriterSt.init.steps ss).exit.file.content)
    (hne : part ≠ (WriterSt.init.steps ss).exit.file.content) : readJson part = none := by
  have he : (WriterSt.init.steps ss).exit.file.content = jsonDump 0 (WriterSt.init.steps ss).doc.toJson := by
    rw [exit_file _ (by rw [steps_file]; rfl)]
  rw [he] at h hne
  exact readJson_part (.inr ⟨_, rfl⟩) h hne

/-- the first 40 characters of a file -/
example : ∃ part, part <+: (WriterSt.init.steps [.info c!"spec" (.str c!"a\"}]"), .entity (.obj [])]).exit.file.content ∧
    part ≠ (WriterSt.init.steps [.info c!"spec" (.str c!"a\"}]"), .entity (.obj [])]).exit.file.content ∧ part.length = 40 ∧
    readJson (WriterSt.init.steps [.info c!"spec" (.str c!"a\"}]"), .entity (.obj [])]).exit.file.content ≠ none := by
  refine ⟨_, List.take_prefix 40 _, ?_, ?_, ?_⟩
  · decide +kernel
  · decide +kernel
  · rw [ne_eq, ← Option.isNone_iff_eq_none]
    decide +kernel

section
variable [Uni]

/-- every file of a second stage is that of some sequence of calls -/
theorem runJson_calls (t : Tools) (o : Opts) (w : Files) (src : FPath) :
    ∃ ss, (runJson t o w src).1 ⟨o.out, baseName src.name ++ c!".json"⟩ = some (WriterSt.init.steps ss).exit.file.content := by
  unfold runJson
  simp only [Files.set_self]
  unfold parseSpec
  exact ⟨_, rfl⟩

/-- a turn of the loop which is taken -/
theorem processed_of_run {t : Tools} {o : Opts} {w w1 : Files} {s dst : FPath} (h1 : suffix s.name ≠ c!".json")
    (h2 : [c!".html", c!".docx"].contains (suffix s.name) = true) (h3 : runSpec t o w s = (w1, .ok dst))
    (h4 : (o.validate && !validateJson w1 dst) = false) : Processed t o w s w1 := by
  have hm : mainLoop t o w [s] = (w1, 0) := by
    rw [mainLoop, if_neg h1, if_neg (fun hn => hn h2), h3]
    simp only [h4]
    rfl
  rcases step_cases t o w s with ⟨w2, h5, h6⟩ | ⟨-, w2, -, h6⟩
  · have := h6 []
    rw [hm] at this
    injection this with this
    exact this ▸ h5
  · have := h6 []
    rw [hm] at this
    cases this

/-- the file named after the input `s` by a run which was begun with the files `w` and ended, with the model or with an error -/
def EndedWith (t : Tools) (o : Opts) (w : Files) (s : FPath) (stem text : Str) : Prop :=
  (∃ root hc j, Source t w s stem root hc ∧ IsModel o root j ∧ text = jsonDump 0 j) ∨
  ((¬ ∃ root hc j, Source t w s stem root hc ∧ IsModel o root j) ∧ (runSpec t o w s).1 ⟨o.out, stem ++ c!".json"⟩ = some text)

/-- the JSON file at some moment of the second stage -/
theorem midway_json {t : Tools} {o : Opts} {w w1 : Files} {s src : FPath} {part text : Str}
    (hsuf : [c!".html", c!".docx"].contains (suffix s.name) = true) (h1 : SecondStage t o w s w1 src)
    (h2 : (runJson t o w1 src).1 ⟨o.out, baseName src.name ++ c!".json"⟩ = some text) (h3 : part <+: text) :
    ∃ stem, Stem s stem ∧ baseName src.name = stem ∧ (readJson part = none ∨ EndedWith t o w s stem part) := by
  have hcut : part = text ∨ readJson part = none := by
    by_cases he : part = text
    · exact .inl he
    · obtain ⟨ss, hss⟩ := runJson_calls t o w1 src
      rw [h2] at hss
      injection hss with hss
      exact .inr (C81_cut_short ss part (hss ▸ h3) (hss ▸ he))
  cases h1 with
  | html hx =>
    have hh : suffix s.name = c!".html" := by
      simp only [List.contains_cons, List.contains_nil, Bool.or_false, Bool.or_eq_true, beq_iff_eq] at hsuf
      rcases hsuf with h | h
      · exact h
      · exact absurd h hx
    obtain ⟨stem, g1, g2⟩ := suffix_inv _ _ hh
    have hb : baseName s.name = stem := by rw [g2]; exact baseName_of stem c!"html" g1 (by decide) (by decide)
    refine ⟨stem, ⟨g1, .inl g2⟩, hb, ?_⟩
    rcases hcut with rfl | hcut
    · right
      rw [hb] at h2
      have hne : s ≠ ⟨o.out, stem ++ c!".json"⟩ := by
        intro e
        rw [e] at hh
        rw [suffix_of stem c!"json" g1 (by decide) (by decide)] at hh
        revert hh; decide
      have hrun : runSpec t o w s = runJson t o w s := by rw [runSpec, if_neg hx]
      rcases runJson_cases t o w s ⟨o.out, stem ++ c!".json"⟩ (by rw [hb]) hne with ⟨x, root, j, a1, a2, a3, a4⟩ | ⟨a1, x, e, a2⟩
      · left
        rw [a4] at h2
        simp only [Files.set_self] at h2
        injection h2 with h2
        exact ⟨root, none, j, .html g1 g2 a1 a2, a3, h2.symm⟩
      · right
        refine ⟨?_, by rw [hrun]; exact h2⟩
        rintro ⟨root, hc, j, b1, b2⟩
        cases b1 with
        | html c1 c2 c3 c4 => exact a1 ⟨_, root, j, c3, c4, b2⟩
        | docx c1 c2 => exact absurd (g2.symm.trans c2) names_disjoint
    · exact .inl hcut
  | @docx h c hx hc =>
    obtain ⟨stem, g1, g2⟩ := suffix_inv _ _ hx
    have hb : baseName s.name = stem := by rw [g2]; exact baseName_of stem c!"docx" g1 (by decide) (by decide)
    have hb' : baseName (stem ++ c!".html") = stem := baseName_of stem c!"html" g1 (by decide) (by decide)
    refine ⟨stem, ⟨g1, .inr g2⟩, by rw [hb]; exact hb', ?_⟩
    rcases hcut with rfl | hcut
    · right
      rw [hb] at h2
      simp only at h2
      rw [hb'] at h2
      have hrun : runSpec t o w s = runJson t o ((w.set ⟨o.out, stem ++ c!".html"⟩ h).set ⟨o.out, stem ++ c!".css"⟩ c) ⟨o.out, stem ++ c!".html"⟩ := by
        rw [runSpec, if_pos hx, hc, hb]
      have hw : ∃ bytes, w s = some bytes ∧ t.docx stem bytes = .ok (h, c) := by
        rw [convertWord] at hc
        cases hw : w s with
        | none => rw [hw] at hc; simp at hc
        | some b => rw [hw, hb] at hc; exact ⟨b, rfl, hc⟩
      obtain ⟨bytes, hw, hd⟩ := hw
      have hread : ((w.set ⟨o.out, stem ++ c!".html"⟩ h).set ⟨o.out, stem ++ c!".css"⟩ c) ⟨o.out, stem ++ c!".html"⟩ = some h := by
        rw [Files.set_ne, Files.set_self]
        intro e
        exact ext_ne (s := c!".htm") (t := c!".cs") (by decide) (congrArg FPath.name e)
      rcases runJson_cases t o ((w.set ⟨o.out, stem ++ c!".html"⟩ h).set ⟨o.out, stem ++ c!".css"⟩ c) ⟨o.out, stem ++ c!".html"⟩
          ⟨o.out, stem ++ c!".json"⟩ (by rw [hb'])
          (by intro e; exact ext_ne (s := c!".htm") (t := c!".jso") (by decide) (congrArg FPath.name e)) with
          ⟨x, root, j, a1, a2, a3, a4⟩ | ⟨a1, x, e, a2⟩
      · left
        rw [hread] at a1
        injection a1 with a1
        subst a1
        rw [a4] at h2
        simp only [Files.set_self] at h2
        injection h2 with h2
        exact ⟨root, some (h, c), j, .docx g1 g2 hw hd a2, a3, h2.symm⟩
      · right
        refine ⟨?_, by rw [hrun]; exact h2⟩
        rintro ⟨root, hc', j, b1, b2⟩
        cases b1 with
        | html c1 c2 => exact absurd (c2.symm.trans g2) names_disjoint
        | docx c1 c2 c3 c4 c5 =>
          rw [hw] at c3
          injection c3 with c3
          rw [← c3, hd] at c4
          injection c4 with c4
          injection c4 with c6 c7
          exact a1 ⟨h, root, j, hread, by rw [c6]; exact c5, b2⟩
    · exact .inl hcut

/-- **C81** Whenever a run over any inputs is killed: a file which changed is an output of one of the inputs, those before it have been
processed, and if its name ends in `.json` then it is not JSON at all, or it is what a run over that input writes which ended. -/
theorem C81_killed (t : Tools) (o : Opts) (w w' : Files) (ss : List FPath) (h : Killed t o w ss w') (p : FPath) (hp : w' p ≠ w p) :
    ∃ pre s post w0, ss = pre ++ s :: post ∧ AllDone t o w pre w0 ∧ Outputs o s p ∧
      ∀ stem, p = ⟨o.out, stem ++ c!".json"⟩ → ∃ text, w' p = some text ∧ (readJson text = none ∨ EndedWith t o w0 s stem text) := by
  induction h with
  | before => exact absurd rfl hp
  | @next w w1 w' s dst ss h1 h2 h3 h4 h5 ih =>
    have hproc := processed_of_run h1 h2 h3 h4
    by_cases hw : w' p = w1 p
    · have hout := hproc.frame (p := p) (by rw [← hw]; exact hp)
      refine ⟨[], s, ss, w, rfl, .nil, hout, ?_⟩
      rintro stem rfl
      obtain ⟨stem', root, hc, j, a1, a2, -, a4⟩ := hproc
      have hst := hout.json
      have he : stem = stem' := by
        have hs' := a1.isStem
        rcases hst.2 with g | g <;> rcases hs'.2 with g' | g'
        · exact List.append_cancel_right (g.symm.trans g')
        · exact absurd (g.symm.trans g') names_disjoint
        · exact absurd (g'.symm.trans g) names_disjoint
        · exact List.append_cancel_right (g.symm.trans g')
      subst he
      exact ⟨jsonDump 0 j, by rw [hw, a4, Files.set_self], .inr (.inl ⟨root, hc, j, a1, a2, rfl⟩)⟩
    · obtain ⟨pre, s', post, w0, e, g1, g2, g3⟩ := ih hw
      exact ⟨s :: pre, s', post, w0, by rw [e]; rfl, .cons hproc g1, g2, g3⟩
  | @within w w' s ss h1 h2 h3 =>
    cases h3 with
    | start => exact absurd rfl hp
    | @page x hx =>
      obtain ⟨stem, g1, g2⟩ := suffix_inv _ _ hx
      have hb : baseName s.name = stem := by rw [g2]; exact baseName_of stem c!"docx" g1 (by decide) (by decide)
      rw [hb] at hp
      have hpe : p = ⟨o.out, stem ++ c!".html"⟩ := by
        by_contra hne
        exact hp (Files.set_ne hne)
      refine ⟨[], s, ss, w, rfl, .nil, ⟨stem, g1, .inr ⟨g2, .inl hpe⟩⟩, ?_⟩
      intro stem' he
      exact absurd (congrArg FPath.name (hpe.symm.trans he)) (ext_ne (s := c!".htm") (t := c!".jso") (by decide))
    | @style x y hx =>
      obtain ⟨stem, g1, g2⟩ := suffix_inv _ _ hx
      have hb : baseName s.name = stem := by rw [g2]; exact baseName_of stem c!"docx" g1 (by decide) (by decide)
      rw [hb] at hp
      have hpe : p = ⟨o.out, stem ++ c!".html"⟩ ∨ p = ⟨o.out, stem ++ c!".css"⟩ := by
        by_contra hne
        simp only [not_or] at hne
        exact hp (by rw [Files.set_ne hne.2, Files.set_ne hne.1])
      refine ⟨[], s, ss, w, rfl, .nil, ⟨stem, g1, .inr ⟨g2, ?_⟩⟩, ?_⟩
      · rcases hpe with h | h
        · exact .inl h
        · exact .inr (.inl h)
      · intro stem' he
        rcases hpe with h | h
        · exact absurd (congrArg FPath.name (h.symm.trans he)) (ext_ne (s := c!".htm") (t := c!".jso") (by decide))
        · exact absurd (congrArg FPath.name (h.symm.trans he)) (ext_ne (s := c!".cs") (t := c!".jso") (by decide))
    | @model w1 src part text hs ht hpart =>
      obtain ⟨stem, g1, g2, g3⟩ := midway_json h2 hs ht hpart
      rw [g2] at hp
      have hout : Outputs o s p := by
        by_cases hpe : p = ⟨o.out, stem ++ c!".json"⟩
        · rcases g1.2 with g | g
          · exact ⟨stem, g1.1, .inl ⟨g, hpe⟩⟩
          · exact ⟨stem, g1.1, .inr ⟨g, .inr (.inr hpe)⟩⟩
        · rw [Files.set_ne hpe] at hp
          cases hs with
          | html => exact absurd rfl hp
          | docx hx hc =>
            obtain ⟨stem', k1, k2⟩ := suffix_inv _ _ hx
            have hb : baseName s.name = stem' := by rw [k2]; exact baseName_of stem' c!"docx" k1 (by decide) (by decide)
            rw [hb] at hp
            refine ⟨stem', k1, .inr ⟨k2, ?_⟩⟩
            by_contra hne
            simp only [not_or] at hne
            exact hp (by rw [Files.set_ne hne.2.1, Files.set_ne hne.1])
      refine ⟨[], s, ss, w, rfl, .nil, hout, ?_⟩
      rintro stem' rfl
      have hst := hout.json
      have he : stem' = stem := by
        rcases hst.2 with g | g <;> rcases g1.2 with g' | g'
        · exact List.append_cancel_right (g.symm.trans g')
        · exact absurd (g.symm.trans g') names_disjoint
        · exact absurd (g'.symm.trans g) names_disjoint
        · exact List.append_cancel_right (g.symm.trans g')
      subst he
      exact ⟨part, by rw [g2, Files.set_self], g3⟩

/-- the end of the processing of an input is one of its moments -/
theorem midway_end (t : Tools) (o : Opts) (w : Files) (s : FPath) : Midway t o w s (runSpec t o w s).1 := by
  have hjson : ∀ w1 src, (runJson t o w1 src).1 = w1.set ⟨o.out, baseName src.name ++ c!".json"⟩
      (parseSpec o.ignore o.skip false none (readHtml t (w1.set ⟨o.out, baseName src.name ++ c!".json"⟩ []) src)).2.1.file.content := by
    intro w1 src
    unfold runJson
    simp only [Files.set_set]
  unfold runSpec
  split
  · rename_i hx
    cases hc : convertWord t w s with
    | error e => exact .style hx
    | ok q =>
      simp only
      rw [hjson]
      exact .model (.docx hx hc) (by rw [hjson, Files.set_self]) (List.prefix_refl _)
  · rename_i hx
    rw [hjson]
    exact .model (.html hx) (by rw [hjson, Files.set_self]) (List.prefix_refl _)

/-- the end of a run is one of the moments -/
theorem killed_end (t : Tools) (o : Opts) (w : Files) (ss : List FPath) : Killed t o w ss (mainLoop t o w ss).1 := by
  induction ss generalizing w with
  | nil => exact .before
  | cons s ss ih =>
    rw [mainLoop]
    split
    · exact .before
    · rename_i h1
      split
      · exact .before
      · rename_i h2
        simp only [not_not] at h2
        have hmid := midway_end t o w s
        split
        · rename_i w1 e he
          rw [he] at hmid
          exact .within h1 h2 hmid
        · rename_i w1 dst he
          rw [he] at hmid
          split
          · exact .within h1 h2 hmid
          · rename_i hv
            exact .next h1 h2 he (Bool.eq_false_iff.2 hv) (ih w1)

omit [Uni] in
theorem Files.set_exists {w : Files} {p q : FPath} {a : Str} (h : w p ≠ none) : (w.set q a) p ≠ none := by
  unfold Files.set
  split
  · simp
  · exact h

/-- no file is removed -/
theorem Midway.exists {t : Tools} {o : Opts} {w w' : Files} {s p : FPath} (h : Midway t o w s w') (hp : w p ≠ none) : w' p ≠ none := by
  cases h with
  | start => exact hp
  | page => exact Files.set_exists hp
  | style => exact Files.set_exists (Files.set_exists hp)
  | model hs =>
    cases hs with
    | html => exact Files.set_exists hp
    | docx => exact Files.set_exists (Files.set_exists (Files.set_exists hp))

theorem Killed.exists {t : Tools} {o : Opts} {w w' : Files} {ss : List FPath} {p : FPath} (h : Killed t o w ss w') (hp : w p ≠ none) : w' p ≠ none := by
  induction h with
  | before => exact hp
  | within h1 h2 h3 => exact h3.exists hp
  | @next w w1 w' s dst ss h1 h2 h3 h4 h5 ih =>
    have := (midway_end t o w s).exists hp
    rw [h3] at this
    exact ih this

/-- **C81** What is valid in the file named after an input when the run is killed is what was there before, or what a run over an input
of that name writes which ended. -/
theorem C81_validated (t : Tools) (o : Opts) (w w' : Files) (ss : List FPath) (h : Killed t o w ss w') (stem : Str)
    (hv : validateJson w' ⟨o.out, stem ++ c!".json"⟩ = true) :
    w' ⟨o.out, stem ++ c!".json"⟩ = w ⟨o.out, stem ++ c!".json"⟩ ∨
      ∃ pre s post w0 text, ss = pre ++ s :: post ∧ AllDone t o w pre w0 ∧ Stem s stem ∧
        w' ⟨o.out, stem ++ c!".json"⟩ = some text ∧ EndedWith t o w0 s stem text := by
  by_cases hp : w' ⟨o.out, stem ++ c!".json"⟩ = w ⟨o.out, stem ++ c!".json"⟩
  · exact .inl hp
  · obtain ⟨pre, s, post, w0, h1, h2, h3, h4⟩ := C81_killed t o w w' ss h _ hp
    obtain ⟨text, h5, h6⟩ := h4 stem rfl
    refine .inr ⟨pre, s, post, w0, text, h1, h2, h3.json, h5, ?_⟩
    rcases h6 with h6 | h6
    · rw [validateJson, h5] at hv
      simp only [h6] at hv
      exact absurd hv (by decide)
    · exact h6

end

/-- killed while the model of the second input is written: the first 30 characters are there, while the first model is complete -/
example : letI := Uni.ascii
    let o : Opts := options c!"/o" (withInputs []) []
    let s1 : FPath := ⟨c!"/d", c!"a.html"⟩
    let s2 : FPath := ⟨c!"/d", c!"b.docx"⟩
    ∃ w', Killed someTools o someFiles [s1, s2] w' ∧ validateJson w' ⟨c!"/o", c!"a.json"⟩ = true ∧
      (w' ⟨c!"/o", c!"b.json"⟩).map (·.length) = some 30 ∧ w' ⟨c!"/o", c!"b.html"⟩ = some c!"B" := by
  let _ := Uni.ascii
  intro o s1 s2
  let w1 := (runSpec someTools o someFiles s1).1
  let w2 := (w1.set ⟨o.out, baseName s2.name ++ c!".html"⟩ c!"B").set ⟨o.out, baseName s2.name ++ c!".css"⟩ c!"css"
  let src : FPath := ⟨o.out, baseName s2.name ++ c!".html"⟩
  let dst : FPath := ⟨o.out, baseName src.name ++ c!".json"⟩
  let text := ((runJson someTools o w2 src).1 dst).getD []
  refine ⟨w2.set dst (text.take 30), ?_, by decide +kernel, by decide +kernel, by decide +kernel⟩
  refine .next (w1 := w1) (dst := ⟨c!"/o", c!"a.json"⟩) (by decide +kernel) (by decide +kernel) (Prod.ext rfl ?_) (by decide +kernel)
    (.within (by decide +kernel) (by decide +kernel) (.model (text := text) (.docx (by decide +kernel) (by decide +kernel)) ?_
      (List.take_prefix 30 text)))
  · decide +kernel
  · decide +kernel

end Spex
