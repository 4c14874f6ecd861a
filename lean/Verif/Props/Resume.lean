import Verif.Props.Killed
import Verif.Props.FirstStage
import Verif.Lemmas.PageCut
/-
C82: a run can be repeated, also after it was killed, and continued from the page which the first stage wrote.
-/
set_option autoImplicit false
namespace Spex
section
variable [Uni]

omit [Uni] in
theorem Files.set_stays {w : Files} {p : FPath} {a : Str} (h : w p = some a) : w.set p a = w := by
  funext q
  unfold Files.set
  split
  · rename_i e; rw [e, h]
  · rfl

omit [Uni] in
theorem Files.set_comm {w : Files} {p q : FPath} {a b : Str} (h : p ≠ q) : (w.set p a).set q b = (w.set q b).set p a := by
  funext x
  unfold Files.set
  by_cases h1 : x = q
  · subst h1
    rw [if_pos rfl, if_neg (fun e => h e.symm), if_pos rfl]
  · rw [if_neg h1, if_neg h1]

omit [Uni] in
theorem Stem.unique {s : FPath} {a b : Str} (ha : Stem s a) (hb : Stem s b) : a = b := by
  rcases ha.2 with g | g <;> rcases hb.2 with g' | g'
  · exact List.append_cancel_right (g.symm.trans g')
  · exact absurd (g.symm.trans g') names_disjoint
  · exact absurd (g'.symm.trans g) names_disjoint
  · exact List.append_cancel_right (g.symm.trans g')

omit [Uni] in
/-- an input is not one of its own outputs -/
theorem Stem.not_output {s : FPath} {stem : Str} (h : Stem s stem) (o : Opts) : ¬ Outputs o s s := by
  rintro ⟨stem', -, ⟨h1, h2⟩ | ⟨h1, h2 | h2 | h2⟩⟩ <;> rw [h2] at h1
  · exact absurd h1 (ext_ne (s := c!".jso") (t := c!".htm") (by decide))
  · exact absurd h1 (ext_ne (s := c!".htm") (t := c!".doc") (by decide))
  · exact absurd h1 (ext_ne (s := c!".cs") (t := c!".doc") (by decide))
  · exact absurd h1 (ext_ne (s := c!".jso") (t := c!".doc") (by decide))

/-- The second stage depends on the file it reads, and overwrites its output. -/
theorem runJson_congr {t : Tools} {o : Opts} {w w' : Files} {src : FPath} (hs : src ≠ ⟨o.out, baseName src.name ++ c!".json"⟩)
    (h : ∀ p, p ≠ ⟨o.out, baseName src.name ++ c!".json"⟩ → w' p = w p) : runJson t o w' src = runJson t o w src := by
  have hset : ∀ x, w'.set ⟨o.out, baseName src.name ++ c!".json"⟩ x = w.set ⟨o.out, baseName src.name ++ c!".json"⟩ x := by
    intro x
    funext p
    unfold Files.set
    split
    · rfl
    · rename_i hp; exact h p hp
  unfold runJson
  simp only [hset]

/-- at every moment of the conversion of an input: starting it again gives the same -/
theorem runSpec_midway {t : Tools} {o : Opts} {w w' : Files} {s : FPath} {stem : Str} (hst : Stem s stem) (h : Midway t o w s w') :
    runSpec t o w' s = runSpec t o w s := by
  have hjs : ∀ stem' : Str, (⟨o.out, stem' ++ c!".html"⟩ : FPath) ≠ ⟨o.out, stem' ++ c!".css"⟩ := fun _ e =>
    ext_ne (s := c!".htm") (t := c!".cs") (by decide) (congrArg FPath.name e)
  -- the first stage overwrites what it wrote before
  have hdocx : ∀ w', suffix s.name = c!".docx" → w' s = w s →
      (∀ p, p ≠ ⟨o.out, stem ++ c!".html"⟩ → p ≠ ⟨o.out, stem ++ c!".css"⟩ → p ≠ ⟨o.out, stem ++ c!".json"⟩ → w' p = w p) →
      (∀ e, convertWord t w s = .error e → w' ⟨o.out, stem ++ c!".json"⟩ = w ⟨o.out, stem ++ c!".json"⟩) →
      runSpec t o w' s = runSpec t o w s := by
    intro w' hx hws hag hj
    obtain ⟨stem', g1, g2⟩ := suffix_inv _ _ hx
    have hb : baseName s.name = stem := by
      rw [hst.unique ⟨g1, .inr g2⟩, g2]; exact baseName_of stem' c!"docx" g1 (by decide) (by decide)
    have hcw : convertWord t w' s = convertWord t w s := by unfold convertWord; rw [hws]
    unfold runSpec
    rw [if_pos hx, if_pos hx, hcw, hb]
    cases hc : convertWord t w s with
    | error e =>
      simp only [Prod.mk.injEq, and_true]
      funext p
      unfold Files.set
      split
      · rfl
      · split
        · rfl
        · rename_i h1 h2
          by_cases h3 : p = ⟨o.out, stem ++ c!".json"⟩
          · rw [h3]; exact hj e hc
          · exact hag p h2 h1 h3
    | ok q =>
      simp only
      have hb' : baseName (stem ++ c!".html") = stem := baseName_of stem c!"html" hst.1 (by decide) (by decide)
      refine runJson_congr ?_ ?_
      · intro e
        exact ext_ne (s := c!".htm") (t := c!".jso") (by decide) (congrArg FPath.name e)
      · intro p hp
        simp only [hb'] at hp
        unfold Files.set
        split
        · rfl
        · split
          · rfl
          · rename_i h1 h2
            exact hag p h2 h1 hp
  have hnot : ∀ {w' : Files}, (∀ p, w' p ≠ w p → Outputs o s p) → w' s = w s := by
    intro w' hf
    by_contra hne
    exact hst.not_output o (hf s hne)
  cases h with
  | start => rfl
  | @page x hx =>
    obtain ⟨stem', g1, g2⟩ := suffix_inv _ _ hx
    have hb : baseName s.name = stem := by
      rw [hst.unique ⟨g1, .inr g2⟩, g2]; exact baseName_of stem' c!"docx" g1 (by decide) (by decide)
    rw [hb]
    refine hdocx _ hx (Files.set_ne ?_) (fun p h1 h2 h3 => Files.set_ne h1) (fun e he => Files.set_ne ?_)
    · intro e; rw [e] at g2; exact absurd g2 names_disjoint
    · intro e; exact ext_ne (s := c!".jso") (t := c!".htm") (by decide) (congrArg FPath.name e)
  | @style x y hx =>
    obtain ⟨stem', g1, g2⟩ := suffix_inv _ _ hx
    have hb : baseName s.name = stem := by
      rw [hst.unique ⟨g1, .inr g2⟩, g2]; exact baseName_of stem' c!"docx" g1 (by decide) (by decide)
    rw [hb]
    refine hdocx _ hx ?_ (fun p h1 h2 h3 => by rw [Files.set_ne h2, Files.set_ne h1]) (fun e he => ?_)
    · rw [Files.set_ne, Files.set_ne]
      · intro e; rw [e] at g2; exact absurd g2 names_disjoint
      · intro e; rw [e] at g2; exact absurd g2 (ext_ne (s := c!".cs") (t := c!".doc") (by decide))
    · rw [Files.set_ne, Files.set_ne]
      · intro e; exact ext_ne (s := c!".jso") (t := c!".htm") (by decide) (congrArg FPath.name e)
      · intro e; exact ext_ne (s := c!".jso") (t := c!".cs") (by decide) (congrArg FPath.name e)
  | @model w1 src part text hs ht hpart =>
    cases hs with
    | html hx =>
      unfold runSpec
      rw [if_neg hx, if_neg hx]
      have hh : s.name = stem ++ c!".html" := by
        rcases hst.2 with g | g
        · exact g
        · exact absurd (by rw [g]; exact suffix_of stem c!"docx" hst.1 (by decide) (by decide)) hx
      refine runJson_congr ?_ (fun p hp => Files.set_ne hp)
      intro e
      rw [e] at hh
      exact absurd hh (ext_ne (s := c!".jso") (t := c!".htm") (by decide))
    | @docx h c hx hc =>
      obtain ⟨stem', g1, g2⟩ := suffix_inv _ _ hx
      have hb : baseName s.name = stem := by
        rw [hst.unique ⟨g1, .inr g2⟩, g2]; exact baseName_of stem' c!"docx" g1 (by decide) (by decide)
      have hb' : baseName (stem ++ c!".html") = stem := baseName_of stem c!"html" hst.1 (by decide) (by decide)
      simp only [hb, hb']
      refine hdocx _ hx ?_ (fun p h1 h2 h3 => by rw [Files.set_ne h3, Files.set_ne h2, Files.set_ne h1]) (fun e he => ?_)
      · rw [Files.set_ne, Files.set_ne, Files.set_ne]
        · intro e; rw [e] at g2; exact absurd g2 names_disjoint
        · intro e; rw [e] at g2; exact absurd g2 (ext_ne (s := c!".cs") (t := c!".doc") (by decide))
        · intro e; rw [e] at g2; exact absurd g2 (ext_ne (s := c!".jso") (t := c!".doc") (by decide))
      · rw [hc] at he; cases he

/-- what was processed and was not touched since is processed with nothing changed -/
theorem runSpec_again {t : Tools} {o : Opts} {w w1 w' : Files} {s dst : FPath} {stem : Str} (hst : Stem s stem)
    (h : runSpec t o w s = (w1, .ok dst)) (hs : w' s = w s) (hout : ∀ p, Outputs o s p → w' p = w1 p) :
    runSpec t o w' s = (w', .ok dst) ∧ Outputs o s dst := by
  have hj : ∀ {w2 w3 : Files} {src : FPath} {x : Files} {d : FPath}, runJson t o w2 src = (x, .ok d) →
      d = ⟨o.out, baseName src.name ++ c!".json"⟩ ∧ (src ≠ d → w3 src = w2 src → w3 d = x d → runJson t o w3 src = (w3, .ok d)) := by
    intro w2 w3 src x d hr
    have hd : d = ⟨o.out, baseName src.name ++ c!".json"⟩ := by
      unfold runJson at hr
      simp only [Prod.mk.injEq] at hr
      obtain ⟨-, hr⟩ := hr
      split at hr
      · injection hr with hr; exact hr.symm
      · cases hr
      · cases hr
    refine ⟨hd, fun h1 h2 h3 => ?_⟩
    subst hd
    unfold runJson at hr ⊢
    have hread : ∀ w : Files, readHtml t (w.set ⟨o.out, baseName src.name ++ c!".json"⟩ []) src = readHtml t w src := by
      intro w; unfold readHtml; rw [Files.set_ne h1]
    have hread' : readHtml t w3 src = readHtml t w2 src := by unfold readHtml; rw [h2]
    simp only [Prod.mk.injEq, hread, hread', Files.set_set] at hr ⊢
    refine ⟨?_, hr.2⟩
    refine Files.set_stays ?_
    rw [h3, ← hr.1, Files.set_self]
  unfold runSpec at h ⊢
  by_cases hx : suffix s.name = c!".docx"
  · rw [if_pos hx] at h ⊢
    obtain ⟨stem', g1, g2⟩ := suffix_inv _ _ hx
    have hb : baseName s.name = stem := by
      rw [hst.unique ⟨g1, .inr g2⟩, g2]; exact baseName_of stem' c!"docx" g1 (by decide) (by decide)
    have g2' : s.name = stem ++ c!".docx" := by rw [hst.unique ⟨g1, .inr g2⟩]; exact g2
    have hb' : baseName (stem ++ c!".html") = stem := baseName_of stem c!"html" hst.1 (by decide) (by decide)
    have hcw : convertWord t w' s = convertWord t w s := by unfold convertWord; rw [hs]
    rw [hb] at h
    rw [hcw, hb]
    have o1 : Outputs o s ⟨o.out, stem ++ c!".html"⟩ := ⟨stem, hst.1, .inr ⟨g2', .inl rfl⟩⟩
    have o2 : Outputs o s ⟨o.out, stem ++ c!".css"⟩ := ⟨stem, hst.1, .inr ⟨g2', .inr (.inl rfl)⟩⟩
    have o3 : Outputs o s ⟨o.out, stem ++ c!".json"⟩ := ⟨stem, hst.1, .inr ⟨g2', .inr (.inr rfl)⟩⟩
    have n1 : (⟨o.out, stem ++ c!".html"⟩ : FPath) ≠ ⟨o.out, stem ++ c!".css"⟩ := fun e =>
      ext_ne (s := c!".htm") (t := c!".cs") (by decide) (congrArg FPath.name e)
    have n2 : (⟨o.out, stem ++ c!".html"⟩ : FPath) ≠ ⟨o.out, stem ++ c!".json"⟩ := fun e =>
      ext_ne (s := c!".htm") (t := c!".jso") (by decide) (congrArg FPath.name e)
    have n3 : (⟨o.out, stem ++ c!".css"⟩ : FPath) ≠ ⟨o.out, stem ++ c!".json"⟩ := fun e =>
      ext_ne (s := c!".cs") (t := c!".jso") (by decide) (congrArg FPath.name e)
    cases hc : convertWord t w s with
    | error e => rw [hc] at h; cases h
    | ok q =>
      obtain ⟨a, c⟩ := q
      rw [hc] at h
      simp only at h ⊢
      have hfr : w1 = ((w.set ⟨o.out, stem ++ c!".html"⟩ a).set ⟨o.out, stem ++ c!".css"⟩ c).set ⟨o.out, stem ++ c!".json"⟩
          ((w1 ⟨o.out, stem ++ c!".json"⟩).getD []) := by
        unfold runJson at h
        simp only [hb', Prod.mk.injEq, Files.set_set] at h
        rw [← h.1, Files.set_self]
        rfl
      have e1 : w' ⟨o.out, stem ++ c!".html"⟩ = some a := by
        rw [hout _ o1, hfr, Files.set_ne n2, Files.set_ne n1, Files.set_self]
      have e2 : w' ⟨o.out, stem ++ c!".css"⟩ = some c := by
        rw [hout _ o2, hfr, Files.set_ne n3, Files.set_self]
      rw [Files.set_stays e1, Files.set_stays e2]
      obtain ⟨hd, hagain⟩ := hj (w3 := w') h
      simp only [hb'] at hd
      subst hd
      exact ⟨hagain n2 (by rw [e1, Files.set_ne n1, Files.set_self]) (hout _ o3), o3⟩
  · rw [if_neg hx] at h ⊢
    have hh : s.name = stem ++ c!".html" := by
      rcases hst.2 with g | g
      · exact g
      · exact absurd (by rw [g]; exact suffix_of stem c!"docx" hst.1 (by decide) (by decide)) hx
    have hb : baseName s.name = stem := by rw [hh]; exact baseName_of stem c!"html" hst.1 (by decide) (by decide)
    obtain ⟨hd, hagain⟩ := hj (w3 := w') h
    rw [hb] at hd
    subst hd
    have o3 : Outputs o s ⟨o.out, stem ++ c!".json"⟩ := ⟨stem, hst.1, .inl ⟨hh, rfl⟩⟩
    refine ⟨hagain ?_ hs (hout _ o3), o3⟩
    intro e
    rw [e] at hh
    exact absurd hh (ext_ne (s := c!".jso") (t := c!".htm") (by decide))

omit [Uni] in
theorem stem_of_suffix {s : FPath} (h : [c!".html", c!".docx"].contains (suffix s.name) = true) : ∃ stem, Stem s stem := by
  simp only [List.contains_cons, List.contains_nil, Bool.or_false, Bool.or_eq_true, beq_iff_eq] at h
  rcases h with h | h
  · obtain ⟨stem, g1, g2⟩ := suffix_inv _ _ h
    exact ⟨stem, g1, .inl g2⟩
  · obtain ⟨stem, g1, g2⟩ := suffix_inv _ _ h
    exact ⟨stem, g1, .inr g2⟩

/-- **C82** If the names of the inputs differ in more than their suffix: when a run was killed, at any moment, then starting it again
leads to the same exit status and to the same files, all of them, as if it had not been killed. -/
theorem C82_restart (t : Tools) (o : Opts) (w w' : Files) (ss : List FPath) (h : Killed t o w ss w')
    (hd : ss.Pairwise fun s s' => ∀ stem, Stem s stem → ¬ Stem s' stem) : mainLoop t o w' ss = mainLoop t o w ss := by
  induction h with
  | before => rfl
  | @within w w' s ss h1 h2 h3 =>
    obtain ⟨stem, hst⟩ := stem_of_suffix h2
    rw [mainLoop, mainLoop, runSpec_midway hst h3, if_neg h1, if_neg h1, if_neg (fun hn => hn h2), if_neg (fun hn => hn h2)]
  | @next w w1 w' s dst ss h1 h2 h3 h4 h5 ih =>
    rw [List.pairwise_cons] at hd
    obtain ⟨stem, hst⟩ := stem_of_suffix h2
    have hkeep : ∀ p, (p = s ∨ Outputs o s p) → w' p = w1 p := by
      intro p hp
      by_contra hne
      obtain ⟨pre, s', post, w0, e1, -, e2, -⟩ := C81_killed t o w1 w' ss h5 p hne
      have hs' : s' ∈ ss := by rw [e1]; simp
      rcases hp with rfl | hp
      · exact hd.1 s' hs' stem hst (e2.input hst)
      · obtain ⟨stem1, k1, k2⟩ := hp.stem
        obtain ⟨stem2, k3, k4⟩ := e2.stem
        have : stem1 = stem2 := by
          rcases k2 with k2 | k2 | k2 <;> rcases k4 with k4 | k4 | k4 <;> rw [k2] at k4
          · exact List.append_cancel_right k4
          · exact absurd k4 (ext_ne (s := c!".jso") (t := c!".htm") (by decide))
          · exact absurd k4 (ext_ne (s := c!".jso") (t := c!".cs") (by decide))
          · exact absurd k4 (ext_ne (s := c!".htm") (t := c!".jso") (by decide))
          · exact List.append_cancel_right k4
          · exact absurd k4 (ext_ne (s := c!".htm") (t := c!".cs") (by decide))
          · exact absurd k4 (ext_ne (s := c!".cs") (t := c!".jso") (by decide))
          · exact absurd k4 (ext_ne (s := c!".cs") (t := c!".htm") (by decide))
          · exact List.append_cancel_right k4
        subst this
        exact hd.1 s' hs' stem1 k1 k3
    have hs1 : w1 s = w s := by
      by_contra hne
      exact hst.not_output o ((processed_of_run h1 h2 h3 h4).frame hne)
    obtain ⟨g1, g2⟩ := runSpec_again hst h3 ((hkeep s (.inl rfl)).trans hs1) (fun p hp => hkeep p (.inr hp))
    have hv : validateJson w' dst = validateJson w1 dst := by
      unfold validateJson
      rw [hkeep dst (.inr g2)]
    rw [mainLoop, mainLoop, if_neg h1, if_neg h1, if_neg (fun hn => hn h2), if_neg (fun hn => hn h2), h3, g1]
    simp only [hv, h4]
    exact ih hd.2

/-- **C82** The same for the command line. -/
theorem C82_restart_cli (t : Tools) (cwd : Str) (a : CliArgs) (w w' : Files) (ign : List LintErr) (hl : Ignores a.lintIgnore ign)
    (hi : ∀ i ∈ a.inputs, w i ≠ none) (h : Killed t (options cwd a ign) w a.inputs w')
    (hd : a.inputs.Pairwise fun s s' => ∀ stem, Stem s stem → ¬ Stem s' stem) : cliMain t cwd a w' = cliMain t cwd a w := by
  rw [← ignores_iff] at hl
  have he : ∀ v : Files, (∀ i ∈ a.inputs, v i ≠ none) → a.inputs.any (fun i => (v i).isNone) = false := by
    intro v hv
    rw [List.any_eq_false]
    intro i hi
    rw [Option.isNone_iff_eq_none]
    exact hv i hi
  unfold cliMain
  by_cases h1 : a.inputs = []
  · rw [if_pos h1, if_pos h1]
    rw [h1] at h
    cases h
    rfl
  · rw [if_neg h1, if_neg h1, he w hi, he w' (fun i hm => h.exists (hi i hm)), hl]
    exact C82_restart t (options cwd a ign) w w' a.inputs h hd

/-- **C82** A run which is repeated has the same exit status and changes no file. -/
theorem C82_again (t : Tools) (cwd : Str) (a : CliArgs) (w : Files)
    (hd : a.inputs.Pairwise fun s s' => ∀ stem, Stem s stem → ¬ Stem s' stem) :
    cliMain t cwd a (cliMain t cwd a w).1 = cliMain t cwd a w := by
  by_cases h1 : a.inputs = []
  · unfold cliMain
    rw [if_pos h1, if_pos h1]
  by_cases h2 : ∀ i ∈ a.inputs, w i ≠ none
  · cases hl : lintArg a.lintIgnore with
    | error e =>
      have : ∀ v, (cliMain t cwd a v) = (v, 1) := by
        intro v
        unfold cliMain
        rw [if_neg h1, hl]
        simp
      rw [this w, this]
    | ok ign =>
      refine C82_restart_cli t cwd a w _ ign ((ignores_iff _ _).1 hl) h2 ?_ hd
      have he : a.inputs.any (fun i => (w i).isNone) = false := by
        rw [List.any_eq_false]
        intro i hi
        rw [Option.isNone_iff_eq_none]
        exact h2 i hi
      unfold cliMain
      rw [if_neg h1, he, hl]
      exact killed_end t (options cwd a ign) w a.inputs
  · have he : a.inputs.any (fun i => (w i).isNone) = true := by
      rw [List.any_eq_true]
      simp only [not_forall, not_not] at h2
      obtain ⟨i, hi, hn⟩ := h2
      exact ⟨i, hi, by rw [hn]; rfl⟩
    have : cliMain t cwd a w = (w, 1) := by
      unfold cliMain
      rw [if_neg h1, if_pos he]
    rw [this, this]

/-- **C82** The page which the first stage wrote can be given to spex in the place of the Word document: it leads to the same result and
changes no file. -/
theorem C82_from_page (t : Tools) (o : Opts) (w : Files) (s : FPath) (stem bytes page css : Str) (h1 : stem ≠ [])
    (h2 : s.name = stem ++ c!".docx") (h3 : w s = some bytes) (h4 : t.docx stem bytes = .ok (page, css)) :
    runSpec t o (runSpec t o w s).1 ⟨o.out, stem ++ c!".html"⟩ = runSpec t o w s := by
  have hx : suffix s.name = c!".docx" := by rw [h2]; exact suffix_of stem c!"docx" h1 (by decide) (by decide)
  have hb : baseName s.name = stem := by rw [h2]; exact baseName_of stem c!"docx" h1 (by decide) (by decide)
  have hx' : suffix (stem ++ c!".html") ≠ c!".docx" := by rw [suffix_of stem c!"html" h1 (by decide) (by decide)]; decide
  have hb' : baseName (stem ++ c!".html") = stem := baseName_of stem c!"html" h1 (by decide) (by decide)
  have hrun : runSpec t o w s = runJson t o ((w.set ⟨o.out, stem ++ c!".html"⟩ page).set ⟨o.out, stem ++ c!".css"⟩ css) ⟨o.out, stem ++ c!".html"⟩ := by
    rw [runSpec, if_pos hx, convertWord, h3]
    simp only [hb, h4]
  rw [hrun]
  conv => lhs; unfold runSpec
  rw [if_neg hx']
  refine runJson_congr ?_ ?_
  · intro e
    exact ext_ne (s := c!".htm") (t := c!".jso") (by decide) (congrArg FPath.name e)
  · intro p hp
    unfold runJson
    simp only [Files.set_set]
    exact Files.set_ne hp

/-- **C82** If the page was cut short, because the first stage was killed while writing it: giving it to spex fails, or leads to the
same model as the whole page. -/
theorem C82_from_cut_page (unzip : Str → WordFile) (layout : List Piece → Str) (o : Opts) (w : Files) (html : FPath) (stem page part : Str)
    (h1 : stem ≠ []) (h2 : html.name = stem ++ c!".html") (hp : part <+: page) (root : Node)
    (hr : (stageTools unzip layout).xml page = .ok root) :
    let cut := runSpec (stageTools unzip layout) o (w.set html part) html
    let whole := runSpec (stageTools unzip layout) o (w.set html page) html
    (∃ e, cut.2 = .error e) ∨
      (cut.2 = whole.2 ∧ cut.1 ⟨o.out, stem ++ c!".json"⟩ = whole.1 ⟨o.out, stem ++ c!".json"⟩) := by
  intro cut whole
  have hx : suffix html.name ≠ c!".docx" := by rw [h2, suffix_of stem c!"html" h1 (by decide) (by decide)]; decide
  have hb : baseName html.name = stem := by rw [h2]; exact baseName_of stem c!"html" h1 (by decide) (by decide)
  have hne : html ≠ ⟨o.out, stem ++ c!".json"⟩ := by
    intro e
    rw [e] at h2
    exact ext_ne (s := c!".jso") (t := c!".htm") (by decide) h2
  have hrun : ∀ w, runSpec (stageTools unzip layout) o w html = runJson (stageTools unzip layout) o w html := by
    intro w; rw [runSpec, if_neg hx]
  have hread : ∀ x, readHtml (stageTools unzip layout) ((w.set html x).set ⟨o.out, stem ++ c!".json"⟩ []) html = (stageTools unzip layout).xml x := by
    intro x
    unfold readHtml
    rw [Files.set_ne hne, Files.set_self]
  have hxml : (stageTools unzip layout).xml part = (stageTools unzip layout).xml page ∨ (stageTools unzip layout).xml part = .error .xmlSyntaxError := by
    unfold stageTools at hr ⊢
    simp only at hr ⊢
    cases hp1 : readXml part with
    | none => exact .inr rfl
    | some a =>
      cases hp2 : readXml page with
      | none => rw [hp2] at hr; cases hr
      | some b => rw [readXml_part hp hp1 hp2]; exact .inl rfl
  show (∃ e, (runSpec _ o _ html).2 = .error e) ∨ _
  rcases hxml with he | he
  · right
    show (runSpec _ o _ html).2 = (runSpec _ o _ html).2 ∧ (runSpec _ o _ html).1 _ = (runSpec _ o _ html).1 _
    rw [hrun, hrun]
    unfold runJson
    simp only [hb, hread, he, Files.set_self, and_self]
  · left
    rw [hrun]
    unfold runJson
    simp only [hb, hread, he]
    refine ⟨.xmlSyntaxError, ?_⟩
    rfl

end

/-- The names have to differ: the HTML file given as the first input is overwritten while the Word document of the same name is
converted; when this is killed, then the first input cannot be read any more, though the run was about to succeed. -/
theorem C82_same_name_false : letI := Uni.ascii
    let o : Opts := options c!"/o" (withInputs []) []
    let w : Files := someFiles.set ⟨c!"/o", c!"b.html"⟩ c!"A"
    let ss : List FPath := [⟨c!"/o", c!"b.html"⟩, ⟨c!"/d", c!"b.docx"⟩]
    ∃ w', Killed someTools o w ss w' ∧ (mainLoop someTools o w ss).2 = 0 ∧ (mainLoop someTools o w' ss).2 = 1 := by
  let _ := Uni.ascii
  intro o w ss
  let w1 := (runSpec someTools o w ⟨c!"/o", c!"b.html"⟩).1
  refine ⟨w1.set ⟨o.out, baseName c!"b.docx" ++ c!".html"⟩ [], ?_, by decide +kernel, by decide +kernel⟩
  exact .next (w1 := w1) (dst := ⟨c!"/o", c!"b.json"⟩) (by decide +kernel) (by decide +kernel) (Prod.ext rfl (by decide +kernel))
    (by decide +kernel) (.within (by decide +kernel) (by decide +kernel) (.page (by decide +kernel)))

/-- a page with a line break at its end, which is cut to nothing, within, and before the line break -/
example : let page := c!"<!DOCTYPE html>\n<html><p>a</p></html>\n"
    (readXml page).isSome = true ∧ (readXml (page.take 0)).isSome = false ∧ (readXml (page.take 26)).isSome = false ∧
    (readXml (page.take 37)).isSome = true ∧ page.length = 38 := by
  decide +kernel

/-- a repeated run, with an input which fails -/
example : letI := Uni.ascii
    let a := withInputs [⟨c!"/d", c!"b.docx"⟩, ⟨c!"/d", c!"bad.html"⟩, ⟨c!"/d", c!"a.html"⟩]
    (cliMain someTools c!"/o" a someFiles).2 = 1 ∧ (cliMain someTools c!"/o" a (cliMain someTools c!"/o" a someFiles).1).2 = 1 ∧
      (cliMain someTools c!"/o" a someFiles).1 ⟨c!"/o", c!"b.json"⟩ ≠ none := by
  decide +kernel

end Spex
