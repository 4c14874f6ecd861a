import Verif.Props.Resume
/-
C101: the inputs of a command line can be given in any order, and one by one.
-/
set_option autoImplicit false
namespace Spex
section
variable [Uni]

/-! ### Processing an input, as a list of writes -/

omit [Uni] in
/-- files written one after the other -/
def Files.setAll (w : Files) (l : List (FPath × Str)) : Files := l.foldl (fun w e => w.set e.1 e.2) w

omit [Uni] in
theorem Files.setAll_set {w : Files} {l : List (FPath × Str)} {p : FPath} {x : Str} (h : ∀ e ∈ l, e.1 ≠ p) :
    (w.set p x).setAll l = (w.setAll l).set p x := by
  induction l generalizing w with
  | nil => rfl
  | cons e l ih =>
    change ((w.set p x).set e.1 e.2).setAll l = ((w.set e.1 e.2).setAll l).set p x
    rw [Files.set_comm (fun he => h e (by simp) he.symm), ih (fun e he => h e (by simp [he]))]

omit [Uni] in
theorem Files.setAll_comm {w : Files} {l m : List (FPath × Str)} (h : ∀ e ∈ l, ∀ f ∈ m, e.1 ≠ f.1) :
    (w.setAll l).setAll m = (w.setAll m).setAll l := by
  induction m generalizing w with
  | nil => rfl
  | cons f m ih =>
    change ((w.setAll l).set f.1 f.2).setAll m = ((w.set f.1 f.2).setAll m).setAll l
    rw [← Files.setAll_set (fun e he => h e he f (by simp)), ih (fun e he f hf => h e he f (by simp [hf]))]

omit [Uni] in
theorem Files.setAll_ne {w : Files} {l : List (FPath × Str)} {p : FPath} (h : ∀ e ∈ l, e.1 ≠ p) : w.setAll l p = w p := by
  induction l generalizing w with
  | nil => rfl
  | cons e l ih =>
    change (w.set e.1 e.2).setAll l p = _
    rw [ih (fun e he => h e (by simp [he])), Files.set_ne (fun he => h e (by simp) he.symm)]

/-- an input is processed in the same way among other files, if it is the same itself -/
theorem Processed.writes {t : Tools} {o : Opts} {w w1 : Files} {s : FPath} (h : Processed t o w s w1) :
    ∃ l : List (FPath × Str), w1 = w.setAll l ∧ (∀ e ∈ l, Outputs o s e.1) ∧ ∀ v : Files, v s = w s → Processed t o v s (v.setAll l) := by
  obtain ⟨stem, root, hc, j, hs, hj, hv, rfl⟩ := h
  cases hs with
  | html h1 h2 h3 h4 =>
    refine ⟨[(⟨o.out, stem ++ c!".json"⟩, jsonDump 0 j)], rfl, ?_, fun v hw => ⟨stem, root, none, j, .html h1 h2 (hw.trans h3) h4, hj, hv, rfl⟩⟩
    intro e he
    rw [List.mem_singleton] at he
    subst he
    exact ⟨stem, h1, .inl ⟨h2, rfl⟩⟩
  | @docx bytes a c _ h1 h2 h3 h4 h5 =>
    refine ⟨[(⟨o.out, stem ++ c!".html"⟩, a), (⟨o.out, stem ++ c!".css"⟩, c), (⟨o.out, stem ++ c!".json"⟩, jsonDump 0 j)], rfl, ?_,
      fun v hw => ⟨stem, root, some (a, c), j, .docx h1 h2 (hw.trans h3) h4 h5, hj, hv, rfl⟩⟩
    intro e he
    simp only [List.mem_cons, List.not_mem_nil, or_false] at he
    rcases he with rfl | rfl | rfl
    · exact ⟨stem, h1, .inr ⟨h2, .inl rfl⟩⟩
    · exact ⟨stem, h1, .inr ⟨h2, .inr (.inl rfl)⟩⟩
    · exact ⟨stem, h1, .inr ⟨h2, .inr (.inr rfl)⟩⟩

theorem Processed.isStem {t : Tools} {o : Opts} {w w1 : Files} {s : FPath} (h : Processed t o w s w1) : ∃ stem, Stem s stem := by
  obtain ⟨stem, root, hc, j, hs, -⟩ := h
  exact ⟨stem, hs.isStem⟩

/-- the names of two inputs differ in more than their suffix -/
def Apart (s s' : FPath) : Prop := ∀ stem, Stem s stem → ¬ Stem s' stem

omit [Uni] in
theorem Apart.symm {s s' : FPath} (h : Apart s s') : Apart s' s := fun stem h1 h2 => h stem h2 h1

omit [Uni] in
theorem Outputs.apart {o : Opts} {s s' p : FPath} (hd : Apart s s') (h : Outputs o s p) : ¬ Outputs o s' p := by
  obtain ⟨stem, h1, h2⟩ := h.stem
  intro h'
  obtain ⟨stem', h3, h4⟩ := h'.stem
  have : stem = stem' := by
    rcases h2 with h2 | h2 | h2 <;> rcases h4 with h4 | h4 | h4 <;> rw [h2] at h4
    · exact List.append_cancel_right h4
    · exact absurd h4 (ext_ne (s := c!".jso") (t := c!".htm") (by decide))
    · exact absurd h4 (ext_ne (s := c!".jso") (t := c!".cs") (by decide))
    · exact absurd h4 (ext_ne (s := c!".htm") (t := c!".jso") (by decide))
    · exact List.append_cancel_right h4
    · exact absurd h4 (ext_ne (s := c!".htm") (t := c!".cs") (by decide))
    · exact absurd h4 (ext_ne (s := c!".cs") (t := c!".jso") (by decide))
    · exact absurd h4 (ext_ne (s := c!".cs") (t := c!".htm") (by decide))
    · exact List.append_cancel_right h4
  subst this
  exact hd stem h1 h3

theorem Processed.swap {t : Tools} {o : Opts} {w w1 w2 : Files} {s s' : FPath} (h : Processed t o w s w1) (h' : Processed t o w1 s' w2)
    (hd : Apart s s') : ∃ v, Processed t o w s' v ∧ Processed t o v s w2 := by
  obtain ⟨stem, hst⟩ := h.isStem
  obtain ⟨stem', hst'⟩ := h'.isStem
  obtain ⟨l, rfl, hl, hp⟩ := h.writes
  obtain ⟨m, rfl, hm, hp'⟩ := h'.writes
  have e1 : w s' = w.setAll l s' := (Files.setAll_ne (p := s') (fun e he heq => hd stem' ((show Outputs o s s' from heq ▸ hl e he).input hst') hst')).symm
  have e2 : w.setAll m s = w s := Files.setAll_ne (p := s) (fun e he heq => hd stem hst ((show Outputs o s' s from heq ▸ hm e he).input hst))
  refine ⟨w.setAll m, hp' w e1, ?_⟩
  rw [Files.setAll_comm (fun e he f hf heq => (hl e he).apart hd (heq ▸ hm f hf))]
  exact hp _ e2

/-- inputs of different names can be processed in any order -/
theorem AllDone.perm {t : Tools} {o : Opts} {ss ss' : List FPath} (hp : ss.Perm ss') : ∀ {w w' : Files}, ss.Pairwise Apart →
    AllDone t o w ss w' → AllDone t o w ss' w' := by
  induction hp with
  | nil => exact fun _ h => h
  | cons x _ ih =>
    intro w w' hd h
    cases h with
    | cons h1 h2 => exact .cons h1 (ih (List.pairwise_cons.1 hd).2 h2)
  | swap x y l =>
    intro w w' hd h
    cases h with
    | cons h1 h2 =>
      cases h2 with
      | cons h2 h3 =>
        obtain ⟨v, k1, k2⟩ := h1.swap h2 ((List.pairwise_cons.1 hd).1 x (by simp))
        exact .cons k1 (.cons k2 h3)
  | trans p1 _ ih1 ih2 =>
    intro w w' hd h
    exact ih2 ((p1.pairwise_iff (fun h => h.symm)).1 hd) (ih1 hd h)

theorem AllDone.append {t : Tools} {o : Opts} {xs ys : List FPath} {w w' : Files} :
    AllDone t o w (xs ++ ys) w' ↔ ∃ v, AllDone t o w xs v ∧ AllDone t o v ys w' := by
  induction xs generalizing w with
  | nil =>
    constructor
    · exact fun h => ⟨w, .nil, h⟩
    · rintro ⟨v, h1, h2⟩
      cases h1
      exact h2
  | cons x xs ih =>
    constructor
    · intro h
      cases h with
      | cons h1 h2 =>
        obtain ⟨v, k1, k2⟩ := ih.1 h2
        exact ⟨v, .cons h1 k1, k2⟩
    · rintro ⟨v, h1, h2⟩
      cases h1 with
      | cons h1 h3 => exact .cons h1 (ih.2 ⟨v, h3, h2⟩)

theorem AllDone.stems {t : Tools} {o : Opts} {ss : List FPath} {w w' : Files} (h : AllDone t o w ss w') : ∀ s ∈ ss, ∃ stem, Stem s stem := by
  induction h with
  | nil => simp
  | cons h1 _ ih =>
    intro s hs
    rcases List.mem_cons.1 hs with rfl | hs
    · exact h1.isStem
    · exact ih s hs

omit [Uni] in
theorem Ignores.unique {o : Option Str} {a b : List LintErr} [Uni] (ha : Ignores o a) (hb : Ignores o b) : a = b := by
  rw [← ignores_iff] at ha hb
  rw [ha] at hb
  injection hb

/-! ### C101 -/

/-- **C101** The order of the inputs does not matter, if their names differ in more than their suffix: the exit status is the same, and
if the run is successful, then all files are. -/
theorem C101_order (t : Tools) (cwd : Str) (a : CliArgs) (ss : List FPath) (w : Files) (hp : a.inputs.Perm ss)
    (hd : a.inputs.Pairwise fun s s' => ∀ stem, Stem s stem → ¬ Stem s' stem) :
    (cliMain t cwd { a with inputs := ss } w).2 = (cliMain t cwd a w).2 ∧
    ((cliMain t cwd a w).2 = 0 → (cliMain t cwd { a with inputs := ss } w).1 = (cliMain t cwd a w).1) := by
  have one : ∀ (b : CliArgs) (ss : List FPath) (w' : Files), b.inputs.Perm ss → b.inputs.Pairwise Apart → cliMain t cwd b w = (w', 0) →
      cliMain t cwd { b with inputs := ss } w = (w', 0) := by
    intro b ss w' hp hd h
    obtain ⟨h1, h2, ign, h3, h4⟩ := (C52_success t cwd b w w').1 h
    refine (C52_success t cwd _ w w').2 ⟨fun e => h1 ?_, fun i hi => h2 i (hp.mem_iff.2 hi), ign, h3, ?_⟩
    · simp only at e
      rw [e] at hp
      exact hp.eq_nil
    · exact h4.perm hp hd
  have hd' : ss.Pairwise Apart := (hp.pairwise_iff (fun h => h.symm)).1 hd
  by_cases h0 : (cliMain t cwd a w).2 = 0
  · have := one a ss _ hp hd (Prod.ext rfl h0)
    rw [this]
    exact ⟨h0.symm, fun _ => rfl⟩
  · have h0' : (cliMain t cwd { a with inputs := ss } w).2 ≠ 0 := by
      intro h
      have := one { a with inputs := ss } a.inputs _ hp.symm hd' (Prod.ext rfl h)
      exact h0 (congrArg Prod.snd this)
    refine ⟨?_, fun h => absurd h h0⟩
    obtain ⟨a1, a2⟩ := C52_status t cwd a w
    obtain ⟨b1, b2⟩ := C52_status t cwd { a with inputs := ss } w
    have he : (cliMain t cwd { a with inputs := ss } w).2 = 2 ↔ (cliMain t cwd a w).2 = 2 := by
      rw [a1, b1]
      refine and_congr_left fun _ => ⟨fun e => ?_, fun e => ?_⟩
      · simp only at e
        rw [e] at hp
        exact hp.eq_nil
      · rw [e] at hp
        exact hp.symm.eq_nil
    omega

/-- **C101** Several inputs in one run, or in two: the run with all of them is successful iff both runs are, one after the other, and then
the files are the same. -/
theorem C101_split (t : Tools) (cwd : Str) (a : CliArgs) (xs ys : List FPath) (w w' : Files) (ha : a.inputs = xs ++ ys) (hx : xs ≠ []) (hy : ys ≠ [])
    (hd : a.inputs.Pairwise fun s s' => ∀ stem, Stem s stem → ¬ Stem s' stem) :
    cliMain t cwd a w = (w', 0) ↔
      ∃ v, cliMain t cwd { a with inputs := xs } w = (v, 0) ∧ cliMain t cwd { a with inputs := ys } v = (w', 0) := by
  simp only [C52_success]
  -- an input of the second run is not written by the first
  have keep : ∀ {o : Opts} {v u : Files}, AllDone t o w xs v → AllDone t o v ys u → ∀ i ∈ ys, v i = w i := by
    intro o v u h1 h2 i hi
    by_contra hne
    obtain ⟨s, hs, ho⟩ := h1.frame hne
    obtain ⟨stem, hst⟩ := h2.stems i hi
    rw [ha] at hd
    exact (List.pairwise_append.1 hd).2.2 s hs i hi stem (ho.input hst) hst
  constructor
  · rintro ⟨h1, h2, ign, h3, h4⟩
    rw [ha] at h4
    obtain ⟨v, k1, k2⟩ := AllDone.append.1 h4
    refine ⟨v, ⟨hx, fun i hi => h2 i (by rw [ha]; simp [hi]), ign, h3, k1⟩, hy, fun i hi => ?_, ign, h3, k2⟩
    rw [keep k1 k2 i hi]
    exact h2 i (by rw [ha]; simp [hi])
  · rintro ⟨v, ⟨-, h2, ign, h3, h4⟩, -, h5, ign', h6, h7⟩
    obtain rfl := h3.unique h6
    refine ⟨by rw [ha]; simp [hx], fun i hi => ?_, ign, h3, ?_⟩
    · rw [ha, List.mem_append] at hi
      rcases hi with hi | hi
      · exact h2 i hi
      · rw [← keep h4 h7 i hi]
        exact h5 i hi
    · rw [ha]
      exact AllDone.append.2 ⟨v, h4, h7⟩

/-- **C101** What a successful run makes of one of its inputs is what a run with this input alone makes of it. -/
theorem C101_alone (t : Tools) (cwd : Str) (a : CliArgs) (w w' : Files) (h : cliMain t cwd a w = (w', 0))
    (hd : a.inputs.Pairwise fun s s' => ∀ stem, Stem s stem → ¬ Stem s' stem) (s : FPath) (hs : s ∈ a.inputs) :
    ∃ v, cliMain t cwd { a with inputs := [s] } w = (v, 0) ∧
      ∀ stem ext, Stem s stem → ext ∈ [c!".html", c!".css", c!".json"] →
        v ⟨a.output.getD cwd, stem ++ ext⟩ = w' ⟨a.output.getD cwd, stem ++ ext⟩ := by
  have hp : a.inputs.Perm (s :: a.inputs.erase s) := List.perm_cons_erase hs
  have hd' : (s :: a.inputs.erase s).Pairwise Apart := (hp.pairwise_iff (fun h => h.symm)).1 hd
  obtain ⟨h1, h2, ign, h3, h4⟩ := (C52_success t cwd a w w').1 h
  have h5 := h4.perm hp hd
  cases h5 with
  | @cons _ v _ _ _ k1 k2 =>
    refine ⟨v, (C52_success t cwd _ w v).2 ⟨by simp, ?_, ign, h3, .cons k1 .nil⟩, ?_⟩
    · intro i hi
      simp only [List.mem_singleton] at hi
      exact hi ▸ h2 s hs
    · intro stem ext hst hext
      by_contra hne
      obtain ⟨s', hs', ho⟩ := k2.frame (Ne.symm hne)
      refine (List.pairwise_cons.1 hd').1 s' hs' stem hst ?_
      obtain ⟨stem', g1, g2⟩ := ho.stem
      simp only [List.mem_cons, List.not_mem_nil, or_false] at hext
      have : stem = stem' := by
        rcases hext with rfl | rfl | rfl <;> rcases g2 with g | g | g <;> simp only at g
        · exact absurd g (ext_ne (s := c!".htm") (t := c!".jso") (by decide))
        · exact List.append_cancel_right g
        · exact absurd g (ext_ne (s := c!".htm") (t := c!".cs") (by decide))
        · exact absurd g (ext_ne (s := c!".cs") (t := c!".jso") (by decide))
        · exact absurd g (ext_ne (s := c!".cs") (t := c!".htm") (by decide))
        · exact List.append_cancel_right g
        · exact List.append_cancel_right g
        · exact absurd g (ext_ne (s := c!".jso") (t := c!".htm") (by decide))
        · exact absurd g (ext_ne (s := c!".jso") (t := c!".cs") (by decide))
      rw [this]
      exact g1

/-! ### Examples -/

/-- the hypotheses of C101: a Word document and an HTML model, in either order -/
example : letI := Uni.ascii
    let a := withInputs [⟨c!"/d", c!"b.docx"⟩, ⟨c!"/d", c!"a.html"⟩]
    a.inputs.Perm [⟨c!"/d", c!"a.html"⟩, ⟨c!"/d", c!"b.docx"⟩] ∧
    (a.inputs.Pairwise fun s s' => ∀ stem, Stem s stem → ¬ Stem s' stem) ∧
    (cliMain someTools c!"/o" a someFiles).2 = 0 := by
  let _ := Uni.ascii
  refine ⟨.swap _ _ _, ?_, by decide +kernel⟩
  simp only [withInputs, List.pairwise_cons, List.mem_singleton, forall_eq, List.not_mem_nil, false_implies, implies_true, List.Pairwise.nil, and_true]
  rintro stem ⟨-, h' | h'⟩ ⟨-, h | h⟩
  · exact names_disjoint (stem' := ['b']) h'.symm
  · exact names_disjoint (stem' := ['b']) h'.symm
  · have : stem = ['a'] := (List.append_cancel_right (bs := c!".html") (as := ['a']) h).symm
    subst this
    simp at h'
  · exact names_disjoint (stem := ['a']) h

omit [Uni] in
/-- The different names are needed: with the same name in two directories, the order decides what is in the file. -/
theorem C101_same_name_false : letI := Uni.ascii
    let first : FPath := ⟨c!"/d", c!"a.html"⟩
    let second : FPath := ⟨c!"/e", c!"a.html"⟩
    let run (l : List FPath) := cliMain someTools c!"/o" (withInputs l) someFiles
    (run [first, second]).2 = 0 ∧ (run [second, first]).2 = 0 ∧
      (run [first, second]).1 ⟨c!"/o", c!"a.json"⟩ ≠ (run [second, first]).1 ⟨c!"/o", c!"a.json"⟩ := by
  decide +kernel

omit [Uni] in
/-- They are also needed for a Word document and the page made of it: the page is there for the second of two runs, but not for one run. -/
theorem C101_page_false : letI := Uni.ascii
    let word : FPath := ⟨c!"/d", c!"b.docx"⟩
    let page : FPath := ⟨c!"/o", c!"b.html"⟩
    let run (l : List FPath) (w : Files) := cliMain someTools c!"/o" (withInputs l) w
    (run [word] someFiles).2 = 0 ∧ (run [page] (run [word] someFiles).1).2 = 0 ∧ (run [word, page] someFiles).2 = 1 := by
  decide +kernel

end
end Spex
