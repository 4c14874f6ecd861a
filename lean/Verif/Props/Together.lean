import Verif.Model.Together
import Verif.Props.InputOrder
/-
C102: runs of the command line at the same time.
-/
set_option autoImplicit false
namespace Spex

/-! ### A process alone -/

/-- a process which is the only one: the files in the end, and its exit status -/
def Prog.alone : Prog → Files → Files × Nat
  | .halt s, w => (w, s)
  | .write p x k, w => k.alone (w.set p x)
  | .read p k, w => (k (w p)).alone w

/-- the number of its steps -/
def Prog.steps : Prog → Files → Nat
  | .halt _, _ => 0
  | .write p x k, w => k.steps (w.set p x) + 1
  | .read p k, w => (k (w p)).steps w + 1

/-- the files which a process reads are in `R`, those which it writes in `W` -/
def Prog.Within (R W : FPath → Prop) : Prog → Prop
  | .halt _ => True
  | .write p _ k => W p ∧ k.Within R W
  | .read p k => R p ∧ ∀ c, (k c).Within R W

theorem Prog.alone_congr {R W : FPath → Prop} {p : Prog} (h : p.Within R W) : ∀ {w v : Files}, (∀ q, R q ∨ W q → w q = v q) →
    (p.alone w).2 = (p.alone v).2 ∧ p.steps w = p.steps v ∧ ∀ q, R q ∨ W q → (p.alone w).1 q = (p.alone v).1 q := by
  induction p with
  | halt s => exact fun hw => ⟨rfl, rfl, hw⟩
  | write q x k ih =>
    intro w v hw
    have := ih h.2 (w := w.set q x) (v := v.set q x) (by
      intro r hr
      unfold Files.set
      split
      · rfl
      · exact hw r hr)
    exact ⟨this.1, congrArg (· + 1) this.2.1, this.2.2⟩
  | read q k ih =>
    intro w v hw
    have e : w q = v q := hw q (.inl h.1)
    have := ih (w q) (h.2 _) hw
    refine ⟨?_, ?_, ?_⟩
    · change ((k (w q)).alone w).2 = ((k (v q)).alone v).2
      rw [← e]; exact this.1
    · change (k (w q)).steps w + 1 = (k (v q)).steps v + 1
      rw [← e, this.2.1]
    · change ∀ r, R r ∨ W r → ((k (w q)).alone w).1 r = ((k (v q)).alone v).1 r
      rw [← e]; exact this.2.2

theorem Prog.alone_step (p : Prog) (w : Files) : (p.step w).1.alone (p.step w).2 = p.alone w := by cases p <;> rfl

theorem Prog.steps_step (p : Prog) (w : Files) : (p.step w).1.steps (p.step w).2 = p.steps w - 1 := by cases p <;> rfl

theorem Prog.steps_zero {p : Prog} {w : Files} (h : p.steps w = 0) : ∃ s, p = .halt s := by
  cases p with
  | halt s => exact ⟨s, rfl⟩
  | write => simp [Prog.steps] at h
  | read => simp [Prog.steps] at h

theorem Prog.within_step {R W : FPath → Prop} {p : Prog} (h : p.Within R W) (w : Files) : (p.step w).1.Within R W := by
  cases p with
  | halt => exact h
  | write => exact h.2
  | read => exact h.2 _

theorem Prog.step_files {R W : FPath → Prop} {p : Prog} (h : p.Within R W) (w : Files) {q : FPath} (hq : ¬ W q) : (p.step w).2 q = w q := by
  cases p with
  | halt => rfl
  | write r x k => exact Files.set_ne (fun e => hq (e ▸ h.1))
  | read => rfl

/-! ### Processes which do not write the files of each other -/

theorem Procs.run_apart {ι : Type} [DecidableEq ι] (R W : ι → FPath → Prop) (hd : ∀ i j, i ≠ j → ∀ q, W i q → ¬ R j q ∧ ¬ W j q)
    (s0 : Procs ι) (h0 : ∀ i, (s0.prog i).Within (R i) (W i)) (l : List ι) :
    (∀ i, ((s0.run l).prog i).Within (R i) (W i) ∧
      (((s0.run l).prog i).alone (s0.run l).files).2 = ((s0.prog i).alone s0.files).2 ∧
      ((s0.run l).prog i).steps (s0.run l).files = (s0.prog i).steps s0.files - l.count i ∧
      ∀ q, R i q ∨ W i q → (((s0.run l).prog i).alone (s0.run l).files).1 q = ((s0.prog i).alone s0.files).1 q) ∧
    ∀ q, (∀ i, ¬ W i q) → (s0.run l).files q = s0.files q := by
  induction l generalizing s0 with
  | nil => exact ⟨fun i => ⟨h0 i, rfl, by simp [Procs.run], fun _ _ => rfl⟩, fun _ _ => rfl⟩
  | cons j l ih =>
    have hw : ∀ i, ((s0.step j).prog i).Within (R i) (W i) := by
      intro i
      simp only [Procs.step]
      split
      · rename_i e
        subst e
        exact Prog.within_step (h0 i) _
      · exact h0 i
    have hs : ∀ i, (((s0.step j).prog i).alone (s0.step j).files).2 = ((s0.prog i).alone s0.files).2 ∧
        ((s0.step j).prog i).steps (s0.step j).files = (s0.prog i).steps s0.files - (if j = i then 1 else 0) ∧
        ∀ q, R i q ∨ W i q → (((s0.step j).prog i).alone (s0.step j).files).1 q = ((s0.prog i).alone s0.files).1 q := by
      intro i
      by_cases e : i = j
      · subst e
        simp only [Procs.step, if_true, Prog.alone_step, Prog.steps_step]
        exact ⟨trivial, trivial, fun _ _ => trivial⟩
      · have e' : ¬ j = i := fun h => e h.symm
        simp only [Procs.step, if_neg e, if_neg e']
        have := Prog.alone_congr (h0 i) (w := ((s0.prog j).step s0.files).2) (v := s0.files) (fun q hq =>
          Prog.step_files (h0 j) _ (fun hj => by
            rcases hq with hq | hq
            · exact (hd j i e' q hj).1 hq
            · exact (hd j i e' q hj).2 hq))
        exact ⟨this.1, by rw [this.2.1]; rfl, this.2.2⟩
    obtain ⟨ih1, ih2⟩ := ih (s0.step j) hw
    refine ⟨fun i => ?_, fun q hq => ?_⟩
    · obtain ⟨k1, k2, k3, k4⟩ := ih1 i
      obtain ⟨m2, m3, m4⟩ := hs i
      refine ⟨k1, k2.trans m2, ?_, fun q hq => (k4 q hq).trans (m4 q hq)⟩
      rw [show s0.run (j :: l) = (s0.step j).run l from rfl, k3, m3, List.count_cons]
      by_cases e : j = i
      · subst e; simp; omega
      · rw [if_neg e, if_neg (by simpa using e)]; omega
    · exact (ih2 q hq).trans (Prog.step_files (h0 j) _ (hq j))

section
variable [Uni]

/-! ### The program is what was modelled before -/

theorem jsonProg_alone {t : Tools} {o : Opts} {spec : FPath} {k : Except Exn FPath → Prog} {w : Files} :
    (jsonProg t o spec k).alone w = (k (runJson t o w spec).2).alone (runJson t o w spec).1 := by
  rfl

theorem specProg_alone {t : Tools} {o : Opts} {spec : FPath} {k : Except Exn FPath → Prog} {w : Files} :
    (specProg t o spec k).alone w = (k (runSpec t o w spec).2).alone (runSpec t o w spec).1 := by
  unfold specProg runSpec convertWord
  split
  · simp only [Prog.alone]
    have e : ∀ x y : Str, (((w.set ⟨o.out, baseName spec.name ++ c!".html"⟩ []).set ⟨o.out, baseName spec.name ++ c!".css"⟩ []).set
        ⟨o.out, baseName spec.name ++ c!".html"⟩ x).set ⟨o.out, baseName spec.name ++ c!".css"⟩ y =
        (w.set ⟨o.out, baseName spec.name ++ c!".html"⟩ x).set ⟨o.out, baseName spec.name ++ c!".css"⟩ y := by
      intro x y
      funext q
      unfold Files.set
      split
      · rfl
      · split
        · rfl
        · rfl
    cases w spec with
    | none => rfl
    | some bytes =>
      simp only
      cases t.docx (baseName spec.name) bytes with
      | error e => rfl
      | ok q =>
        obtain ⟨h, c⟩ := q
        simp only [Prog.alone, e, jsonProg_alone]
  · exact jsonProg_alone

theorem loopProg_alone {t : Tools} {o : Opts} {ss : List FPath} {w : Files} : (loopProg t o ss).alone w = mainLoop t o w ss := by
  induction ss generalizing w with
  | nil => rfl
  | cons s ss ih =>
    unfold loopProg mainLoop
    split
    · rfl
    · split
      · rfl
      · rw [specProg_alone]
        cases hr : runSpec t o w s with
        | mk w1 r =>
          cases r with
          | error e => rfl
          | ok dst =>
            simp only
            have hv : validText (w1 dst) = validateJson w1 dst := rfl
            cases ho : o.validate with
            | false => simp [ih]
            | true =>
              simp only [Prog.alone, if_true, hv, Bool.true_and]
              cases validateJson w1 dst with
              | false => rfl
              | true => simp [ih]

omit [Uni] in
theorem inputsProg_alone {k : Prog} {l : List FPath} {w : Files} :
    (inputsProg k l).alone w = if l.any (fun i => (w i).isNone) then (w, 1) else k.alone w := by
  induction l with
  | nil => rfl
  | cons i l ih =>
    change (if (w i).isNone = true then Prog.halt 1 else inputsProg k l).alone w = _
    by_cases h : (w i).isNone = true
    · rw [if_pos h, if_pos (by rw [List.any_cons, h]; rfl)]; rfl
    · rw [if_neg h, ih]
      by_cases h' : l.any (fun i => (w i).isNone) = true
      · rw [if_pos h', if_pos (by rw [List.any_cons, h', Bool.or_true])]
      · rw [if_neg h', if_neg (by rw [List.any_cons, Bool.or_eq_true]; exact fun hh => hh.elim h h')]

theorem cliProg_alone (t : Tools) (cwd : Str) (a : CliArgs) (w : Files) : (cliProg t cwd a).alone w = cliMain t cwd a w := by
  unfold cliProg cliMain
  split
  · rfl
  · rw [inputsProg_alone]
    split
    · rfl
    · cases lintArg a.lintIgnore with
      | error e => rfl
      | ok ign => exact loopProg_alone

/-! ### The files of a run -/

/-- the files which a run may write: the outputs of its inputs -/
def Written (cwd : Str) (a : CliArgs) (p : FPath) : Prop := ∃ s ∈ a.inputs, Outputs (options cwd a []) s p

theorem jsonProg_within {t : Tools} {o : Opts} {spec : FPath} {k : Except Exn FPath → Prog} {R W : FPath → Prop} (h1 : R spec)
    (h2 : W ⟨o.out, baseName spec.name ++ c!".json"⟩)
    (h3 : ∀ r, (∀ q, r = .ok q → q = ⟨o.out, baseName spec.name ++ c!".json"⟩) → (k r).Within R W) : (jsonProg t o spec k).Within R W := by
  refine ⟨h2, h1, fun c => ⟨h2, h3 _ ?_⟩⟩
  intro q hq
  split at hq
  · injection hq with hq; exact hq.symm
  · cases hq
  · cases hq

theorem specProg_within {t : Tools} {o : Opts} {s : FPath} {k : Except Exn FPath → Prog} {R W : FPath → Prop}
    (hs : suffix s.name = c!".html" ∨ suffix s.name = c!".docx") (h1 : R s) (h2 : ∀ p, Outputs o s p → W p) (h3 : ∀ p, W p → R p)
    (h4 : ∀ r, (∀ q, r = .ok q → W q) → (k r).Within R W) : (specProg t o s k).Within R W := by
  unfold specProg
  by_cases hx : suffix s.name = c!".docx"
  · rw [if_pos hx]
    obtain ⟨stem, g1, g2⟩ := suffix_inv _ _ hx
    have hb : baseName s.name = stem := by rw [g2]; exact baseName_of stem c!"docx" g1 (by decide) (by decide)
    have hb' : baseName (stem ++ c!".html") = stem := baseName_of stem c!"html" g1 (by decide) (by decide)
    rw [hb]
    have w1 := h2 _ ⟨stem, g1, .inr ⟨g2, .inl rfl⟩⟩
    have w2 := h2 _ ⟨stem, g1, .inr ⟨g2, .inr (.inl rfl)⟩⟩
    have w3 := h2 _ ⟨stem, g1, .inr ⟨g2, .inr (.inr rfl)⟩⟩
    refine ⟨h1, fun c => ⟨w1, w2, ?_⟩⟩
    split
    · exact h4 _ (fun q hq => by cases hq)
    · refine ⟨w1, w2, jsonProg_within (h3 _ w1) ?_ ?_⟩
      · simp only [hb']; exact w3
      · intro r hr
        refine h4 r (fun q hq => ?_)
        rw [hr q hq]
        simp only [hb']; exact w3
  · rw [if_neg hx]
    have hx := hs.resolve_right hx
    obtain ⟨stem, g1, g2⟩ := suffix_inv _ _ hx
    have hb : baseName s.name = stem := by rw [g2]; exact baseName_of stem c!"html" g1 (by decide) (by decide)
    have w3 := h2 _ ⟨stem, g1, .inl ⟨g2, rfl⟩⟩
    refine jsonProg_within h1 (by rw [hb]; exact w3) (fun r hr => h4 r (fun q hq => ?_))
    rw [hr q hq, hb]
    exact w3

theorem loopProg_within {t : Tools} {o : Opts} {R W : FPath → Prop} (h3 : ∀ p, W p → R p) {ss : List FPath} (h1 : ∀ s ∈ ss, R s)
    (h2 : ∀ s ∈ ss, ∀ p, Outputs o s p → W p) : (loopProg t o ss).Within R W := by
  induction ss with
  | nil => trivial
  | cons s ss ih =>
    have ih := ih (fun s hs => h1 s (by simp [hs])) (fun s hs => h2 s (by simp [hs]))
    unfold loopProg
    split
    · trivial
    · split
      · trivial
      · rename_i hx
        have hx : suffix s.name = c!".html" ∨ suffix s.name = c!".docx" := by
          by_contra hn
          exact hx (by simpa using hn)
        refine specProg_within hx (h1 s (by simp)) (h2 s (by simp)) h3 (fun r hr => ?_)
        cases r with
        | error e => trivial
        | ok dst =>
          change Prog.Within R W (if o.validate = true then .read dst (fun text => if validText text = true then loopProg t o ss else .halt 1)
            else loopProg t o ss)
          split
          · refine ⟨h3 _ (hr dst rfl), fun c => ?_⟩
            beta_reduce
            split
            · exact ih
            · trivial
          · exact ih

omit [Uni] in
theorem inputsProg_within {k : Prog} {R W : FPath → Prop} (hk : k.Within R W) {l : List FPath} (h : ∀ i ∈ l, R i) : (inputsProg k l).Within R W := by
  induction l with
  | nil => exact hk
  | cons i l ih =>
    refine ⟨h i (by simp), fun c => ?_⟩
    beta_reduce
    split
    · trivial
    · exact ih (fun i hi => h i (by simp [hi]))

theorem cliProg_within (t : Tools) (cwd : Str) (a : CliArgs) :
    (cliProg t cwd a).Within (fun p => p ∈ a.inputs ∨ Written cwd a p) (Written cwd a) := by
  unfold cliProg
  split
  · trivial
  · refine inputsProg_within ?_ (fun i hi => .inl hi)
    split
    · trivial
    · exact loopProg_within (fun p hp => .inr hp) (fun s hs => .inl hs) (fun s hs p hp => ⟨s, hs, hp⟩)

/-! ### C102 -/

/-- **C102** Runs at the same time, of which none writes an input or an output of another, whatever their inputs and options are and
however their steps are interleaved: a run which has ended has the exit status, and its outputs the contents, which it would have had
alone. Other files are not changed. -/
theorem C102_together {ι : Type} [DecidableEq ι] (t : Tools) (cwd : ι → Str) (a : ι → CliArgs) (w : Files)
    (hd : ∀ i j, i ≠ j → ∀ p, Written (cwd i) (a i) p → p ∉ (a j).inputs ∧ ¬ Written (cwd j) (a j) p) (schedule : List ι) :
    let now := (Procs.mk (fun i => cliProg t (cwd i) (a i)) w).run schedule
    (∀ i status, now.prog i = .halt status →
      status = (cliMain t (cwd i) (a i) w).2 ∧ ∀ p, Written (cwd i) (a i) p → now.files p = (cliMain t (cwd i) (a i) w).1 p) ∧
    ∀ p, (∀ i, ¬ Written (cwd i) (a i) p) → now.files p = w p := by
  intro now
  obtain ⟨h1, h2⟩ := Procs.run_apart (fun i p => p ∈ (a i).inputs ∨ Written (cwd i) (a i) p) (fun i => Written (cwd i) (a i))
    (fun i j hij p hp => ⟨fun h => h.elim (hd i j hij p hp).1 (hd i j hij p hp).2, (hd i j hij p hp).2⟩)
    ⟨fun i => cliProg t (cwd i) (a i), w⟩ (fun i => cliProg_within t (cwd i) (a i)) schedule
  refine ⟨fun i status hi => ?_, h2⟩
  obtain ⟨-, k1, -, k2⟩ := h1 i
  change ((now.prog i).alone now.files).2 = _ at k1
  change ∀ q, _ → ((now.prog i).alone now.files).1 q = _ at k2
  rw [hi] at k1 k2
  simp only [cliProg_alone] at k1 k2
  exact ⟨k1, fun p hp => k2 p (.inr hp)⟩

/-- **C102** None of them waits for another: a run has ended after a number of steps of its own which does not depend on the others. -/
theorem C102_ends {ι : Type} [DecidableEq ι] (t : Tools) (cwd : ι → Str) (a : ι → CliArgs) (w : Files)
    (hd : ∀ i j, i ≠ j → ∀ p, Written (cwd i) (a i) p → p ∉ (a j).inputs ∧ ¬ Written (cwd j) (a j) p) (i : ι) :
    ∃ n, ∀ schedule : List ι,
      n ≤ schedule.count i ↔ ∃ status, ((Procs.mk (fun i => cliProg t (cwd i) (a i)) w).run schedule).prog i = .halt status := by
  refine ⟨(cliProg t (cwd i) (a i)).steps w, fun schedule => ?_⟩
  obtain ⟨h1, -⟩ := Procs.run_apart (fun i p => p ∈ (a i).inputs ∨ Written (cwd i) (a i) p) (fun i => Written (cwd i) (a i))
    (fun i j hij p hp => ⟨fun h => h.elim (hd i j hij p hp).1 (hd i j hij p hp).2, (hd i j hij p hp).2⟩)
    ⟨fun i => cliProg t (cwd i) (a i), w⟩ (fun i => cliProg_within t (cwd i) (a i)) schedule
  obtain ⟨-, -, k, -⟩ := h1 i
  simp only at k
  constructor
  · intro h
    exact Prog.steps_zero (k.trans (by omega))
  · rintro ⟨s, hs⟩
    rw [hs] at k
    simp only [Prog.steps] at k
    omega

omit [Uni] in
/-- **C102** In particular: runs whose inputs are HTML models and Word documents with names which differ in more than their suffix, also if
all outputs go to the same directory. -/
theorem C102_names {cwd cwd' : Str} {a a' : CliArgs} (hn : ∀ s ∈ a'.inputs, ∃ stem, Stem s stem)
    (h : ∀ s ∈ a.inputs, ∀ s' ∈ a'.inputs, ∀ stem, Stem s stem → ¬ Stem s' stem) (p : FPath) (hp : Written cwd a p) :
    p ∉ a'.inputs ∧ ¬ Written cwd' a' p := by
  obtain ⟨s, hs, ho⟩ := hp
  refine ⟨fun hp => ?_, ?_⟩
  · obtain ⟨stem, hst⟩ := hn p hp
    exact h s hs p hp stem (ho.input hst) hst
  rintro ⟨s', hs', ho'⟩
  obtain ⟨stem, g1, g2⟩ := ho.stem
  obtain ⟨stem', g3, g4⟩ := ho'.stem
  have : stem = stem' := by
    rcases g2 with g2 | g2 | g2 <;> rcases g4 with g4 | g4 | g4 <;> rw [g2] at g4
    · exact List.append_cancel_right g4
    · exact absurd g4 (ext_ne (s := c!".jso") (t := c!".htm") (by decide))
    · exact absurd g4 (ext_ne (s := c!".jso") (t := c!".cs") (by decide))
    · exact absurd g4 (ext_ne (s := c!".htm") (t := c!".jso") (by decide))
    · exact List.append_cancel_right g4
    · exact absurd g4 (ext_ne (s := c!".htm") (t := c!".cs") (by decide))
    · exact absurd g4 (ext_ne (s := c!".cs") (t := c!".jso") (by decide))
    · exact absurd g4 (ext_ne (s := c!".cs") (t := c!".htm") (by decide))
    · exact List.append_cancel_right g4
  subst this
  exact h s hs s' hs' stem g1 g3

omit [Uni] in
/-- **C102** Also runs with inputs of the same names, or with the same inputs, if they write to different directories, and none of these
is the directory of an input. -/
theorem C102_directories {cwd cwd' : Str} {a a' : CliArgs} (h : a.output.getD cwd ≠ a'.output.getD cwd')
    (hi : ∀ s ∈ a'.inputs, s.dir ≠ a.output.getD cwd) (p : FPath) (hp : Written cwd a p) : p ∉ a'.inputs ∧ ¬ Written cwd' a' p := by
  have dir : ∀ {cwd : Str} {a : CliArgs}, Written cwd a p → p.dir = a.output.getD cwd := by
    rintro cwd a ⟨s, -, stem, -, ⟨-, rfl⟩ | ⟨-, rfl | rfl | rfl⟩⟩ <;> rfl
  exact ⟨fun hm => hi p hm (dir hp), fun h' => h ((dir hp).symm.trans (dir h'))⟩

/-! ### Examples -/

/-- a run with an HTML model and one with a Word document, into the same directory, with their steps in turn: the hypotheses of C102 are
met, and both are successful -/
example : letI := Uni.ascii
    let a : Bool → CliArgs := fun b => if b then withInputs [⟨c!"/d", c!"b.docx"⟩] else withInputs [⟨c!"/d", c!"a.html"⟩]
    let now := (Procs.mk (fun b => cliProg someTools c!"/o" (a b)) someFiles).run
      [true, false, true, false, true, false, true, false, true, false, true, true, true, true, true]
    (∀ b, now.prog b matches .halt 0) ∧ now.files ⟨c!"/o", c!"b.html"⟩ = some c!"B" ∧ (now.files ⟨c!"/o", c!"a.json"⟩).isSome = true := by
  decide +kernel

example : ∀ i j : Bool, i ≠ j → ∀ p,
    let a : Bool → CliArgs := fun b => if b then withInputs [⟨c!"/d", c!"b.docx"⟩] else withInputs [⟨c!"/d", c!"a.html"⟩]
    Written c!"/o" (a i) p → p ∉ (a j).inputs ∧ ¬ Written c!"/o" (a j) p := by
  intro i j hij p a hp
  have ha : Stem ⟨c!"/d", c!"a.html"⟩ c!"a" := ⟨by simp, .inl rfl⟩
  have hb : Stem ⟨c!"/d", c!"b.docx"⟩ c!"b" := ⟨by simp, .inr rfl⟩
  have hne : ¬ (c!"a" : Str) = c!"b" := by decide
  refine C102_names ?_ ?_ p hp
  · intro s hs
    cases j
    · exact ⟨c!"a", (List.mem_singleton.1 hs) ▸ ha⟩
    · exact ⟨c!"b", (List.mem_singleton.1 hs) ▸ hb⟩
  · intro s hs s' hs' stem h h'
    cases i <;> cases j
    · exact hij rfl
    · obtain rfl := List.mem_singleton.1 hs
      obtain rfl := List.mem_singleton.1 hs'
      exact hne ((ha.unique h).trans (h'.unique hb))
    · obtain rfl := List.mem_singleton.1 hs
      obtain rfl := List.mem_singleton.1 hs'
      exact hne ((ha.unique h').trans (h.unique hb))
    · exact hij rfl

omit [Uni] in
/-- The different outputs are needed. Two runs which are successful alone, with inputs of the same name in two directories and outputs in the
same directory: if the second begins to write the JSON file just before the first validates it, the first one fails. -/
theorem C102_same_output_false : letI := Uni.ascii
    let a : Bool → CliArgs := fun b => withInputs [if b then ⟨c!"/d", c!"a.html"⟩ else ⟨c!"/e", c!"a.html"⟩]
    let now := (Procs.mk (fun b => cliProg someTools c!"/o" (a b)) someFiles).run
      [true, true, true, true, false, false, true, false, false, false]
    (∀ b, (cliMain someTools c!"/o" (a b) someFiles).2 = 0) ∧ (now.prog true matches .halt 1) ∧ (now.prog false matches .halt 0) := by
  decide +kernel

end
end Spex
