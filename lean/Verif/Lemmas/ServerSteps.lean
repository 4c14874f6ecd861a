import Verif.Lemmas.Server
import Verif.Props.Output
import Verif.Model.ServerSteps
/-
Lemmas about the generator of parse_spec: what is left of a run, and that it neither sees nor touches other directories.
-/
set_option autoImplicit false
namespace Spex
variable [Uni]

/-- reports do not change what is written, and how the run ends -/
theorem parseSpec_progress (ign : List LintErr) (skip : Bool) (doc : Except Exn Node) :
    (parseSpec ign skip true none doc).2 = (parseSpec ign skip false none doc).2 := by
  cases hd : htmlToSpecDoc doc with
  | error e => rw [parseSpec, parseSpec, specSteps_err ign skip true hd, specSteps_err ign skip false hd]
  | ok sdoc =>
    rw [parseSpec, parseSpec, specSteps_ok ign skip true hd, specSteps_ok ign skip false hd]
    simp only
    rw [steps_append, steps_append, steps_append, steps_append, steps_entities, steps_entities]

omit [Uni] in
/-- the result of the second stage -/
def outOf (dst : FPath) : RunEnd → Except Exn FPath
  | .returned => .ok dst
  | .raised e => .error e
  | .closed => .error .runtimeError

/-- the whole second stage: its reports, the files and the result -/
def modelRest (env : StepEnv) (o : Opts) (w : Files) (src : FPath) : List Progress × Files × Except Exn FPath :=
  let dst : FPath := ⟨o.out, baseName src.name ++ c!".json"⟩
  let w := w.set dst []
  let run := parseSpec o.ignore o.skip true none (readHtml env.tools w src)
  (run.1, w.set dst run.2.1.file.content, outOf dst run.2.2)

/-- what is left of the first stage, and the second -/
def wordRest (env : StepEnv) (o : Opts) (name : Str) (w : Files) (rest : List Progress) (out : Except Exn (Str × Str)) :
    List Progress × Files × Except Exn FPath :=
  match out with
  | .error e => (rest, w, .error e)
  | .ok (h, c) =>
    let r := modelRest env o ((w.set ⟨o.out, baseName name ++ c!".html"⟩ h).set ⟨o.out, baseName name ++ c!".css"⟩ c)
        ⟨o.out, baseName name ++ c!".html"⟩
    (rest ++ r.1, r.2)

/-- what is left of a run: the reports to come, the files at its end and its result, if nothing else happens meanwhile -/
def genRest (env : StepEnv) (o : Opts) (spec : FPath) (w : Files) : Gen → List Progress × Files × Except Exn FPath
  | .fresh =>
    if suffix spec.name = c!".docx" then
      wordRest env o spec.name ((w.set ⟨o.out, baseName spec.name ++ c!".html"⟩ []).set ⟨o.out, baseName spec.name ++ c!".css"⟩ [])
        (match w spec with | none => [] | some bytes => env.stage1 (baseName spec.name) bytes) (convertWord env.tools w spec)
    else modelRest env o w spec
  | .word rest out => wordRest env o spec.name w rest out
  | .model dst rest text out => (rest, w.set dst text, outOf dst out)

/-- the generator writes into this directory -/
def Gen.inDir (d : Str) : Gen → Prop
  | .model dst _ _ _ => dst.dir = d
  | _ => True

/-- what a resumption does, seen from the whole run -/
def Resumed (env : StepEnv) (o : Opts) (spec : FPath) (whole : List Progress × Files × Except Exn FPath) : Files × Yield → Prop
  | (w, .report p g) => g.inDir o.out ∧ g ≠ .fresh ∧ whole = (p :: (genRest env o spec w g).1, (genRest env o spec w g).2)
  | (w, .done r) => whole = ([], w, r)

theorem modelLoop_rest (env : StepEnv) (o : Opts) (spec : FPath) (w : Files) (dst : FPath) (hd : dst.dir = o.out) (rest : List Progress)
    (text : Str) (out : RunEnd) : Resumed env o spec (rest, w.set dst text, outOf dst out) (modelLoop w dst rest text out) := by
  cases rest with
  | nil => cases out <;> rfl
  | cons p ps => exact ⟨hd, by simp, rfl⟩

theorem modelStart_rest (env : StepEnv) (o : Opts) (spec : FPath) (w : Files) (src : FPath) :
    Resumed env o spec (modelRest env o w src) (modelStart env o w src) := modelLoop_rest _ _ _ _ _ rfl _ _ _

theorem wordLoop_rest (env : StepEnv) (o : Opts) (spec : FPath) (w : Files) (rest : List Progress) (out : Except Exn (Str × Str)) :
    Resumed env o spec (wordRest env o spec.name w rest out) (wordLoop env o spec.name w rest out) := by
  cases rest with
  | nil =>
    cases out with
    | error e => rfl
    | ok hc => exact modelStart_rest _ _ _ _ _
  | cons p ps =>
    refine ⟨trivial, by simp, ?_⟩
    cases out <;> rfl

theorem genNext_rest (env : StepEnv) (o : Opts) (spec : FPath) (w : Files) (g : Gen) (hg : g.inDir o.out) :
    Resumed env o spec (genRest env o spec w g) (genNext env o spec w g) := by
  cases g with
  | fresh =>
    rw [genRest, genNext]
    split
    · exact wordLoop_rest _ _ _ _ _ _
    · exact modelStart_rest _ _ _ _ _
  | word rest out => exact wordLoop_rest _ _ _ _ _ _
  | model dst rest text out => exact modelLoop_rest _ _ _ _ _ hg _ _ _

/-! ### other directories -/

theorem modelLoop_frame (w : Files) (dst : FPath) (rest : List Progress) (text : Str) (out : RunEnd) (f : FPath) (hf : f.dir ≠ dst.dir) :
    (modelLoop w dst rest text out).1 f = w f := by
  cases rest with
  | nil => exact Files.set_other _ _ (by rintro rfl; exact hf rfl)
  | cons p ps => rfl

theorem modelStart_frame (env : StepEnv) (o : Opts) (w : Files) (src f : FPath) (hf : f.dir ≠ o.out) :
    (modelStart env o w src).1 f = w f := by
  rw [modelStart]
  exact (modelLoop_frame _ _ _ _ _ f hf).trans (Files.set_other _ _ (by rintro rfl; exact hf rfl))

theorem wordLoop_frame (env : StepEnv) (o : Opts) (name : Str) (w : Files) (rest : List Progress) (out : Except Exn (Str × Str)) (f : FPath)
    (hf : f.dir ≠ o.out) : (wordLoop env o name w rest out).1 f = w f := by
  have hne : ∀ n, f ≠ ⟨o.out, n⟩ := by rintro n rfl; exact hf rfl
  cases rest with
  | nil =>
    cases out with
    | error e => rfl
    | ok hc => exact (modelStart_frame _ _ _ _ f hf).trans ((Files.set_other _ _ (hne _)).trans (Files.set_other _ _ (hne _)))
  | cons p ps => rfl

/-- a resumption changes no file outside its output directory -/
theorem genNext_frame (env : StepEnv) (o : Opts) (spec : FPath) (w : Files) (g : Gen) (hg : g.inDir o.out) (f : FPath) (hf : f.dir ≠ o.out) :
    (genNext env o spec w g).1 f = w f := by
  have hne : ∀ n, f ≠ ⟨o.out, n⟩ := by rintro n rfl; exact hf rfl
  cases g with
  | fresh =>
    rw [genNext]
    split
    · exact (wordLoop_frame _ _ _ _ _ _ f hf).trans ((Files.set_other _ _ (hne _)).trans (Files.set_other _ _ (hne _)))
    · exact modelStart_frame _ _ _ _ f hf
  | word rest out => exact wordLoop_frame _ _ _ _ _ _ f hf
  | model dst rest text out => exact modelLoop_frame _ _ _ _ _ f (by rw [show dst.dir = o.out from hg]; exact hf)

/-- the same reports, the same result, and the same files in a directory -/
def SameRun (d : Str) (a b : List Progress × Files × Except Exn FPath) : Prop := a.1 = b.1 ∧ a.2.2 = b.2.2 ∧ SameDir d a.2.1 d b.2.1

theorem modelRest_same (env : StepEnv) (o : Opts) {w w' : Files} (h : SameDir o.out w o.out w') (src : FPath) (hs : src.dir = o.out) :
    SameRun o.out (modelRest env o w src) (modelRest env o w' src) := by
  obtain ⟨d, name⟩ := src
  have hs : d = o.out := hs
  subst hs
  have h1 := h.set (baseName name ++ c!".json") []
  have hr : readHtml env.tools (w.set ⟨o.out, baseName name ++ c!".json"⟩ []) ⟨o.out, name⟩ =
      readHtml env.tools (w'.set ⟨o.out, baseName name ++ c!".json"⟩ []) ⟨o.out, name⟩ := by
    rw [readHtml, readHtml, h1 name]
  simp only [modelRest]
  rw [hr]
  exact ⟨rfl, rfl, h1.set _ _⟩

theorem wordRest_same (env : StepEnv) (o : Opts) (name : Str) {w w' : Files} (h : SameDir o.out w o.out w') (rest : List Progress)
    (out : Except Exn (Str × Str)) : SameRun o.out (wordRest env o name w rest out) (wordRest env o name w' rest out) := by
  cases out with
  | error e => exact ⟨rfl, rfl, h⟩
  | ok hc =>
    obtain ⟨h1, h2, h3⟩ := modelRest_same env o ((h.set (baseName name ++ c!".html") hc.1).set (baseName name ++ c!".css") hc.2)
      ⟨o.out, baseName name ++ c!".html"⟩ rfl
    exact ⟨congrArg (rest ++ ·) h1, h2, h3⟩

/-- what is left of a run depends on its own directory only -/
theorem genRest_same (env : StepEnv) (o : Opts) (spec : FPath) (hs : spec.dir = o.out) {w w' : Files} (h : SameDir o.out w o.out w')
    (g : Gen) (hg : g.inDir o.out) : SameRun o.out (genRest env o spec w g) (genRest env o spec w' g) := by
  have hspec : w spec = w' spec := by
    obtain ⟨d, name⟩ := spec
    have hs : d = o.out := hs
    subst hs; exact h name
  cases g with
  | fresh =>
    rw [genRest, genRest]
    split
    · rw [show convertWord env.tools w spec = convertWord env.tools w' spec by rw [convertWord, convertWord, hspec], hspec]
      exact wordRest_same _ _ _ ((h.set _ _).set _ _) _ _
    · exact modelRest_same _ _ h _ hs
  | word rest out => exact wordRest_same _ _ _ h _ _
  | model dst rest text out =>
    obtain ⟨d, name⟩ := dst
    have hg : d = o.out := hg
    subst hg
    exact ⟨rfl, rfl, h.set _ _⟩

/-! ### the whole run -/

theorem modelRest_runJson (env : StepEnv) (o : Opts) (w : Files) (src : FPath) : (modelRest env o w src).2 = runJson env.tools o w src := by
  simp only [modelRest, runJson]
  rw [parseSpec_progress]
  cases (parseSpec o.ignore o.skip false none (readHtml env.tools (w.set ⟨o.out, baseName src.name ++ c!".json"⟩ []) src)).2.2 <;> rfl

/-- a run from its start is that of `runSpec` -/
theorem genRest_fresh (env : StepEnv) (o : Opts) (spec : FPath) (w : Files) : (genRest env o spec w .fresh).2 = runSpec env.tools o w spec := by
  rw [genRest, runSpec]
  split
  · simp only
    cases convertWord env.tools w spec with
    | error e => rfl
    | ok hc =>
      obtain ⟨h, c⟩ := hc
      simp only [wordRest]
      rw [modelRest_runJson]
      congr 1
      funext f
      simp only [Files.set]
      repeat' split
      all_goals rfl
  · exact modelRest_runJson _ _ _ _

end Spex
