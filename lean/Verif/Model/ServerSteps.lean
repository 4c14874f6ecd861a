import Verif.Model.Server
/-
The server (src/spexsrv/application/app.py) with the generator of parse_spec (src/spex/parse.py:24-80) resumed call by call: between two
reports of an upload anything may happen to the others. In Model/Server the whole run of parse_spec is done at its end instead.
-/
set_option autoImplicit false
namespace Spex

/-- What the server uses, and the reports of the first stage for a Word document, given by its name without suffix and its content (see
`firstStage`): those which are made before the stage ends, in success or not (app.py:160-224, parse.py:24-80). -/
structure StepEnv extends SrvEnv where
  stage1 : Str → Str → List Progress

/-- the generator of parse_spec of an upload (parse.py:24-80, resumed in app.py:190) -/
inductive Gen where
  /-- not yet started -/
  | fresh
  /-- in the loop of the first stage (parse.py:33-37): the reports to come, and how the stage ends -/
  | word (rest : List Progress) (out : Except Exn (Str × Str))
  /-- in the loop of the second stage (parse.py:52-55): the JSON file, the reports to come, the text which the file gets when the writer is
  left, and how the stage ends -/
  | model (dst : FPath) (rest : List Progress) (text : Str) (out : RunEnd)

/-- what comes of resuming the generator: a report (parse.py:37, 54), or its end -/
inductive Yield where
  | report (p : Progress) (g : Gen)
  | done (r : Except Exn FPath)

variable [Uni]

/-- the end of the second stage: the writer is left (writer.py:95-108), and the path of the file returned (parse.py:80) -/
def modelEnd (w : Files) (dst : FPath) (text : Str) (out : RunEnd) : Files × Yield :=
  (w.set dst text, .done (match out with
    | .returned => .ok dst
    | .raised e => .error e
    | .closed => .error .runtimeError))

/-- the loop of the second stage (parse.py:52-55) -/
def modelLoop (w : Files) (dst : FPath) (rest : List Progress) (text : Str) (out : RunEnd) : Files × Yield :=
  match rest with
  | p :: ps => (w, .report p (.model dst ps text out))
  | [] => modelEnd w dst text out

/-- the second stage up to its loop (parse.py:44-51): the JSON file is truncated, then the HTML model is read as a whole -/
def modelStart (env : StepEnv) (o : Opts) (w : Files) (src : FPath) : Files × Yield :=
  let dst : FPath := ⟨o.out, baseName src.name ++ c!".json"⟩
  let w := w.set dst []
  let run := parseSpec o.ignore o.skip true none (readHtml env.tools w src)
  modelLoop w dst run.1 run.2.1.file.content run.2.2

/-- the loop of the first stage and its end (parse.py:33-42): the page and its style sheet are written when the renderer is destroyed
(htmlrenderer.py:264-270) -/
def wordLoop (env : StepEnv) (o : Opts) (name : Str) (w : Files) (rest : List Progress) (out : Except Exn (Str × Str)) : Files × Yield :=
  match rest with
  | p :: ps => (w, .report p (.word ps out))
  | [] =>
    match out with
    | .error e => (w, .done (.error e))
    | .ok (h, c) => modelStart env o ((w.set ⟨o.out, baseName name ++ c!".html"⟩ h).set ⟨o.out, baseName name ++ c!".css"⟩ c)
        ⟨o.out, baseName name ++ c!".html"⟩

/-- `next(gen)` (app.py:189) for the file at `spec`: the generator runs up to its next report or its end. For a Word document the archive is
read and the page and style sheet are truncated at the start (htmlrenderer.py:30-47). Simplification: they are also truncated if the
archive cannot be read. -/
def genNext (env : StepEnv) (o : Opts) (spec : FPath) (w : Files) : Gen → Files × Yield
  | .fresh =>
    if suffix spec.name = c!".docx" then
      wordLoop env o spec.name ((w.set ⟨o.out, baseName spec.name ++ c!".html"⟩ []).set ⟨o.out, baseName spec.name ++ c!".css"⟩ [])
        (match w spec with | none => [] | some bytes => env.stage1 (baseName spec.name) bytes) (convertWord env.tools w spec)
    else modelStart env o w spec
  | .word rest out => wordLoop env o spec.name w rest out
  | .model dst rest text out => modelLoop w dst rest text out

/-- the server, and the generators of its uploads (app.py:110-224) -/
structure StepSrv where
  srv : Srv
  gens : Nat → Gen

/-- what happens to the server (app.py:110-224) -/
inductive StepEv where
  /-- the event stream of this upload is read on: `next(gen)` -/
  | next (j : Nat)
  /-- something else: a request, or the end of a stream -/
  | other (e : SrvEv)

/-- the generator of an upload set (app.py:187-190) -/
def setGen (gens : Nat → Gen) (j : Nat) (g : Gen) : Nat → Gen := fun i => if i = j then g else gens i

/-- the server. Closing an event stream removes its directory (app.py:210-211) before its generator is freed: what the writers then write
goes to files which are no longer in any directory. -/
def stepSrv (env : StepEnv) (s : StepSrv) : StepEv → StepSrv × SrvResp
  | .next j => match s.srv.jobs[j]? with
    | none => (s, .nothing)
    | some job =>
      if job.st = .created ∨ job.st = .running then
        match genNext env (srvOpts job.dir) job.spec s.srv.files (s.gens j) with
        | (w, .report p g) =>
          (⟨({ s.srv with files := w } : Srv).setJob j job .running, setGen s.gens j g⟩, .event (jsonToSse (progressEvent p)))
        | (w, .done r) => let (s', resp) := endJob env.toSrvEnv s.srv j job w r
                          (⟨s', s.gens⟩, resp)
      else (s, .nothing)
  | .other (.progress _ _) => (s, .nothing)
  | .other (.finish _) => (s, .nothing)
  | .other e => (⟨(srvStep env.toSrvEnv s.srv e).1, s.gens⟩, (srvStep env.toSrvEnv s.srv e).2)

/-- the server at its start (app.py:81-94) -/
def stepStart (env : StepEnv) (files : Files) (dirs : List Str) : StepSrv := ⟨srvStart env.toSrvEnv files dirs, fun _ => .fresh⟩

/-- what was asked of the server and what was seen, in order (app.py:110-224) -/
def stepTrace (env : StepEnv) : StepSrv → List StepEv → List (StepEv × SrvResp)
  | _, [] => []
  | s, e :: es => (e, (stepSrv env s e).2) :: stepTrace env (stepSrv env s e).1 es

/-- the server after a history (app.py:110-224) -/
def stepRun (env : StepEnv) : StepSrv → List StepEv → StepSrv
  | s, [] => s
  | s, e :: es => stepRun env (stepSrv env s e).1 es

end Spex
