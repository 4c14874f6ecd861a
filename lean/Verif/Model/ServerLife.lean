import Verif.Model.ServerSteps
/-
The life of the server (src/spexsrv/application/app.py): its start, its requests with the limit of their size, its shutdown, and that it is
killed. Several servers one after the other work on the same files.
-/
set_option autoImplicit false
namespace Spex

/-- `MAX_CONTENT_LENGTH` (app.py:71) -/
def maxContentLength : Nat := 50 * 1024 * 1024

/-- the computer on which the server is run: without a server, the files and directories; or with a server and its cache directory (app.py:81-102) -/
inductive Life where
  | off (files : Files) (dirs : List Str)
  | on (cache : Str) (s : StepSrv)

/-- what happens to it (app.py:81-102) -/
inductive LifeEv where
  /-- a server is started; `cache` is the directory which `tempfile` chooses -/
  | start (cache : Str)
  /-- a request whose body has this size, or the end of a stream, or that a stream is read on -/
  | ask (size : Nat) (e : StepEv)
  /-- the server is shut down -/
  | stop
  /-- the process of the server is killed, or the computer fails -/
  | kill

/-- an upload (app.py:71, 160) -/
def StepEv.isPost : StepEv → Bool
  | .other (.post _ _ _) => true
  | _ => false

/-- what the server uses, with this cache directory (app.py:89) -/
def StepEnv.withCache (env : StepEnv) (cache : Str) : StepEnv := { env with cache := cache }

/-- The shutdown (app.py:97-102), and the end of the process. `_app_shutdown` names `cleanup` without calling it; but as the object is deleted
from the configuration, its finalizer removes the directory. So do the finalizers of the directories of uploads which are still there. -/
def shutdown (cache : Str) (s : Srv) : Srv :=
  ((s.jobs.filter fun job => job.st ≠ .over).foldl (fun s job => s.cleanup job.dir) s).cleanup cache

variable [Uni]

/-- The computer. `tempfile` chooses a directory which does not exist (app.py:89); requests are only answered by a running server, and an upload
whose body is too large is refused before anything else (`await request.files`, app.py:162). -/
def lifeStep (env : StepEnv) : Life → LifeEv → Life × SrvResp
  | .off files dirs, .start cache =>
    if cache ∈ dirs then (.off files dirs, .nothing) else (.on cache (stepStart (env.withCache cache) files dirs), .nothing)
  | .off files dirs, _ => (.off files dirs, .nothing)
  | .on cache s, .start _ => (.on cache s, .nothing)
  | .on cache s, .ask size e =>
    if e.isPost = true ∧ maxContentLength < size then (.on cache s, .status 413)
    else (.on cache (stepSrv (env.withCache cache) s e).1, (stepSrv (env.withCache cache) s e).2)
  | .on cache s, .stop => (.off (shutdown cache s.srv).files (shutdown cache s.srv).dirs, .nothing)
  | .on _ s, .kill => (.off s.srv.files s.srv.dirs, .nothing)

/-- the computer after a history (app.py:81-102) -/
def lifeRun (env : StepEnv) : Life → List LifeEv → Life
  | l, [] => l
  | l, e :: es => lifeRun env (lifeStep env l e).1 es

/-- what was seen, in order (app.py:81-102) -/
def lifeTrace (env : StepEnv) : Life → List LifeEv → List (LifeEv × SrvResp)
  | _, [] => []
  | l, e :: es => (e, (lifeStep env l e).2) :: lifeTrace env (lifeStep env l e).1 es

end Spex
