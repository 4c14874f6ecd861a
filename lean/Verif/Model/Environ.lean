import Verif.Model.Log
import Verif.Model.Server
/-
Model of the environment variables: SPEX_DEBUG (src/spex/log/_log_config.py), SPEX_CACHE (src/spexsrv/application/app.py) and SPEXSRV_PORT
(src/spexsrv/__main__.py).
-/
set_option autoImplicit false
namespace Spex
variable [Uni]

/-- DEBUG (_log_config.py:37), for the value of SPEX_DEBUG -/
def debugSetting (v : Option Str) : Bool := strip (lower (v.getD c!"0")) ∈ [c!"true", c!"yes", c!"1"]

/-- SPEX_CACHE (app.py:27), for the value of the variable of this name -/
def cacheSetting (v : Option Str) : Bool := lower (v.getD c!"true") ∈ [c!"1", c!"y", c!"yes", c!"true"]

/-- the port of the server (spexsrv/__main__.py:12), for the value of SPEXSRV_PORT -/
def serverPort (v : Option Str) : Except Exn Int :=
  match v with
  | none => .ok 5050
  | some s => pyInt s

omit [Uni] in
/-- The text of a record on the console with DEBUG (_log_config.py:129), without colours. To a format which is a text loguru adds a line feed and
the exception; `trace` is what it makes of an exception. -/
def debugText (trace : PyExc → Str) (r : LogRec) : Str :=
  r.level.name ++ (c!" " ++ (r.msg ++ ('\n' :: (r.exception.map trace).getD [])))

omit [Uni] in
/-- a call of the logger with this value of DEBUG (_log_config.py:124-131, 139-154, 160-166) -/
def logCallIn (debug : Bool) (trace : PyExc → Str) (s : LogSt) (r : LogRec) : LogSt :=
  let s := if (if debug then LogLevel.debug.no else LogLevel.uInfo.no) ≤ r.level.no then
    { s with console := s.console ++ if debug then debugText trace r else consoleText r } else s
  if LogLevel.debug.no ≤ r.level.no then { s with file := s.file ++ (jsonDumps (recordJson r) ++ ['\n']) } else s

/-- a run of the program with this value of SPEX_DEBUG (_log_config.py:37, 74-75, 124-166) -/
def logRunIn (v : Option Str) (trace : PyExc → Str) (old : Option Str) (rs : List LogRec) : LogSt :=
  rs.foldl (logCallIn (debugSetting v) trace) (logOpen old)

omit [Uni] in
/-- what the server prints about the cache (app.py:85-87), for this value of SPEX_CACHE -/
def cacheLines (cache : Bool) : List Str :=
  (c!"Cache reports? " ++ if cache then c!"True" else c!"False") ::
    if cache then [c!"export SPEX_CACHE=n to disable (n, no, false or 0 is acceptable)"] else []

/-- The start of the server with this value of the variable SPEX_CACHE (app.py:27, 80-94): what it prints about the cache, and its state. The
setting is not used for anything else. -/
def srvStartIn (v : Option Str) (env : SrvEnv) (files : Files) (dirs : List Str) : List Str × Srv :=
  (cacheLines (cacheSetting v), srvStart env files dirs)

end Spex
