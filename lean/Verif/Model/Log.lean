import Verif.Model.JsonText
/-
Model of src/spex/log/_log_config.py: the file spex.log and the console, without SPEX_DEBUG (see Model/Environ).
Not modelled: colours, what loguru does with a record before the sinks see it, the texts of stack frames (given as data here), and here the lines
which jsonify_exc prints to stdout (_log_config.py:66-68; see Model/LogOut).
-/
set_option autoImplicit false
namespace Spex

/-- the levels of loguru, and those of ULog (_log_config.py:100-105, 115-120) -/
inductive LogLevel where
  | trace | debug | info | success | warning | error | critical
  | uInfo | uSuccess | uWarning | uError | uLint | uCritical
  deriving DecidableEq

/-- the severity of a level (_log_config.py:115-120) -/
def LogLevel.no : LogLevel → Nat
  | .trace => 5 | .debug => 10 | .info => 20 | .success => 25 | .warning => 30 | .error => 40 | .critical => 50
  | .uInfo => 70 | .uSuccess => 75 | .uWarning => 80 | .uError => 90 | .uLint => 95 | .uCritical => 100

/-- the name of a level (_log_config.py:100-105) -/
def LogLevel.name : LogLevel → Str
  | .trace => c!"TRACE" | .debug => c!"DEBUG" | .info => c!"INFO" | .success => c!"SUCCESS" | .warning => c!"WARNING" | .error => c!"ERROR"
  | .critical => c!"CRITICAL"
  | .uInfo => c!"U_INFO" | .uSuccess => c!"U_SUCCESS" | .uWarning => c!"U_WARNING" | .uError => c!"U_ERROR" | .uLint => c!"U_LINT"
  | .uCritical => c!"U_CRITICAL"

/-- a frame of `traceback.extract_tb` (_log_config.py:50, 55-63) -/
structure Frame where
  name : Str
  file : Str
  lineno : Option Int
  line : Option Str

/-- an exception with its `__cause__`, whose chain is assumed to end (_log_config.py:48-71) -/
inductive PyExc where
  | mk (type msg : Str) (frames : List Frame) (cause : Option PyExc)

/-- a record of loguru, as far as it is written (_log_config.py:139-151) -/
structure LogRec where
  level : LogLevel
  msg : Str
  file : Str
  func : Str
  line : Int
  /-- the context of `contextualize` and `bind`, whose values are assumed to be JSON -/
  extra : List (Str × Json)
  exception : Option PyExc

/-- a value which may be missing (_log_config.py:48-71) -/
def optJson {α : Type} (f : α → Json) : Option α → Json
  | none => .null
  | some a => f a

/-- a frame (_log_config.py:56-61) -/
def frameJson (f : Frame) : Json :=
  .obj [(c!"name", .str f.name), (c!"file", .str f.file), (c!"lineno", optJson .num f.lineno), (c!"line", optJson .str f.line)]

/-- jsonify_exc (_log_config.py:48-71) -/
def excJson : PyExc → Json
  | .mk type msg frames none => .obj [(c!"type", .str type), (c!"msg", .str msg), (c!"frames", .arr (frames.map frameJson))]
  | .mk type msg frames (some cause) =>
    .obj [(c!"type", .str type), (c!"msg", .str msg), (c!"frames", .arr (frames.map frameJson)), (c!"cause", excJson cause)]

/-- the dictionary of a record (_log_config.py:140-152) -/
def recordJson (r : LogRec) : Json :=
  .obj ([(c!"level", .str r.level.name), (c!"msg", .str r.msg), (c!"file", .str r.file), (c!"func", .str r.func), (c!"line", .num r.line)] ++
    ((if r.extra.isEmpty then [] else [(c!"extra", .obj r.extra)]) ++
      match r.exception with
      | none => []
      | some e => [(c!"exception", excJson e)]))

/-- the text of the file and that of the console (_log_config.py:124-137) -/
structure LogSt where
  file : Str
  console : Str

/-- at the import of the module the file of an earlier run is removed and a new one is opened (_log_config.py:74-75, 134-137) -/
def logOpen (_old : Option Str) : LogSt := ⟨[], []⟩

/-- fmt_no_stacktrace (_log_config.py:78-81), without colours -/
def consoleText (r : LogRec) : Str := c!"• " ++ (r.msg ++ ['\n'])

/-- a call of the logger: the console takes the levels from ULog.INFO on (_log_config.py:124-131), the file those from DEBUG on
(_log_config.py:139-154, 160-166) -/
def logCall (s : LogSt) (r : LogRec) : LogSt :=
  let s := if LogLevel.uInfo.no ≤ r.level.no then { s with console := s.console ++ consoleText r } else s
  if LogLevel.debug.no ≤ r.level.no then { s with file := s.file ++ (jsonDumps (recordJson r) ++ ['\n']) } else s

/-- a run of the program (_log_config.py:74-75, 134-154) -/
def logRun (old : Option Str) (rs : List LogRec) : LogSt := rs.foldl logCall (logOpen old)

end Spex
