import Verif.Model.Output
import Verif.Model.Schema
import Verif.Model.JsonRead
/-
Model of src/spex/__main__.py, of the choice of file names in src/spex/writer.py and src/spex/htmlspec/htmlrenderer.py, and of
the order of the file accesses of parse_spec (src/spex/parse.py).
-/
set_option autoImplicit false
namespace Spex
variable [Uni]

/-! ### arguments -/

/-- `Code[name]` (lint.py:12-40) -/
def codeOf (name : Str) : Except Exn LintErr :=
  match LintErr.all.find? (fun e => e.code = name) with
  | some e => .ok e
  | none => .error .keyError

/-- the list comprehension of arg_lintcode (__main__.py:39) -/
def codesOf : List Str → Except Exn (List LintErr)
  | [] => .ok []
  | p :: ps => match codeOf (upper (strip p)) with
    | .error e => .error e
    | .ok c => match codesOf ps with
      | .error e => .error e
      | .ok cs => .ok (c :: cs)

/-- arg_lintcode (__main__.py:38-39) -/
def argLintcode (arg : Str) : Except Exn (List LintErr) := codesOf (splitOn ',' arg)

/-! ### files -/

/-- a path: its directory and its name (`Path.parent`, `Path.name`). Paths are taken as resolved: different paths are different
files (of pathlib, as used in __main__.py:133-151, writer.py:73-74, htmlrenderer.py:31-45). -/
structure FPath where
  dir : Str
  name : Str
  deriving DecidableEq

/-- the characters of a reversed name up to its first dot, and the rest after it (of pathlib, as used in __main__.py:133-151,
writer.py:73-74, htmlrenderer.py:31-45) -/
def cutDot : Str → Option (Str × Str)
  | [] => none
  | c :: s => if c = '.' then some ([], s) else (cutDot s).map fun p => (c :: p.1, p.2)

/-- `Path.suffix` (CPython pathlib before 3.14: a dot at the start or at the end of the name does not count) (of pathlib, as used in
__main__.py:133-151, writer.py:73-74, htmlrenderer.py:31-45) -/
def suffix (name : Str) : Str :=
  match cutDot name.reverse with
  | some (ext, rest) => if ext = [] ∨ rest = [] then [] else '.' :: ext.reverse
  | none => []

/-- `name[: -len(suffix)]` (writer.py:73, htmlrenderer.py:31); without a suffix this is `name[:0]` -/
def baseName (name : Str) : Str :=
  if suffix name = [] then [] else name.take (name.length - (suffix name).length)

/-- The files, by path (read and written in writer.py:76, 103, htmlrenderer.py:40, 46 and jsonspec/parse.py:37). -/
abbrev Files := FPath → Option Str

/-- writing a file (`open(..., "w")` and `write`, writer.py:76, 103; gcgen in htmlrenderer.py:40, 46) -/
def Files.set (w : Files) (p : FPath) (s : Str) : Files := fun q => if q = p then some s else w q

/-- The parts which are not modelled here: what the first stage makes of a Word document (HTML and CSS text), given the name of the file without
its suffix (htmlrenderer.py:31) and its content, and the XML parser. See Model/FirstStage for both. -/
structure Tools where
  docx : Str → Str → Except Exn (Str × Str)
  xml : Str → Except Exn Node

/-- the options (parserargs.py:10-15), with the `--lint-ignore` codes already parsed -/
structure Opts where
  out : Str
  skip : Bool
  ignore : List LintErr
  validate : Bool

/-- open_doc (jsonspec/parse.py:36-57) -/
def readHtml (t : Tools) (w : Files) (spec : FPath) : Except Exn Node :=
  match w spec with
  | none => .error .runtimeError
  | some text => t.xml text

/-- the second stage of parse_spec (parse.py:44-80) for the file at `spec`: the JSON file is truncated before `spec` is read -/
def runJson (t : Tools) (o : Opts) (w : Files) (spec : FPath) : Files × Except Exn FPath :=
  let dst : FPath := ⟨o.out, baseName spec.name ++ c!".json"⟩
  let w := w.set dst []
  let run := parseSpec o.ignore o.skip false none (readHtml t w spec)
  (w.set dst run.2.1.file.content, match run.2.2 with
    | .returned => .ok dst
    | .raised e => .error e
    | .closed => .error .runtimeError)

/-- the first stage for the file at `spec` (parse.py:29-42) -/
def convertWord (t : Tools) (w : Files) (spec : FPath) : Except Exn (Str × Str) :=
  match w spec with
  | none => .error .runtimeError
  | some bytes => t.docx (baseName spec.name) bytes

/-- parse_spec (parse.py:24-80). For a Word document the first stage writes an HTML and a CSS file (htmlrenderer.py:39-47,
264-270); if it fails these files may hold anything (here: nothing). -/
def runSpec (t : Tools) (o : Opts) (w : Files) (spec : FPath) : Files × Except Exn FPath :=
  if suffix spec.name = c!".docx" then
    let html : FPath := ⟨o.out, baseName spec.name ++ c!".html"⟩
    let css : FPath := ⟨o.out, baseName spec.name ++ c!".css"⟩
    match convertWord t w spec with
    | .error e => ((w.set html []).set css [], .error e)
    | .ok (h, c) => runJson t o ((w.set html h).set css c) html
  else runJson t o w spec

/-- validate_json (validate.py:12-17) -/
def validateJson (w : Files) (p : FPath) : Bool :=
  match w p with
  | none => false
  | some text => match readJson text with
    | none => false
    | some j => stage2Schema.valid j

/-- the loop of main (__main__.py:131-157); gives the files and the exit status -/
def mainLoop (t : Tools) (o : Opts) : Files → List FPath → Files × Nat
  | w, [] => (w, 0)
  | w, s :: ss =>
    if suffix s.name = c!".json" then (w, 1)
    else if ¬ [c!".html", c!".docx"].contains (suffix s.name) then (w, 1)
    else match runSpec t o w s with
      | (w', .error _) => (w', 1)
      | (w', .ok dst) =>
        if o.validate && !validateJson w' dst then (w', 1)
        else mainLoop t o w' ss

/-- the command line (__main__.py:122-131) -/
structure CliArgs where
  inputs : List FPath
  output : Option Str
  skip : Bool
  validate : Bool
  lintIgnore : Option Str

/-- the value of `--lint-ignore` (__main__.py:114) -/
def lintArg : Option Str → Except Exn (List LintErr)
  | none => .ok []
  | some s => argLintcode s

/-- main (__main__.py:49-188) in the directory `cwd`. An exception in a conversion of an argument is not caught; which of several
bad arguments is reported is not modelled; that no input is given is noticed after the arguments are converted. The command line itself
and the making of the output directory are in Model/Args. -/
def cliMain (t : Tools) (cwd : Str) (a : CliArgs) (w : Files) : Files × Nat :=
  if a.inputs = [] then (w, match lintArg a.lintIgnore with | .error _ => 1 | .ok _ => 2)
  else if a.inputs.any (fun i => (w i).isNone) then (w, 1)
  else match lintArg a.lintIgnore with
    | .error _ => (w, 1)
    | .ok ign => mainLoop t ⟨a.output.getD cwd, a.skip, ign, a.validate⟩ w a.inputs

end Spex
