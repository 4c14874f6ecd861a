import Verif.Model.Cli
/-
Runs of the command line at the same time: what a run does, one access to a file after the other, and any interleaving of several runs.
-/
set_option autoImplicit false
namespace Spex

/-- What a process still has to do: it ends with an exit status, or accesses a file and goes on, after reading with what was in the file
(the accesses of __main__.py:122-157, parse.py:29-80 and validate.py:12-17). -/
inductive Prog
  | halt (status : Nat)
  | write (p : FPath) (x : Str) (k : Prog)
  | read (p : FPath) (k : Option Str → Prog)

/-- the next access of a process to the files (of __main__.py:122-157); a process which has ended does nothing -/
def Prog.step (w : Files) : Prog → Prog × Files
  | .halt s => (.halt s, w)
  | .write p x k => (k, w.set p x)
  | .read p k => (k (w p), w)

/-- processes with the files they share (all runs of __main__.py:122-157) -/
structure Procs (ι : Type) where
  prog : ι → Prog
  files : Files

/-- process `i` does its next step (of __main__.py:122-157) -/
def Procs.step {ι : Type} [DecidableEq ι] (s : Procs ι) (i : ι) : Procs ι :=
  let r := (s.prog i).step s.files
  ⟨fun j => if j = i then r.1 else s.prog j, r.2⟩

/-- processes at the same time (all of __main__.py:122-157): the schedule tells which one is next -/
def Procs.run {ι : Type} [DecidableEq ι] (s : Procs ι) (schedule : List ι) : Procs ι := schedule.foldl Procs.step s

section
variable [Uni]

/-- the second stage of parse_spec (parse.py:44-80): the JSON file is truncated, the HTML file is read, the JSON file is written. The
pieces in which it is written (writer.py:101-105) are one step here. -/
def jsonProg (t : Tools) (o : Opts) (spec : FPath) (k : Except Exn FPath → Prog) : Prog :=
  let dst : FPath := ⟨o.out, baseName spec.name ++ c!".json"⟩
  .write dst [] (.read spec fun text =>
    let run := parseSpec o.ignore o.skip false none (match text with | none => .error .runtimeError | some text => t.xml text)
    .write dst run.2.1.file.content (k (match run.2.2 with
      | .returned => .ok dst
      | .raised e => .error e
      | .closed => .error .runtimeError)))

/-- parse_spec (parse.py:24-80): the Word document is read, the HTML and CSS files are truncated (htmlrenderer.py:33, 39-47), and written
when the renderer is destroyed (htmlrenderer.py:264-270); as in `runSpec` they are empty if the first stage fails -/
def specProg (t : Tools) (o : Opts) (spec : FPath) (k : Except Exn FPath → Prog) : Prog :=
  if suffix spec.name = c!".docx" then
    let html : FPath := ⟨o.out, baseName spec.name ++ c!".html"⟩
    let css : FPath := ⟨o.out, baseName spec.name ++ c!".css"⟩
    .read spec fun bytes => .write html [] (.write css []
      (match (match bytes with | none => Except.error Exn.runtimeError | some bytes => t.docx (baseName spec.name) bytes) with
      | .error e => k (.error e)
      | .ok (h, c) => .write html h (.write css c (jsonProg t o html k))))
  else jsonProg t o spec k

/-- what validate_json says of the text of a file (validate.py:12-17) -/
def validText : Option Str → Bool
  | none => false
  | some text => match readJson text with
    | none => false
    | some j => stage2Schema.valid j

/-- the loop of main (__main__.py:131-157) -/
def loopProg (t : Tools) (o : Opts) : List FPath → Prog
  | [] => .halt 0
  | s :: ss =>
    if suffix s.name = c!".json" then .halt 1
    else if ¬ [c!".html", c!".docx"].contains (suffix s.name) then .halt 1
    else specProg t o s fun
      | .error _ => .halt 1
      | .ok dst => if o.validate then .read dst fun text => if validText text then loopProg t o ss else .halt 1 else loopProg t o ss

/-- the inputs are looked for one after the other (arg_input, __main__.py:19-25) -/
def inputsProg (k : Prog) : List FPath → Prog
  | [] => k
  | i :: is => .read i fun text => if text.isNone then .halt 1 else inputsProg k is

/-- main (__main__.py:49-188) in the directory `cwd`, with the simplifications of `cliMain` -/
def cliProg (t : Tools) (cwd : Str) (a : CliArgs) : Prog :=
  if a.inputs = [] then .halt (match lintArg a.lintIgnore with | .error _ => 1 | .ok _ => 2)
  else inputsProg (match lintArg a.lintIgnore with
    | .error _ => .halt 1
    | .ok ign => loopProg t ⟨a.output.getD cwd, a.skip, ign, a.validate⟩ a.inputs) a.inputs

end
end Spex
