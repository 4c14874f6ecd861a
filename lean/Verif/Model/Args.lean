import Verif.Model.Cli
/-
Model of the command line: the arguments which main declares (src/spex/__main__.py:76-115), read by argparse of Python 3.11, and the conversions
arg_input, arg_output and arg_lintcode (__main__.py:19-39) with their effects on the file system.
Not modelled: what is printed, symbolic links, permissions, and texts with NUL characters.
-/
set_option autoImplicit false
namespace Spex
variable [Uni]

/-! ### options -/

/-- the options (__main__.py:81-114) and the one for help, which argparse adds -/
inductive ArgOpt where
  | help | skip | output | validate | noValidate | verbose | noVerbose | lint
  deriving DecidableEq

/-- the options with one letter (__main__.py:82, 102, 112) -/
def shortOpt (c : Char) : Option ArgOpt :=
  if c = 'h' then some .help else if c = 's' then some .skip else if c = 'o' then some .output else if c = 'v' then some .verbose else none

/-- the long options (__main__.py:83, 103, 109, 112, 114); a `BooleanOptionalAction` has two -/
def longOpts : List (Str × ArgOpt) :=
  [(c!"--help", .help), (c!"--skip-figure-on-error", .skip), (c!"--output", .output), (c!"--validate-json", .validate),
   (c!"--no-validate-json", .noValidate), (c!"--verbose", .verbose), (c!"--no-verbose", .noVerbose), (c!"--lint-ignore", .lint)]

/-- the options which take an argument (__main__.py:101-107, 114) -/
def ArgOpt.takes : ArgOpt → Bool
  | .output | .lint => true
  | _ => false

/-- what is done for an option or for the inputs, in the order in which it is done (__main__.py:81-114) -/
inductive ArgAct where
  | help | skip
  | output (s : Str)
  | validate (b : Bool)
  | verbose (b : Bool)
  | lint (s : Str)
  | inputs (ss : List Str)
  deriving DecidableEq

/-- the action of an option; the argument counts for those which take one (__main__.py:81-114) -/
def ArgOpt.act (o : ArgOpt) (s : Str) : ArgAct :=
  match o with
  | .help => .help
  | .skip => .skip
  | .output => .output s
  | .validate => .validate true
  | .noValidate => .validate false
  | .verbose => .verbose true
  | .noVerbose => .verbose false
  | .lint => .lint s

/-! ### argparse: the kinds of the arguments -/

/-- how argparse sees a word of the command line (argparse of CPython, called in __main__.py:116) -/
inductive ArgTok where
  /-- no option -/
  | arg (s : Str)
  /-- the first `--` -/
  | dashes
  /-- an option of one letter, and what follows the letter -/
  | short (o : ArgOpt) (rest : Str)
  /-- a long option, and what follows `=` -/
  | long (o : ArgOpt) (value : Option Str)
  /-- an option which there is not -/
  | unknown
  deriving DecidableEq

/-- `_negative_number_matcher`: `^-\d+$|^-\d*\.\d+$`, for a text after the `-` (argparse of CPython, called in __main__.py:116) -/
def negNumber (s : Str) : Bool :=
  let s := if s.getLast? = some '\n' then s.dropLast else s
  match s.dropWhile isDigit with
  | [] => s ≠ []
  | c :: ds => c == '.' && ds ≠ [] && ds.all isDigit

/-- `partition('=')` (argparse of CPython, called in __main__.py:116) -/
def cutEq : Str → Str × Option Str
  | [] => ([], none)
  | c :: s => if c = '=' then ([], some s) else ((c :: (cutEq s).1), (cutEq s).2)

/-- `_parse_optional`; `none` if the option is ambiguous, which ends the program. An option of one letter which is followed by `=` is
found before the others, and what follows the letter then begins with `=` (argparse of CPython, called in __main__.py:116). -/
def argTok (s : Str) : Option ArgTok :=
  match s with
  | '-' :: c :: rest =>
    let other : ArgTok := if negNumber (c :: rest) then .arg s else if s.contains ' ' then .arg s else .unknown
    if c = '-' then
      match longOpts.filter (fun p => (cutEq s).1.isPrefixOf p.1) with
      | [] => some other
      | [p] => some (.long p.2 (cutEq s).2)
      | _ => none
    else match shortOpt c with
      | some o => some (.short o rest)
      | none => some other
  | _ => some (.arg s)

/-- the first loop of `_parse_known_args` (argparse of CPython, called in __main__.py:116) -/
def argToks : List Str → Option (List ArgTok)
  | [] => some []
  | s :: ss =>
    if s = c!"--" then some (.dashes :: ss.map .arg)
    else (argTok s).bind fun t => (argToks ss).map (t :: ·)

/-! ### argparse: reading -/

/-- an option of one letter with what follows it, see `consume_optional` (argparse of CPython, called in __main__.py:116) -/
inductive ShortRun where
  /-- refused -/
  | refused
  /-- the actions; whether something is left over which is no option -/
  | done (acts : List ArgAct) (extra : Bool)
  /-- the actions of the first letters, and the last one wants the next word -/
  | wants (acts : List ArgAct) (o : ArgOpt)
  deriving DecidableEq

/-- an action before the others (argparse of CPython, called in __main__.py:116) -/
def ShortRun.cons (a : ArgAct) : ShortRun → ShortRun
  | .refused => .refused
  | .done acts x => .done (a :: acts) x
  | .wants acts o => .wants (a :: acts) o

/-- the loop of `consume_optional` for an option of one letter (argparse of CPython, called in __main__.py:116) -/
def shortRun (o : ArgOpt) : Str → ShortRun
  | [] => if o.takes then .wants [] o else .done [o.act []] false
  | c :: rest =>
    if c = '=' then (if o.takes then .done [o.act rest] false else .refused)
    else if o.takes then .done [o.act (c :: rest)] false
    else if c = '-' then .refused
    else match shortOpt c with
      | none => .done [o.act []] true
      | some o' => (shortRun o' rest).cons (o.act [])

/-- the state of `_parse_known_args` (argparse of CPython, called in __main__.py:116) -/
structure ArgSt where
  acts : List ArgAct
  /-- the inputs have not been read yet -/
  pending : Bool
  /-- there are words which belong to nothing -/
  extra : Bool
  /-- the words since the last option, and whether `--` is among them -/
  words : List Str
  dashes : Bool
  /-- an option which wants the next word, and the actions before it -/
  wants : Option (List ArgAct × ArgOpt)
  /-- the command line is refused, and nothing more is done -/
  refused : Bool
  deriving DecidableEq

/-- `consume_positionals`: the words since the last option are the inputs if there are any and the inputs have not been read yet (argparse
of CPython, called in __main__.py:116) -/
def ArgSt.flush (s : ArgSt) : ArgSt :=
  if s.words = [] ∧ s.dashes = false then s
  else if s.pending ∧ s.words ≠ [] then { s with acts := s.acts ++ [.inputs s.words], pending := false, words := [], dashes := false }
  else { s with extra := true, words := [], dashes := false }

/-- an option has been read (argparse of CPython, called in __main__.py:116) -/
def ArgSt.option (s : ArgSt) : ShortRun → ArgSt
  | .refused => { s with refused := true }
  | .done acts x => { s with acts := s.acts ++ acts, extra := s.extra || x }
  | .wants acts o => { s with wants := some (acts, o) }

/-- the next word (argparse of CPython, called in __main__.py:116) -/
def argStep (s : ArgSt) (t : ArgTok) : ArgSt :=
  if s.refused then s
  else match s.wants with
    | some (acts, o) => match t with
      | .arg v => { s with acts := s.acts ++ (acts ++ [o.act v]), wants := none }
      | _ => { s with refused := true }
    | none => match t with
      | .arg v => { s with words := s.words ++ [v] }
      | .dashes => { s with dashes := true }
      | .unknown => { s.flush with extra := true }
      | .short o rest => s.flush.option (shortRun o rest)
      | .long o value => s.flush.option (match value with
          | none => if o.takes then .wants [] o else .done [o.act []] false
          | some v => if o.takes then .done [o.act v] false else .refused)

/-- the end of the command line: `parse_args` refuses what is left over, and a command line without inputs (argparse of CPython, called in
__main__.py:116) -/
def ArgSt.finish (s : ArgSt) : List ArgAct × Bool :=
  if s.refused then (s.acts, false)
  else match s.wants with
    | some _ => (s.acts, false)
    | none => (s.flush.acts, !s.flush.extra && !s.flush.pending)

/-- what argparse does for a command line, and whether it accepts it (argparse of CPython, called in __main__.py:116) -/
def argScan (argv : List Str) : List ArgAct × Bool :=
  match argToks argv with
  | none => ([], false)
  | some ts => (ts.foldl argStep ⟨[], true, false, [], false, none, false⟩).finish

/-! ### paths -/

/-- directories and files. A directory is given by the names on the way to it from the root (the file system of __main__.py:19-35). -/
structure Disk where
  dirs : List Str → Bool
  files : Files

/-- the text of the path of a directory (used for `Path` of __main__.py:20, 29) -/
def dirText (p : List Str) : Str := p.flatMap ('/' :: ·)

/-- the file with a path (used for `Path` of __main__.py:20, 29) -/
def filePath (p : List Str) : FPath := ⟨dirText p.dropLast, p.getLast?.getD []⟩

/-- the names of a path (`pathlib.PurePosixPath`): empty ones and `.` do not count (used for `Path` of __main__.py:20, 29) -/
def pathNames (s : Str) : List Str := (splitOn '/' s).filter fun c => c ≠ [] && c ≠ c!"."

/-- where a path begins (used for `Path` of __main__.py:20, 29) -/
def pathBase (cwd : List Str) (s : Str) : List Str := if s.head? = some '/' then [] else cwd

/-- the next name of a path (used for `Path` of __main__.py:20, 29) -/
def pathStep (p : List Str) (c : Str) : List Str := if c = c!".." then p.dropLast else p ++ [c]

/-- what the system makes of a path (the file system of __main__.py:19-35) -/
inductive Walk where
  | found (p : List Str)
  /-- ENOENT -/
  | missing
  /-- ENOTDIR -/
  | notDir
  deriving DecidableEq

/-- the system follows a path (the file system of __main__.py:19-35) -/
def Disk.walk (d : Disk) (p : List Str) : List Str → Walk
  | [] => .found p
  | c :: cs => if d.dirs p then d.walk (pathStep p c) cs else if (d.files (filePath p)).isSome then .notDir else .missing

/-- `Path.is_dir` (__main__.py:32) -/
def Disk.isDir (d : Disk) (base names : List Str) : Bool :=
  match d.walk base names with
  | .found p => d.dirs p
  | _ => false

/-- `Path.exists` (__main__.py:21, 30) -/
def Disk.exists (d : Disk) (base names : List Str) : Bool :=
  match d.walk base names with
  | .found p => d.dirs p || (d.files (filePath p)).isSome
  | _ => false

/-- `os.mkdir` (for __main__.py:31) -/
inductive Mkdir where
  | made (d : Disk)
  | missing
  | failed

/-- `os.mkdir` (for __main__.py:31) -/
def Disk.mkdir (d : Disk) (base names : List Str) : Mkdir :=
  match d.walk base names with
  | .missing => .missing
  | .notDir => .failed
  | .found p =>
    if d.dirs p ∨ (d.files (filePath p)).isSome = true then .failed
    else .made { d with dirs := fun q => q == p || d.dirs q }

/-- `Path.mkdir(parents=True, exist_ok=True)`, for the names in reverse; false if an exception is raised (__main__.py:31) -/
def mkdirAll (d : Disk) (base : List Str) : List Str → Disk × Bool
  | [] => (d, d.isDir base [])
  | c :: cs =>
    match d.mkdir base (c :: cs).reverse with
    | .made d => (d, true)
    | .failed => (d, d.isDir base (c :: cs).reverse)
    | .missing =>
      match mkdirAll d base cs with
      | (d, false) => (d, false)
      | (d, true) => match d.mkdir base (c :: cs).reverse with
        | .made d => (d, true)
        | .failed => (d, d.isDir base (c :: cs).reverse)
        | .missing => (d, false)

/-- arg_output (__main__.py:28-35) -/
def argOutput (cwd : List Str) (d : Disk) (s : Str) : Disk × Option (List Str) :=
  let base := pathBase cwd s
  let names := pathNames s
  match (if d.exists base names then (d, true) else mkdirAll d base names.reverse) with
  | (d, false) => (d, none)
  | (d, true) => match d.walk base names with
    | .found p => if d.dirs p then (d, some p) else (d, none)
    | _ => (d, none)

/-- arg_input (__main__.py:19-25) -/
def argInput (cwd : List Str) (d : Disk) (s : Str) : Option FPath :=
  match d.walk (pathBase cwd s) (pathNames s) with
  | .found p => if d.dirs p then none else if (d.files (filePath p)).isSome then some (filePath p) else none
  | _ => none

/-! ### main -/

/-- the namespace of argparse (__main__.py:116-128) -/
structure ArgRec where
  inputs : List FPath
  output : Option (List Str)
  skip : Bool
  validate : Bool
  verbose : Bool
  ignore : List LintErr

/-- the actions of argparse, in order. They end with an exit status if an exception is raised in a conversion (RuntimeError, OSError and
KeyError are not caught by argparse) or if help is asked for (__main__.py:116, with the conversions of lines 19-39). -/
def argActs (cwd : List Str) : Disk → ArgRec → List ArgAct → Disk × Except Nat ArgRec
  | d, r, [] => (d, .ok r)
  | d, r, a :: as => match a with
    | .help => (d, .error 0)
    | .skip => argActs cwd d { r with skip := true } as
    | .validate b => argActs cwd d { r with validate := b } as
    | .verbose b => argActs cwd d { r with verbose := b } as
    | .lint s => match argLintcode s with
      | .error _ => (d, .error 1)
      | .ok cs => argActs cwd d { r with ignore := cs } as
    | .output s => match argOutput cwd d s with
      | (d, none) => (d, .error 1)
      | (d, some p) => argActs cwd d { r with output := some p } as
    | .inputs ss => match ss.mapM (argInput cwd d) with
      | none => (d, .error 1)
      | some ps => argActs cwd d { r with inputs := ps } as

/-- main (__main__.py:49-188) in the directory `cwd`: the files and directories, and the exit status -/
def spexMain (t : Tools) (cwd : List Str) (d : Disk) (argv : List Str) : Disk × Nat :=
  let scan := argScan argv
  match argActs cwd d ⟨[], none, false, false, false, []⟩ scan.1 with
  | (d, .error n) => (d, n)
  | (d, .ok r) =>
    if scan.2 then
      let res := mainLoop t ⟨dirText (r.output.getD cwd), r.skip, r.ignore, r.validate⟩ d.files r.inputs
      ({ d with files := res.1 }, res.2)
    else (d, 2)

end Spex
