import Verif.Model.Cli
/-
Model of src/spexsrv/application/app.py: uploads, the event stream of an upload, the cache of reports and the routes which serve
them. The report page itself is in Model/ReportView. Not modelled: the index page, HTTP itself,
the time limit of a response other than as the end of its stream. The size limit of requests and the shutdown are in Model/ServerLife.
-/
set_option autoImplicit false
namespace Spex

/-! ### md5sum (app.py:47-53) -/

/-- a `hashlib` object: `hashlib.md5()`, `update`, `hexdigest` (app.py:48-53) -/
structure Hasher where
  St : Type
  init : St
  update : St → Str → St
  hexdigest : St → Str

/-- `iter(lambda: fh.read(k), b"")` (app.py:50): the pieces of a file, up to the first empty one. The first argument of `go` bounds
the number of pieces. -/
def fileChunks (k : Nat) (content : Str) : List Str := go (content.length + 1) content
where go : Nat → Str → List Str
  | 0, _ => []
  | n + 1, s => if s.take k = [] then [] else s.take k :: go n (s.drop k)

/-- md5sum (app.py:47-53) -/
def md5sum (h : Hasher) (content : Str) (k : Nat) : Str := h.hexdigest ((fileChunks k content).foldl h.update h.init)

/-- the default of `chunk_bytes` (app.py:47) -/
def chunkBytes : Nat := 4096

/-! ### events (app.py:56-57, 191-198, 209) -/

/-- json_to_sse (app.py:56-57) -/
def jsonToSse (data : Json) : Str := c!"data: " ++ (jsonDumps data ++ c!"\n\n")

/-- app.py:191-198 -/
def progressEvent (p : Progress) : Json :=
  .obj [(c!"type", .str c!"progress-update"), (c!"phase", .str p.phase), (c!"fig_ndx", .num p.index), (c!"num_figs", .num p.total)]

/-- `url_for("report", hash=hash)` (app.py:178); a hexadecimal hash needs no quoting -/
def reportUrl (hash : Str) : Str := c!"/report/" ++ hash

/-- app.py:209 -/
def completedEvent (hash : Str) : Json := .obj [(c!"type", .str c!"report-completed"), (c!"url", .str (reportUrl hash))]

/-- the lines of a chunk which the page of the upload form understands (upload-form.html:130-160): what `JSON.parse` makes of each
line starting with `data: ` -/
def clientDecode (chunk : Str) : List Json :=
  (splitOn '\n' chunk).filterMap fun line => if line.take 6 = c!"data: " then readJson (line.drop 6) else none

/-! ### paths -/

/-- the parts of a path (pathlib, for app.py:174) -/
def pathParts (s : Str) : List Str := (splitOn '/' s).filter fun p => p ≠ [] && p ≠ c!"."

/-- what the parts of an absolute path name: `..` leads to the parent. Symbolic links are not modelled (pathlib, for app.py:174). -/
def resolveParts : List Str → List Str → List Str
  | acc, [] => acc
  | acc, p :: ps => if p = c!".." then resolveParts acc.dropLast ps else resolveParts (acc ++ [p]) ps

/-- an absolute path of these parts (pathlib, for app.py:174) -/
def absPath (ps : List Str) : Str := ps.flatMap ('/' :: ·)

/-- the file meant by `temp_dir_path / filename` (app.py:174): an absolute file name replaces the directory. `none` if this can
only be a directory. -/
def destination (dir filename : Str) : Option FPath :=
  let ps := (if filename.head? = some '/' then [] else pathParts dir) ++ pathParts filename
  match ps.getLast? with
  | none => none
  | some name => if name = c!".." then none else some ⟨absPath (resolveParts [] ps.dropLast), name⟩

/-- `Path.with_suffix` for a name (app.py:114, 156, 201) -/
def withSuffix (name new : Str) : Str := name.take (name.length - (suffix name).length) ++ new

/-! ### the server -/

/-- what the server uses: the two stages, the checksum, and the cache directory made at its start (app.py:89) -/
structure SrvEnv where
  tools : Tools
  hasher : Hasher
  cache : Str

/-- the state of the event stream of an upload (app.py:185-211) -/
inductive JobSt where
  /-- made, but nothing has been read from it -/
  | created
  /-- waiting after a progress event (app.py:191) -/
  | running
  /-- waiting after the last event (app.py:209) -/
  | completed
  /-- given up before anything was read from it; its temporary directory awaits the finalizer of `TemporaryDirectory` -/
  | dropped
  | over
  deriving DecidableEq

/-- an upload (app.py:170-183): its temporary directory, the file stored, its checksum, and the state of its event stream -/
structure Job where
  dir : Str
  spec : FPath
  hash : Str
  st : JobSt

/-- the files, the directories which exist, `SPEX_CACHE_LOOKUP`, and the uploads so far (app.py:88-90, 172-176) -/
structure Srv where
  files : Files
  dirs : List Str
  lookup : List (Str × FPath)
  jobs : List Job

/-- what happens to the server (app.py:110-224) -/
inductive SrvEv where
  /-- POST /parse: the name and content of the field `document`, whether `text/event-stream` is accepted. `dir` is the directory
  which `tempfile` chooses, if it comes to this. -/
  | post (dir : Str) (doc : Option (Str × Str)) (accept : Bool)
  /-- the stream of this upload is read on, and parse_spec yields a progress status -/
  | progress (j : Nat) (p : Progress)
  /-- the stream of this upload is read on, and parse_spec ends -/
  | finish (j : Nat)
  /-- the stream of this upload is read on after its last event -/
  | resume (j : Nat)
  /-- the stream of this upload is closed: the client has gone, or the time limit is reached -/
  | close (j : Nat)
  /-- the garbage collector frees what belongs to this upload -/
  | collect (j : Nat)
  /-- GET /json/hash, GET /html/hash, GET /report/hash -/
  | getJson (hash : Str)
  | getHtml (hash : Str)
  | getReport (hash : Str)

/-- what is seen from outside (app.py:110-224) -/
inductive SrvResp where
  /-- a response without a body of interest -/
  | status (n : Nat)
  /-- status 200, and this text -/
  | text (s : Str)
  /-- status 200, and the page made from this JSON text -/
  | page (json : Str)
  /-- status 200, and the event stream of this upload -/
  | stream (j : Nat)
  /-- an event sent -/
  | event (s : Str)
  /-- the event stream is over -/
  | ended
  /-- the event stream is cut off by an exception -/
  | failed
  /-- this cannot happen now -/
  | nothing
  deriving DecidableEq

/-- an item of a dictionary set (app.py:208) -/
def lookupSet (k : Str) (v : FPath) : List (Str × FPath) → List (Str × FPath)
  | [] => [(k, v)]
  | (k', v') :: d => if k' = k then (k, v) :: d else (k', v') :: lookupSet k v d

/-- `dict.get` (app.py:113-114, 150, 156) -/
def lookupGet (d : List (Str × FPath)) (k : Str) : Option FPath := (d.find? fun e => e.1 = k).map (·.2)

/-- `TemporaryDirectory.cleanup`: the directory and all in it are removed (app.py:211) -/
def Srv.cleanup (s : Srv) (dir : Str) : Srv :=
  { s with files := fun f => if f.dir = dir then none else s.files f, dirs := s.dirs.filter (· ≠ dir) }

/-- the state of an upload set (app.py:185-211) -/
def Srv.setJob (s : Srv) (j : Nat) (job : Job) (st : JobSt) : Srv := { s with jobs := s.jobs.set j { job with st := st } }

/-- the name of a file as a path (of pathlib, for app.py:174, 203-206) -/
def FPath.full (p : FPath) : Str := p.dir ++ '/' :: p.name

variable [Uni]

/-- spec_parse up to its response (app.py:160-183, 213-224). `tempfile` chooses a directory which does not exist. Saving fails if
the directory of the destination does not exist or the destination is a directory; other failures of the file system (permissions,
the length of names) are not modelled. If saving fails, the temporary directory is freed with the exception. -/
def postSpec (env : SrvEnv) (s : Srv) (dir : Str) (doc : Option (Str × Str)) (accept : Bool) : Srv × SrvResp :=
  match doc with
  | none => (s, .status 422)
  | some (filename, content) =>
    if accept = false then (s, .status 400)
    else if dir ∈ s.dirs ∨ dir ≠ absPath (resolveParts [] (pathParts dir)) then (s, .nothing)
    else match destination dir filename with
      | none => (s, .status 500)
      | some p =>
        if p.dir ∈ dir :: s.dirs ∧ p.full ∉ dir :: s.dirs then
          ({ s with files := s.files.set p content, dirs := dir :: s.dirs,
                    jobs := s.jobs ++ [⟨dir, p, md5sum env.hasher content chunkBytes, .created⟩] }, .stream s.jobs.length)
        else (s, .status 500)

/-- the arguments of parse_spec (app.py:179-183) -/
def srvOpts (dir : Str) : Opts := ⟨dir, true, [], false⟩

/-- the end of parse_spec in sse_events (app.py:200-211), with the files it leaves and its result: the `except` and the `finally` block -/
def endJob (env : SrvEnv) (s : Srv) (j : Nat) (job : Job) (w : Files) (r : Except Exn FPath) : Srv × SrvResp :=
  match r with
  | .error _ => ((({ s with files := w } : Srv).cleanup job.dir).setJob j job .over, .failed)
  | .ok json =>
    match w json with
    | none => ((({ s with files := w } : Srv).cleanup job.dir).setJob j job .over, .failed)
    | some jt =>
      let html : FPath := ⟨json.dir, withSuffix json.name c!".html"⟩
      let entry : FPath := ⟨env.cache, json.name⟩
      let w := w.set entry jt
      match w html with
      | none => ((({ s with files := w } : Srv).cleanup job.dir).setJob j job .over, .failed)
      | some ht =>
        (({ s with files := w.set ⟨env.cache, html.name⟩ ht, lookup := lookupSet job.hash entry s.lookup } : Srv).setJob j job .completed,
          .event (jsonToSse (completedEvent job.hash)))

/-- the run of parse_spec in sse_events (app.py:186-211). What parse_spec does to the files is done here at once, when it ends; that this makes
no difference is `C94_same` (see Model/ServerSteps). -/
def finishJob (env : SrvEnv) (s : Srv) (j : Nat) (job : Job) : Srv × SrvResp :=
  let (w, r) := runSpec env.tools (srvOpts job.dir) s.files job.spec
  endJob env s j job w r

/-- the server (app.py:110-224) -/
def srvStep (env : SrvEnv) (s : Srv) : SrvEv → Srv × SrvResp
  | .post dir doc accept => postSpec env s dir doc accept
  | .progress j p => match s.jobs[j]? with
    | none => (s, .nothing)
    | some job =>
      if job.st = .created ∨ job.st = .running then (s.setJob j job .running, .event (jsonToSse (progressEvent p))) else (s, .nothing)
  | .finish j => match s.jobs[j]? with
    | none => (s, .nothing)
    | some job => if job.st = .created ∨ job.st = .running then finishJob env s j job else (s, .nothing)
  | .resume j => match s.jobs[j]? with
    | none => (s, .nothing)
    | some job => if job.st = .completed then ((s.cleanup job.dir).setJob j job .over, .ended) else (s, .nothing)
  | .close j => match s.jobs[j]? with
    | none => (s, .nothing)
    | some job =>
      if job.st = .created then (s.setJob j job .dropped, .ended)
      else if job.st = .running ∨ job.st = .completed then ((s.cleanup job.dir).setJob j job .over, .ended)
      else (s, .nothing)
  | .collect j => match s.jobs[j]? with
    | none => (s, .nothing)
    | some job => if job.st = .dropped then ((s.cleanup job.dir).setJob j job .over, .nothing) else (s, .nothing)
  /- `Path(None)` is a TypeError, and so is a missing file an exception (app.py:148-157) -/
  | .getJson hash => match lookupGet s.lookup hash with
    | none => (s, .status 500)
    | some p => match s.files p with
      | none => (s, .status 500)
      | some t => (s, .text t)
  | .getHtml hash => match lookupGet s.lookup hash with
    | none => (s, .status 500)
    | some p => match s.files ⟨p.dir, withSuffix p.name c!".html"⟩ with
      | none => (s, .status 500)
      | some t => (s, .text t)
  /- `Path(None)` comes before the check for None (app.py:110-145) -/
  | .getReport hash => match lookupGet s.lookup hash with
    | none => (s, .status 500)
    | some p => match s.files p with
      | none => (s, .status 404)
      | some t => (s, .page t)

/-- the server after a history (app.py:110-224) -/
def srvRun (env : SrvEnv) : Srv → List SrvEv → Srv
  | s, [] => s
  | s, e :: es => srvRun env (srvStep env s e).1 es

/-- the server at its start (app.py:81-94) -/
def srvStart (env : SrvEnv) (files : Files) (dirs : List Str) : Srv := ⟨files, env.cache :: dirs, [], []⟩

end Spex
