import Verif.Model.ReportView
/-
Model of the script of src/spexsrv/templates/upload-form.html: what the page of the upload form shows while an upload is worked on,
and where it leads the browser. Not modelled: the file dialog, the layout of the page, messages on the console.
-/
set_option autoImplicit false
namespace Spex

/-- a progress bar: `value` and `max` (upload-form.html:62-71); `none` is `undefined` -/
structure Bar where
  current : Option Json
  max : Option Json

/-- the stores of the page (upload-form.html:86-98) and `url` (upload-form.html:118). `location` is what was assigned to
`window.location.href`, if anything was; the inner `none` is `null`. -/
structure Form where
  processing : Bool
  html : Bar
  json : Bar
  url : Option Json
  location : Option (Option Json)

/-- the page before an upload (upload-form.html:86-98, 118) -/
def formStart : Form := ⟨false, ⟨some (.num 0), some (.num 100)⟩, ⟨some (.num 0), some (.num 100)⟩, none, none⟩

/-- onProgressUpdate (upload-form.html:100-115) -/
def onProgressUpdate (f : Form) (phase figNdx numFigs : Option Json) : Form :=
  match phase.bind jsonStr with
  | some p =>
    if p = c!"html" then { f with html := ⟨figNdx, numFigs⟩ }
    else if p = c!"json" then { f with json := ⟨figNdx, numFigs⟩, html := ⟨some (.num 100), some (.num 100)⟩ }
    else f
  | none => f

/-- what is done with a message (upload-form.html:139-153). A message which is no object has no `type`. -/
def formMsg (f : Form) (msg : Json) : Form :=
  match (jsonItem c!"type" msg).bind jsonStr with
  | some t =>
    if t = c!"progress-update" then
      onProgressUpdate f (jsonItem c!"phase" msg) (jsonItem c!"fig_ndx" msg) (jsonItem c!"num_figs" msg)
    else if t = c!"report-completed" then
      { onProgressUpdate f (some (.str c!"json")) (some (.num 100)) (some (.num 100)) with
        processing := false, url := jsonItem c!"url" msg }
    else f
  | none => f

/-- a piece of the body (upload-form.html:135-158): it is decoded on its own -/
def formChunk (f : Form) (chunk : Str) : Form := (clientDecode chunk).foldl formMsg f

/-- how the body of the response goes on after the pieces read so far (upload-form.html:130-135) -/
inductive BodyEnd where
  /-- nothing more has come yet -/
  | pending
  /-- the body is over -/
  | done
  /-- the connection is cut off -/
  | broken
  deriving DecidableEq

/-- the page after a response with this status, these pieces of its body and this end (upload-form.html:117-167). An error is
only written to the console. -/
def formRun (status : Nat) (chunks : List Str) (fin : BodyEnd) : Form :=
  if 200 ≤ status ∧ status < 300 then
    let f := chunks.foldl formChunk { formStart with processing := true }
    if fin = .done then { f with location := some f.url } else f
  else formStart

end Spex
