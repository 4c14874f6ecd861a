import Verif.Props.Cli
set_option autoImplicit false

/-!
# C79: the file can be read back

`readModel` is a reader of model files, written down from the keys in the format (defs.py:61-106, spec.schema.json) and not from the code which makes
the dictionaries. What it reads in the file of a run are the diagnostics and the entities of that run.
-/

namespace Spex

/-! ### Specification -/

/-- what an object has under a key -/
def itemOf (k : Str) : Json → Option Json
  | .obj kvs => kvs.lookup k
  | _ => none

/-- a string -/
def textOf : Json → Option Str
  | .str s => some s
  | _ => none

/-- an optional string: the key is there with a string, or it is not there -/
def optStr (k : Str) (j : Json) : Option (Option Str) :=
  match itemOf k j with
  | none => some none
  | some (.str s) => some (some s)
  | some _ => none

/-- a string under a key -/
def needStr (k : Str) (j : Json) : Option Str := (itemOf k j).bind textOf

/-- a list under a key -/
def needArr (k : Str) (j : Json) : Option (List Json) :=
  match itemOf k j with
  | some (.arr xs) => some xs
  | _ => none

/-- only these keys, and none of them twice -/
def onlyKeys (ks : List Str) : Json → Bool
  | .obj kvs => (kvs.map (·.1)).all (· ∈ ks) && decide (kvs.map (·.1)).Nodup
  | _ => false

/-- a range: two numbers, two texts or the text in the document -/
def readRange (j : Json) : Option RangeV :=
  match j with
  | .str s => some (.raw s)
  | _ =>
    if onlyKeys [c!"low", c!"high"] j then
      match itemOf c!"low" j, itemOf c!"high" j with
      | some (.num lo), some (.num hi) => some (.int lo hi)
      | some (.str lo), some (.str hi) => some (.dyn lo hi)
      | _, _ => none
    else none

/-- a field of a layout -/
def readStructField (j : Json) : Option StructField :=
  if onlyKeys [c!"label", c!"range", c!"brief"] j then do
    let label ← needStr c!"label" j
    let range ← (itemOf c!"range" j).bind readRange
    let brief ← optStr c!"brief" j
    some ⟨label, range, brief⟩
  else none

/-- a value -/
def readValueField (j : Json) : Option ValueField :=
  if onlyKeys [c!"val", c!"label", c!"brief"] j then do
    let val ← needStr c!"val" j
    let label ← needStr c!"label" j
    let brief ← optStr c!"brief" j
    some ⟨val, label, brief⟩
  else none

/-- an entity -/
def readEntity (j : Json) : Option Entity :=
  if onlyKeys [c!"title", c!"fig_id", c!"parent_fig_id", c!"type", c!"fields"] j then do
    let title ← optStr c!"title" j
    let figId ← needStr c!"fig_id" j
    let parent ← optStr c!"parent_fig_id" j
    let type ← needStr c!"type" j
    let fields ← needArr c!"fields" j
    if type = c!"values" then do
      let fs ← fields.mapM readValueField
      some ⟨⟨title, figId, parent⟩, .values fs⟩
    else if type = c!"bits" then do
      let fs ← fields.mapM readStructField
      some ⟨⟨title, figId, parent⟩, .struct .bits fs⟩
    else if type = c!"bytes" then do
      let fs ← fields.mapM readStructField
      some ⟨⟨title, figId, parent⟩, .struct .bytes fs⟩
    else none
  else none

/-- the codes of the diagnostics, as in the documentation -/
def codeTable : List (Str × LintErr) :=
  [(c!"O1000", .general), (c!"T1000", .tblParseErr), (c!"T1001", .tblFieldOverlap), (c!"T1002", .tblFieldGap), (c!"T1004", .tblRowOrderReversed),
   (c!"T1006", .tblHdrErr), (c!"T1007", .tblSkipped), (c!"T1008", .tblFigIdExtractErr), (c!"L1000", .lblExtractErr), (c!"L1001", .lblEmpty),
   (c!"L1002", .lblDuplicate), (c!"L1003", .lblImputed), (c!"L1004", .lblInvalidChrs), (c!"L1007", .lblOverridden), (c!"V1000", .valExtractErr),
   (c!"V1001", .valEmpty), (c!"V1002", .valDuplicate), (c!"V1003", .valInvalid), (c!"R1000", .rangeExtractErr), (c!"R1001", .rangeInvalid),
   (c!"R1002", .rangeReversed)]

/-- a diagnostic -/
def readDiagnostic (j : Json) : Option LintEntry :=
  if onlyKeys [c!"code", c!"msg", c!"fig", c!"context", c!"row"] j then do
    let err ← (needStr c!"code" j).bind fun c => codeTable.lookup c
    let msg ← needStr c!"msg" j
    let fig ← needStr c!"fig" j
    let row ← optStr c!"row" j
    match itemOf c!"context" j with
    | some (.obj ctx) => some ⟨err, fig, msg, row, ctx⟩
    | _ => none
  else none

/-- what is in a model file -/
structure ModelFile where
  specification : Str
  revision : Str
  formatVersion : Int
  spexVersion : Str
  lint : List LintEntry
  entities : List Entity

/-- a whole model file -/
def readModel (j : Json) : Option ModelFile :=
  if onlyKeys [c!"meta", c!"entities"] j then do
    let info ← itemOf c!"meta" j
    let ents ← needArr c!"entities" j
    if onlyKeys [c!"specification", c!"revision", c!"format version", c!"spex version", c!"lint"] info then do
      let specification ← needStr c!"specification" info
      let revision ← needStr c!"revision" info
      let spexVersion ← needStr c!"spex version" info
      let lint ← (needArr c!"lint" info).bind (·.mapM readDiagnostic)
      let entities ← ents.mapM readEntity
      match itemOf c!"format version" info with
      | some (.num v) => some ⟨specification, revision, v, spexVersion, lint, entities⟩
      | _ => none
    else none
  else none

/-! ### Proofs -/

theorem mapM_read {α : Type} {f : α → Json} {g : Json → Option α} (h : ∀ x, g (f x) = some x) (xs : List α) : (xs.map f).mapM g = some xs := by
  induction xs with
  | nil => rfl
  | cons x xs ih => rw [List.map_cons, List.mapM_cons, h, ih]; rfl

theorem readRange_toJson (r : RangeV) : readRange r.toJson = some r := by
  cases r <;> simp [readRange, RangeV.toJson, onlyKeys, itemOf, List.lookup]

theorem readStructField_toJson (f : StructField) : readStructField f.toJson = some f := by
  obtain ⟨label, range, brief⟩ := f
  cases brief <;>
    simp [readStructField, StructField.toJson, onlyKeys, itemOf, List.lookup, briefJson, needStr, optStr, textOf, readRange_toJson]

theorem readValueField_toJson (f : ValueField) : readValueField f.toJson = some f := by
  obtain ⟨val, label, brief⟩ := f
  cases brief <;> simp [readValueField, ValueField.toJson, onlyKeys, itemOf, List.lookup, briefJson, needStr, optStr, textOf]

/-- **C79** What is written for an entity says all of it, under the documented keys and no others. -/
theorem C79_entity (e : Entity) : readEntity e.toJson = some e := by
  obtain ⟨⟨title, figId, parent⟩, body⟩ := e
  have h1 := mapM_read readStructField_toJson
  have h2 := mapM_read readValueField_toJson
  cases body with
  | values fs =>
    cases title <;> cases parent <;>
      simp [readEntity, Entity.toJson, EntityMeta.toJson, onlyKeys, itemOf, List.lookup, needStr, needArr, optStr, textOf, h2]
  | struct ty fs =>
    cases ty <;> cases title <;> cases parent <;>
      simp [readEntity, Entity.toJson, EntityMeta.toJson, StructTy.name, onlyKeys, itemOf, List.lookup, needStr, needArr, optStr, textOf, h1]

/-- **C79** What is written for a diagnostic says all of it. -/
theorem C79_diagnostic (l : LintEntry) : readDiagnostic l.toJson = some l := by
  obtain ⟨err, fig, msg, row, ctx⟩ := l
  have h : codeTable.lookup err.code = some err := by cases err <;> decide +kernel
  cases row <;> simp [readDiagnostic, LintEntry.toJson, onlyKeys, itemOf, List.lookup, needStr, optStr, textOf, h]

/-- what is read in the model of a run -/
theorem readModel_modelJson (key rev : Str) (ls : List LintEntry) (es : List Entity) :
    readModel (modelJson (openedInfo key rev ++ [(c!"lint", .arr (ls.map LintEntry.toJson))]) (es.map Entity.toJson)) =
      some ⟨key, rev, 1, c!"v0.7", ls, es⟩ := by
  simp [readModel, modelJson, openedInfo, onlyKeys, itemOf, List.lookup, needStr, needArr, textOf, mapM_read C79_entity, mapM_read C79_diagnostic]

section
variable [Uni]

/-- **C79** After a successful run, what is read from the text of the file are the title and revision of the document, the versions, the diagnostics of the run
without the ignored ones, and its entities, in the order in which they were found. -/
theorem C79_read_back (o : Opts) (doc : Except Exn Node) (h : (parseSpec o.ignore o.skip false none doc).2.2 = .returned) :
    ∃ root key rev, doc = .ok root ∧ Stated root key rev ∧ (runOf o.skip root key rev).out = .ok () ∧
      (readJson (parseSpec o.ignore o.skip false none doc).2.1.file.content).bind readModel =
        some ⟨key, rev, 1, c!"v0.7", (allDiagnostics (runOf o.skip root key rev).evs).filter (fun l => ∀ c ∈ o.ignore, l.err.code ≠ c.code),
          entities (runOf o.skip root key rev).evs⟩ := by
  rcases run_cases o doc with ⟨root, j, c1, ⟨key, rev, c2, c3, c4⟩, -, c5⟩ | ⟨-, e, c2⟩
  · refine ⟨root, key, rev, c1, c2, c3, ?_⟩
    rw [c5, C61_roundtrip, c4]
    exact readModel_modelJson _ _ _ _
  · rw [c2] at h; cases h

end

set_option synthInstance.maxHeartbeats 200000 in
set_option synthInstance.maxSize 2000 in
/-- a run with an inner table, a table which is skipped, and a code which is ignored -/
example : letI := Uni.ascii
    (parseSpec [.tblFieldGap] false false none (.ok (headedDoc c!"Big" c!"1.0A" [goodFig, oddFig]))).2.2 = .returned ∧
    (((readJson (parseSpec [.tblFieldGap] false false none (.ok (headedDoc c!"Big" c!"1.0A" [goodFig, oddFig]))).2.1.file.content).bind readModel).map
      fun m => (m.specification, m.lint.map fun l => (l.err, l.fig), m.entities.map fun e => (e.info.figId, e.info.parent))) =
      some (c!"big", [(.tblSkipped, c!"9")], [(c!"7_16", some c!"7"), (c!"7", none)]) := by
  decide +kernel

/-- fields of all kinds -/
example : readEntity (.obj [(c!"fig_id", .str c!"7_3"), (c!"parent_fig_id", .str c!"7"), (c!"type", .str c!"bits"), (c!"fields", .arr
      [.obj [(c!"label", .str c!"A"), (c!"range", .obj [(c!"low", .num 0), (c!"high", .num 3)]), (c!"brief", .str c!"Alpha")],
       .obj [(c!"label", .str c!"B"), (c!"range", .obj [(c!"low", .str c!"n"), (c!"high", .str c!"n+1")])],
       .obj [(c!"label", .str c!"C"), (c!"range", .str c!"x")]])]) =
    some ⟨⟨none, c!"7_3", some c!"7"⟩, .struct .bits [⟨c!"A", .int 0 3, some c!"Alpha"⟩, ⟨c!"B", .dyn c!"n" c!"n+1", none⟩, ⟨c!"C", .raw c!"x", none⟩]⟩ := by
  decide +kernel

end Spex
