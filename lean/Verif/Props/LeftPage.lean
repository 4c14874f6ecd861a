import Verif.Props.Resume
/-
C83: the page which is left when a Word document cannot be converted to the end.
-/
set_option autoImplicit false
namespace Spex

section
variable [Uni]

/-! ### C83 -/

theorem wordTables_ok {doc : WordDoc} {ts : List LNode} (h : ∀ t ∈ ts, XmlText t.node.flat) (seen : Seen) :
    unitsOk (wordTables doc ts seen).1 := by
  induction ts generalizing seen with
  | nil => rw [wordTables]; simp only [unitsOk]
  | cons t ts ih =>
    rw [wordTables]
    cases hp : parseTable doc (docFuel doc.root) t seen with
    | error e => simp only [unitsOk]
    | ok r =>
      simp only
      rw [unitsOk_append]
      exact ⟨(parse_ok _).1 _ _ _ _ (h t List.mem_cons_self) hp, ih (fun t ht => h t (List.mem_cons_of_mem _ ht)) r.2⟩

/-- the tables which were read before one could not be -/
theorem yieldedTables_ok {doc : WordDoc} (hx : XmlText doc.root.flat) : unitsOk (yieldedTables doc).1 := by
  refine wordTables_ok (fun t ht c hc => hx c (flat_nodeAt (mem_docTables.1 ht).1 hc)) []

omit [Uni] in
theorem Laid.concat {a b : List Piece} {t u : Str} (h : Laid a t) (h' : Laid b u) : Laid (a ++ b) (t ++ u) := by
  induction h with
  | nil => exact h'
  | str _ ih => rw [List.append_assoc]; exact .str ih
  | nl hw _ ih => rw [List.append_assoc]; exact .nl hw ih
  | brk hw _ ih => rw [List.append_assoc]; exact .brk hw ih
  | stay _ ih => exact .stay ih

/-- A Word document which can be opened; its text can be written to a file, and its title and revision and the name of its file have no
characters with a special meaning. -/
structure WordOpened (f : WordFile) (stem : Str) (doc : WordDoc) (header : Str) : Prop where
  opened : openWord f = .ok (doc, header)
  text : XmlText doc.root.flat
  title : HeadText (headerTitle header)
  revision : ∀ r, headerRevision header = some r → HeadText r
  name : HeadText stem

/-- **C83** Files are left by the first stage if and only if the document could be opened; after a conversion to the end they are the
page and the style sheet. -/
theorem C83_files (f : WordFile) (stem : Str) (p : Bool) :
    ((∃ r, stageFiles f stem = some r) ↔ ∃ d, openWord f = .ok d) ∧
      ∀ page css, (firstStage f stem p).2 = .ok (page, css) → stageFiles f stem = some (page, css) := by
  constructor
  · unfold stageFiles
    cases ho : openWord f with
    | error e => simp
    | ok d =>
      obtain ⟨doc, header⟩ := d
      simp only
      constructor
      · intro _; exact ⟨_, rfl⟩
      · intro _
        cases (yieldedTables doc).2 with
        | error e => exact ⟨_, rfl⟩
        | ok u => exact ⟨_, rfl⟩
  · intro page css h
    unfold firstStage at h
    unfold stageFiles
    cases ho : openWord f with
    | error e => rw [ho] at h; cases h
    | ok d =>
      obtain ⟨doc, header⟩ := d
      rw [ho] at h
      simp only at h ⊢
      cases hy : (yieldedTables doc).2 with
      | error e => rw [hy] at h; cases h
      | ok u => rw [hy] at h; cases h; rfl

/-- **C83** If one of the tables of the document cannot be read, then neither the page which is left nor any beginning of it is an XML
document. Only its end is missing: with the two end tags it is the page with all tables before the one which could not be read. -/
theorem C83_left_page {f : WordFile} {stem : Str} {doc : WordDoc} {header : Str} (h : WordOpened f stem doc header) {us : List HUnit} {e : Exn}
    (hf : yieldedTables doc = (us, .error e)) :
    ∃ (page : List Piece) (css : List Str), stageFiles f stem = some (page, css) ∧ ∀ text, Laid page text →
      (∀ part, part <+: text → readXml part = none) ∧
      ∃ root cls, readXml (text ++ c!"</body>\n</html>\n") = some root ∧
        root.clean = pageNode spexVersion (headerTitle header) (headerRevision header) stem (unitNodes cls us) := by
  refine ⟨pageHead spexVersion (headerTitle header) (headerRevision header) stem ++ (renderUnits RSt.init us).1, cssStart doc.numbering, ?_, ?_⟩
  · unfold stageFiles
    rw [h.opened]
    simp only [hf]
  · intro text hl
    have hu : unitsOk us := by
      have := yieldedTables_ok h.text
      rwa [hf] at this
    have hend : Laid (emitln c!"</body>" ++ emitln c!"</html>") c!"</body>\n</html>\n" :=
      Laid.str (s := c!"</body>") (.nl (w := []) (fun _ h => nomatch h) (.str (s := c!"</html>") (.nl (w := []) (fun _ h => nomatch h) .nil)))
    have hl' : Laid (renderPage spexVersion (headerTitle header) (headerRevision header) stem us).1 (text ++ c!"</body>\n</html>\n") := by
      have := hl.concat hend
      rw [← List.append_assoc] at this
      exact this
    obtain ⟨n, hn, hc⟩ := page_read headText_version h.title h.revision h.name hu hl'
    exact ⟨fun part hp => readXml_unclosed hp hn (by simp), n, _, hn, hc⟩

/-- **C83** The page which is left can be read if and only if all tables of the document could be. -/
theorem C83_readable_iff {f : WordFile} {stem : Str} {doc : WordDoc} {header : Str} (h : WordOpened f stem doc header) {page : List Piece}
    {css : List Str} (hf : stageFiles f stem = some (page, css)) {text : Str} (hl : Laid page text) :
    (∃ root, readXml text = some root) ↔ ∃ us, parseWord doc = .ok us := by
  constructor
  · rintro ⟨root, hr⟩
    cases hy : (yieldedTables doc).2 with
    | ok u =>
      exact ⟨(yieldedTables doc).1, (wordTables_parseWord doc _).1 (Prod.ext rfl hy)⟩
    | error e =>
      exfalso
      obtain ⟨page', css', h1, h2⟩ := C83_left_page h (us := (yieldedTables doc).1) (e := e) (Prod.ext rfl hy)
      rw [hf] at h1
      cases h1
      have := (h2 text hl).1 text (List.prefix_refl _)
      rw [hr] at this
      cases this
  · rintro ⟨us, hu⟩
    have hr : Readable f stem doc header us := ⟨h.opened, h.text, hu, h.title, h.revision, h.name⟩
    obtain ⟨css', hs⟩ := hr.stage false
    have := (C83_files f stem false).2 _ _ hs
    rw [hf] at this
    cases this
    obtain ⟨n, hn, -⟩ := page_read headText_version h.title h.revision h.name (parseWord_ok h.text hu) hl
    exact ⟨n, hn⟩

/-- **C83** Giving such a page to spex ends with an error, and the model which is left has neither metadata nor entities: it does not pass
for the model of the document. -/
theorem C83_run (unzip : Str → WordFile) (layout : List Piece → Str) {f : WordFile} {stem : Str} {doc : WordDoc} {header : Str}
    (h : WordOpened f stem doc header) {us : List HUnit} {e : Exn} (hf : yieldedTables doc = (us, .error e)) {page : List Piece} {css : List Str}
    (hs : stageFiles f stem = some (page, css)) {text part : Str} (hl : Laid page text) (hp : part <+: text) (o : Opts) (w : Files)
    (html : FPath) (h1 : stem ≠ []) (h2 : html.name = stem ++ c!".html") (h3 : w html = some part) :
    (runSpec (stageTools unzip layout) o w html).2 = .error .xmlSyntaxError ∧ ∃ model,
      (runSpec (stageTools unzip layout) o w html).1 ⟨o.out, stem ++ c!".json"⟩ = some model ∧ readJson model = some (modelJson [] []) := by
  have hx : suffix html.name ≠ c!".docx" := by rw [h2, suffix_of stem c!"html" h1 (by decide) (by decide)]; decide
  have hb : baseName html.name = stem := by rw [h2]; exact baseName_of stem c!"html" h1 (by decide) (by decide)
  have hne : html ≠ ⟨o.out, stem ++ c!".json"⟩ := by
    intro e
    rw [e] at h2
    exact ext_ne (s := c!".jso") (t := c!".htm") (by decide) h2
  have hnone : readXml part = none := by
    obtain ⟨page', css', g1, g2⟩ := C83_left_page h hf
    rw [hs] at g1
    cases g1
    exact (g2 text hl).1 part hp
  have hread : readHtml (stageTools unzip layout) (w.set ⟨o.out, stem ++ c!".json"⟩ []) html = .error .xmlSyntaxError := by
    unfold readHtml
    rw [Files.set_ne hne, h3]
    simp only [stageTools, hnone]
  have hend : (parseSpec o.ignore o.skip false none (.error .xmlSyntaxError)).2.2 = .raised .xmlSyntaxError := rfl
  rw [runSpec, if_neg hx, runJson]
  simp only [hb, hread]
  refine ⟨by rw [hend], _, Files.set_self .., ?_⟩
  obtain ⟨-, ⟨h1, -⟩ | ⟨root, key, rev, h1, -⟩⟩ := C35_failure o.ignore o.skip false _ _ hend
  · exact h1
  · cases h1

end

/-! ### Examples -/

/-- a table with a span which is not a number -/
def exBadTable : Node := .elem wTbl [] [exTr [exCell [exGridSpan "x"] [exPara "Figure 8: Reply"]]]

/-- a Word file of which only the first table can be read -/
def exBadFile : WordFile := { exFile exHeader with document := .ok (exDocOf [exFigure, exBadTable]).root }

/-- the exception with which something ended -/
def exnOf {α : Type} : Except Exn α → Option Exn
  | .error e => some e
  | .ok _ => none

/-- the hypotheses of C83: the second table cannot be read -/
example : letI := Uni.ascii
    WordOpened exBadFile c!"nvme" (exDocOf [exFigure, exBadTable]) c!"NVM Express® Base Specification, Revision 2.0c" ∧
      ∃ us, yieldedTables (exDocOf [exFigure, exBadTable]) = (us, .error .valueError) ∧ us.map HUnit.src = [[0, 0]] := by
  let _ := Uni.ascii
  refine ⟨⟨rfl, by decide +kernel, ?_, ?_, ?_⟩, ?_⟩
  · have : (headerTitle c!"NVM Express® Base Specification, Revision 2.0c").all (fun c => isXmlChar c && !(c!"<>&\"\t\n\r").contains c) = true := by
      decide +kernel
    intro c hc
    have := List.all_eq_true.1 this c hc
    simpa only [Bool.and_eq_true, Bool.not_eq_true', List.contains_eq_mem, decide_eq_false_iff_not] using this
  · have : headerRevision c!"NVM Express® Base Specification, Revision 2.0c" = some c!"2.0c" := by decide +kernel
    intro r hr
    rw [this] at hr
    cases hr
    unfold HeadText
    decide +kernel
  · unfold HeadText
    decide +kernel
  · have h1 : (yieldedTables (exDocOf [exFigure, exBadTable])).1.map HUnit.src = [[0, 0]] := by decide +kernel
    have h2 : exnOf (yieldedTables (exDocOf [exFigure, exBadTable])).2 = some .valueError := by decide +kernel
    generalize yieldedTables (exDocOf [exFigure, exBadTable]) = r at h1 h2
    obtain ⟨us, o⟩ := r
    cases o with
    | error e => cases h2; exact ⟨us, rfl, h1⟩
    | ok u => cases h2

/-- the page which is left is the beginning of a page, and it cannot be read -/
example : letI := Uni.ascii
    (stageFiles exBadFile c!"nvme").map (fun r => (readXml (plainText r.1)).isNone) = some true ∧
    (stageFiles exBadFile c!"nvme").map (fun r => (readXml (plainText r.1 ++ c!"</body>\n</html>\n")).isSome) = some true := by
  decide +kernel

end Spex
