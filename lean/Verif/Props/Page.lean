import Verif.Lemmas.PageRead
import Verif.Model.Ascii
/-
C43, C44, C49: the page which is written, as an XML parser reads it.
-/
set_option autoImplicit false
namespace Spex

/-! ### Specification (see also Props/PageSpec) -/

mutual
/-- the `table` elements of a tree in document order -/
def tablesOf : Node → List Node
  | .text _ => []
  | .elem tag as ks => (if tag = c!"table" then [.elem tag as ks] else []) ++ tablesOfs ks
def tablesOfs : List Node → List Node
  | [] => []
  | k :: ks => tablesOf k ++ tablesOfs ks
end

/-! ### C43 -/

/-- C43: Whatever is rendered between `<body>` and `</body>` is well formed, for arbitrary trees of tables, lists and
paragraphs, and for every indentation: an XML parser reads it, and what it reads is the tree of the paragraphs, lists and
tables. -/
theorem C43_body_well_formed (us : List HUnit) (hu : unitsOk us) (t : Str) (ht : Laid (renderUnits RSt.init us).1 t) :
    ∃ n, readXml (c!"<body>" ++ t ++ c!"</body>") = some n ∧
      n.clean = .elem c!"body" [] (unitNodes (classesOf (renderUnits RSt.init us).2) us) :=
  body_read hu ht

/-- C43: ... and that is so for everything the parser makes of a Word document (whose characters are those of XML, as the
document itself was read from XML). -/
theorem C43_word_document [Uni] (doc : WordDoc) (hx : XmlText doc.root.flat) (us : List HUnit) (h : parseWord doc = .ok us)
    (t : Str) (ht : Laid (renderUnits RSt.init us).1 t) :
    ∃ n, readXml (c!"<body>" ++ t ++ c!"</body>") = some n ∧
      n.clean = .elem c!"body" [] (unitNodes (classesOf (renderUnits RSt.init us).2) us) :=
  body_read (parseWord_ok hx h) ht

/-! ### C44 -/

/-- C44 (partial): the complete page is read back: head and body with all their elements, attributes and texts. What is missing
is the head: title, revision and file name have to be free of `<`, `>`, `&`, `"` and control characters, as they are written
unescaped (see `C44_title_false`), and an end of line in a text is read as a line feed (see `C44_cr_false`). -/
theorem C44_page_read_back_partial [Uni] (doc : WordDoc) (hx : XmlText doc.root.flat) (us : List HUnit) (h : parseWord doc = .ok us)
    (version title fname : Str) (revision : Option Str) (h1 : HeadText version) (h2 : HeadText title)
    (h3 : ∀ r, revision = some r → HeadText r) (h4 : HeadText fname) (t : Str)
    (ht : Laid (renderPage version title revision fname us).1 t) :
    ∃ n, readXml t = some n ∧
      n.clean = pageNode version title revision fname (unitNodes (classesOf (renderPage version title revision fname us).2) us) :=
  page_read h1 h2 h3 h4 (parseWord_ok hx h) ht

/-- C44: one text, written and read back: the very same text if it has no carriage return. Whatever it contains, it is a single
text, never markup. -/
theorem C44_text (s : Str) (hx : XmlText s) :
    ∃ n, readXml (c!"<span>" ++ htmlEscape s ++ c!"</span>") = some n ∧ n = .elem c!"span" [] (textKids (eolNorm s)) ∧
      ('\r' ∉ s → eolNorm s = s) := by
  have hw : WFs [HTree.leaf c!"span" [] true s] := by
    simp only [WFs, HTree.WF, and_true]
    exact ⟨tag_lit _ _ (.inl rfl) (by decide), by decide, hx⟩
  have hl : LaidC (sers [HTree.leaf c!"span" [] true s]) (c!"<span>" ++ htmlEscape s ++ c!"</span>") := by
    rw [sers, sers, HTree.ser, List.append_nil]
    exact LaidC.of_str _
  obtain ⟨n, h1, h2⟩ := tree_read_plain hw (by rw [nodesOf_leaf, nodesOf_nil]) hl
  refine ⟨n, h1, ?_, fun h => eolNorm_noCR (fun c hc he => h (he ▸ hc))⟩
  obtain ⟨ks, rfl⟩ := clean_elem h2
  rw [Node.clean, if_pos (by decide)] at h2
  exact h2

/-! ### C49, on the page -/

theorem tablesOfs_append (a b : List Node) : tablesOfs (a ++ b) = tablesOfs a ++ tablesOfs b := by
  induction a with
  | nil => rfl
  | cons k a ih => rw [List.cons_append, tablesOfs, tablesOfs, ih, List.append_assoc]

theorem tablesOfs_textKids (s : Str) : tablesOfs (textKids s) = [] := by
  unfold textKids
  split
  · rfl
  · simp only [tablesOfs, tablesOf, List.append_nil]

theorem tablesOfs_spans (cls : Classes) (ss : List HSpan) : tablesOfs (ss.map (spanNode cls)) = [] := by
  induction ss with
  | nil => rfl
  | cons s ss ih =>
    rw [List.map_cons, tablesOfs, ih, spanNode, tablesOf, if_neg (by decide), tablesOfs_textKids]
    rfl

theorem tablesOf_li (ns : List Node) : tablesOf (liNode ns) = tablesOfs ns := by
  rw [liNode, tablesOf, if_neg (by decide)]
  rfl

theorem tablesOf_pend {p : Option (List Node)} (h : ∀ ns, p = some ns → tablesOfs ns = []) :
    tablesOfs ((p.map liNode).toList) = [] ∧ tablesOfs (p.getD []) = [] := by
  cases p with
  | none => exact ⟨rfl, rfl⟩
  | some ns =>
    refine ⟨?_, h ns rfl⟩
    show tablesOfs [liNode ns] = []
    rw [tablesOfs, tablesOf_li, h ns rfl]
    rfl

theorem tag_not_table (l : NumLvl) : l.tag ≠ c!"table" := by
  rcases numLvl_tag l with h | h <;> rw [h] <;> decide

mutual
theorem tablesOf_item (cls : Classes) (e : HItem) (p : Option (List Node)) (h : ∀ ns, p = some ns → tablesOfs ns = []) :
    tablesOfs (itemNode cls p e).1 = [] ∧ ∀ ns, (itemNode cls p e).2 = some ns → tablesOfs ns = [] := by
  cases e with
  | item spans =>
    rw [itemNode]
    refine ⟨(tablesOf_pend h).1, fun ns hn => ?_⟩
    cases hn
    exact tablesOfs_spans cls spans
  | list props elems =>
    rw [itemNode]
    refine ⟨?_, fun ns hn => by cases hn⟩
    show tablesOfs [liNode _] = []
    have hi := tablesOf_items cls elems none (fun ns hn => by cases hn)
    simp only [tablesOfs, tablesOf_li, tablesOfs_append, (tablesOf_pend h).2, tablesOf, if_neg (tag_not_table props), hi,
      List.append_nil]
theorem tablesOf_items (cls : Classes) (es : List HItem) (p : Option (List Node)) (h : ∀ ns, p = some ns → tablesOfs ns = []) :
    tablesOfs (itemNodes cls p es) = [] := by
  cases es with
  | nil => rw [itemNodes]; exact (tablesOf_pend h).1
  | cons e es =>
    obtain ⟨h1, h2⟩ := tablesOf_item cls e p h
    rw [itemNodes, tablesOfs_append, h1, tablesOf_items cls es _ h2]
    rfl
end

mutual
theorem tablesOf_unit (cls : Classes) (u : HUnit) (hu : u.Ok) : tablesOf (unitNode cls u) = u.shown.map (unitNode cls) := by
  cases u with
  | para spans =>
    rw [unitNode, HUnit.shown, tablesOf, tablesOfs_spans, if_neg (by decide)]; rfl
  | list props elems =>
    rw [unitNode, HUnit.shown, tablesOf, if_neg (tag_not_table props), tablesOf_items cls elems none (fun ns hn => by cases hn)]; rfl
  | table src id rows =>
    rw [HUnit.Ok] at hu
    rw [HUnit.shown, List.map_cons, ← tablesOf_rows cls 0 rows hu.2, unitNode, tablesOf, if_pos rfl]; rfl
theorem tablesOf_units (cls : Classes) (us : List HUnit) (hu : unitsOk us) : tablesOfs (unitNodes cls us) = (shownUnits us).map (unitNode cls) := by
  cases us with
  | nil => rw [unitNodes, shownUnits]; rfl
  | cons u us =>
    rw [unitsOk] at hu
    rw [unitNodes, shownUnits, tablesOfs, List.map_append, tablesOf_unit cls u hu.1, tablesOf_units cls us hu.2]
theorem tablesOf_rows (cls : Classes) (r : Nat) (rows : List (List HCell)) (h : rowsOk rows) :
    tablesOfs (rowNodes cls r rows) = (shownRows r rows).map (unitNode cls) := by
  cases rows with
  | nil => rw [rowNodes, shownRows]; rfl
  | cons row rows =>
    rw [rowsOk] at h
    rw [rowNodes, shownRows, tablesOfs, List.map_append, tablesOf, if_neg (by decide), tablesOf_cells cls r 0 row h.1,
      tablesOf_rows cls (r + 1) rows h.2]
    rfl
theorem tablesOf_cells (cls : Classes) (r c : Nat) (cells : List HCell) (h : cellsOk cells) :
    tablesOfs (cellNodes cls r c cells) = (shownRow r c cells).map (unitNode cls) := by
  match cells with
  | [] => rw [cellNodes, shownRow]; rfl
  | .mk tag elems cs rs left top fill :: cells =>
    rw [cellsOk] at h
    rw [cellNodes, shownRow]
    by_cases hc : left = (c : Int) ∧ top = (r : Int)
    · have ht : tag ≠ c!"table" := by rcases h.1 with h | h <;> rw [h] <;> decide
      rw [if_pos hc, if_pos hc, tablesOfs, tablesOf, if_neg ht, List.map_append, tablesOf_units cls elems h.2.1,
        tablesOf_cells cls r (c + 1) cells h.2.2]
      rfl
    · rw [if_neg hc, if_neg hc, tablesOf_cells cls r (c + 1) cells h.2.2]
      rfl
end

/-- C49: the `table` elements of the page are, one by one and in order, the tables which the parser shows. -/
theorem C49_tables_of_page [Uni] (doc : WordDoc) (hx : XmlText doc.root.flat) (us : List HUnit) (h : parseWord doc = .ok us)
    (cls : Classes) (version title fname : Str) (revision : Option Str) :
    tablesOf (pageNode version title revision fname (unitNodes cls us)) = (shownUnits us).map (unitNode cls) := by
  rw [← tablesOf_units cls us (parseWord_ok hx h)]
  unfold pageNode textKids
  split <;> simp [tablesOf, tablesOfs]

/-! ### Examples and counterexamples -/

/-- a page without indentation; lines end as in the pages of example/stage1 -/
def plainText : List Piece → Str
  | [] => []
  | .str s :: ps => s ++ plainText ps
  | .nl :: ps => '\n' :: plainText ps
  | .brk :: ps => '\n' :: plainText ps

theorem plainText_laid (ps : List Piece) : Laid ps (plainText ps) := by
  induction ps with
  | nil => exact .nil
  | cons p ps ih =>
    cases p with
    | str s => exact .str ih
    | nl => exact .nl (w := []) (fun c hc => by simp at hc) ih
    | brk => exact .brk (w := []) (fun c hc => by simp at hc) ih

/-- two tables with text full of special characters; one contains a table -/
def exMarkupDoc : WordDoc := exDocOf [
  .elem wTbl [] [exTr [exCell [] [exPara "Figure 7: a<b & \"c\" ]]> 'd' </td>"], exCell [] [exPara " "]],
    exTr [exCell [] [exPara "x", .elem wTbl [] [exTr [exCell [] [exPara "&amp;"]]]], exCell [] []]],
  .elem wTbl [] [exTr [exCell [] [exPara "y"]]]]

instance : DecidablePred HeadText := fun s => by unfold HeadText; infer_instance
instance : DecidablePred XmlText := fun s => by unfold XmlText; infer_instance

example : XmlText exMarkupDoc.root.flat := by decide +kernel

/-- the page of the example, read -/
example : letI := Uni.ascii
    ((parseWord exMarkupDoc).toOption.bind fun us =>
      (readXml (plainText (renderPage c!"1.0" c!"NVMe" (some c!"2.0") c!"spec" us).1)).map fun n =>
        ((tablesOf n.clean).length, n.clean.flat)) =
    some (3, c!"specFigure 7: a<b & \"c\" ]]> 'd' </td> x&amp;y") := by decide +kernel

example : HeadText c!"NVMe 2.0" ∧ HeadText c!"1.0" := by decide +kernel

/-- C44: is false for the head of the page: with `&` in the title of the document the page is not well formed. -/
theorem C44_title_false : XmlText c!"R&D" ∧
    readXml (plainText (renderPage c!"1.0" c!"R&D" (some c!"2.0") c!"spec" []).1) = none ∧
    (readXml (plainText (renderPage c!"1.0" c!"RD" (some c!"2.0") c!"spec" []).1)).isSome = true := by decide +kernel

/-- C44: likewise a quotation mark in the title, and `<` in the name of the file; and a title can introduce markup -/
theorem C44_head_false :
    readXml (plainText (renderPage c!"1.0" c!"12\" disk" none c!"spec" []).1) = none ∧
    readXml (plainText (renderPage c!"1.0" c!"disk" none c!"a<b" []).1) = none ∧
    (readXml (plainText (renderPage c!"1.0" c!"x\" data-y=\"z" none c!"spec" []).1)).map Node.clean =
      some (.elem c!"html" [(c!"lang", c!"en")] [
        .elem c!"head" [] [
          .elem c!"meta" [(c!"charset", c!"utf-8"), (c!"data-spec", c!"x"), (c!"data-y", c!"z")] [],
          .elem c!"meta" [(c!"name", c!"spexVersion"), (c!"content", c!"1.0")] [],
          .elem c!"title" [] [.text c!"spec"],
          .elem c!"link" [(c!"rel", c!"stylesheet"), (c!"href", c!"spec.css")] []],
        .elem c!"body" [] []]) := ⟨by decide +kernel, by decide +kernel, rfl⟩

/-- C44: a carriage return in a text (`&#13;` in the Word document) is read back as a line feed -/
theorem C44_cr_false : XmlText c!"a\rb" ∧
    (readXml (c!"<span>" ++ htmlEscape c!"a\rb" ++ c!"</span>")) = some (.elem c!"span" [] [.text c!"a\nb"]) := ⟨by decide +kernel, rfl⟩

/-- the reader of the specification is no laxer and no stricter than XML: end tags match, `>` may stand in a text but not after `]]`, references in
attributes are read, an attribute stands once, and there is one root -/
example : (readXml c!"<a><b></a></b>").isNone = true ∧ (readXml c!"<a>]]></a>").isNone = true ∧ (readXml c!"<a b='1' b='2'/>").isNone = true ∧
    (readXml c!"<a/><b/>").isNone = true ∧ (readXml c!"<a>&x;</a>").isNone = true ∧
    readXml c!"<a>x>y</a>" = some (.elem c!"a" [] [.text c!"x>y"]) ∧
    readXml c!"<a b='x&amp;y&#65;'/>" = some (.elem c!"a" [(c!"b", c!"x&yA")] []) :=
  ⟨by decide +kernel, by decide +kernel, by decide +kernel, by decide +kernel, by decide +kernel, rfl, rfl⟩

end Spex
