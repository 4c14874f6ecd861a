import Verif.Model.Regex
import Verif.Model.Xml
import Verif.Model.Lint
/-
Models of src/spex/jsonspec/extractors/regular_expressions.py and src/spex/jsonspec/extractors/helpers.py.
-/
set_option autoImplicit false
namespace Spex
variable [Uni]

/-! ### regular_expressions.py -/

/-- the class of the group `label` (regular_expressions.py:47): word characters, white space, the range from comma to
slash (comma, hyphen, period, slash) and the ampersand -/
def clsStructLabel (c : Char) : Bool :=
  isWord c || isSpace c || (','.toNat ≤ c.toNat && c.toNat ≤ '/'.toNat) || c == '&'

/-- `[\w\s\d]` (regular_expressions.py:47) -/
def clsAcronym (c : Char) : Bool := isWord c || isSpace c || isDigit c

/-- `.` with DOTALL (in regular_expressions.py:47, 54) -/
def clsAny (_ : Char) : Bool := true

/-- `.` without DOTALL (in document.py:79, regular_expressions.py:69, 71) -/
def clsDot (c : Char) : Bool := c != '\n'

/-- STRUCT_LABEL_REGEX (regular_expressions.py:45-50); groups: 1 label, 2 acronym, 3 brief -/
def reStructLabel : Re := .seqs
  [.bol, .grp 1 (.star clsStructLabel), .opt (.chr '('), .opt (.grp 2 (.star clsAcronym)), .opt (.chr ')'),
   .opt (.chr ':'), .opt (.grp 3 (.plus clsAny)), .eol]

/-- the class of the group `label` (regular_expressions.py:54): word characters, white space, slash, hyphen -/
def clsValueLabel (c : Char) : Bool := isWord c || isSpace c || c == '/' || c == '-'

/-- VALUE_LABEL_REGEX (regular_expressions.py:52-57); groups: 1 label, 3 brief -/
def reValueLabel : Re := .seqs
  [.bol, .grp 1 (.star clsValueLabel), .opt (.chr ':'), .opt (.grp 3 (.plus clsAny)), .eol]

/-- RANGE_REGEX (regular_expressions.py:59); groups: 1 high, 2 low, 3 the optional part -/
def reRange : Re := .seqs
  [.grp 1 (.plus isDigit), .star isSpace, .opt (.grp 3 (.seqs [.chr ':', .star isSpace, .grp 2 (.plus isDigit)]))]

/-- `[a-zA-Z0-9+\-*()\s]` (regular_expressions.py:61-63); the ranges are ASCII -/
def clsDynamic (c : Char) : Bool :=
  c.isAlphanum || c == '+' || c == '-' || c == '*' || c == '(' || c == ')' || isSpace c

/-- DYNAMIC_RANGE_REGEX (regular_expressions.py:61-63); groups: 1 "low", 2 "high" (as named there) -/
def reDynamicRange : Re := .seqs [.bol, .grp 1 (.plus clsDynamic), .chr ':', .grp 2 (.plus clsDynamic)]

/-- ELLIPSIS_LABEL_REGEX `^[\s]*[\.\.\.]|[…][\s]*$` (regular_expressions.py:65) -/
def reEllipsisLabel : Re :=
  .alt (.seqs [.bol, .star isSpace, .chr '.']) (.seqs [.chr '…', .star isSpace, .eol])

/-- LABEL_VALIDATION_REGEX `^[a-zA-Z][\w]*$` (regular_expressions.py:67) -/
def reLabelValidation : Re := .seqs [.bol, .cls Char.isAlpha, .star isWord, .eol]

/-- LABEL_NUMERICAL_REARRANGE_REGEX `^(\d+)(.*)` (regular_expressions.py:69) -/
def reNumRearrange : Re := .seqs [.bol, .grp 1 (.plus isDigit), .grp 2 (.star clsDot)]

/-! ### helpers.py -/

/-- extract_content (helpers.py:21-26) -/
def extractContent (data : Node) : Option Str := (data.nthChild tP 1).map Node.toText

/-- content_extract_brief (helpers.py:29-51) -/
def contentExtractBrief (txt : Str) (maxlen : Nat := 60) : Option Str :=
  if !hasChar ':' txt then none
  else match reStructLabel.pmatch txt with
  | none => none
  | some m => match group m 3 with
    | none => none
    | some b =>
      let brief := lstripBy (· == ' ') (rstripBy (· == '.') b)
      if brief.length ≤ maxlen then some brief
      else
        let brief' := splitHead '.' brief
        if brief'.length ≤ maxlen then some brief' else none

/-- `"".join(w[0] for w in text.split())` (helpers.py:66, structtable.py:363); words are never empty -/
def initials (text : Str) : Str := (words text).flatMap (fun w => w.take 1)

/-- generate_acronym (helpers.py:54-66) -/
def generateAcronym (text : Str) : Str := lower (initials text)

/-- rearrange_num_label (helpers.py:69-82) -/
def rearrangeNumLabel (label : Str) : Str :=
  match reNumRearrange.pmatch label with
  | some m =>
    let num := (group m 1).getD []
    let rest := stripBy (· == '_') ((group m 2).getD [])
    stripBy (· == '_') (rest ++ '_' :: num)
  | none => label

/-- normalize_label (helpers.py:85-104) -/
def normalizeLabel (label : Str) : Str :=
  upper (replace2 '_' ['_'] (replace1 '-' ['_'] (replace1 '/' [] (replace1 ' ' ['_']
    (rstripBy isSpace (lstripBy isSpace label))))))

/-- validate_label (helpers.py:107-122) -/
def validateLabel (lbl figId rowKey : Str) : M Unit :=
  if (reLabelValidation.pmatch lbl).isNone && (reEllipsisLabel.pmatch lbl).isNone then
    addIssue .lblInvalidChrs figId (some rowKey) [(c!"label", .str lbl)]
  else Pure.pure ()

/-- StructTableMapping / ValueTableMapping (helpers.py:125-139): the range/value, label and content columns -/
structure Mapping where
  key : Option Str
  label : Option Str
  content : Option Str
  deriving DecidableEq, Repr

/-- mapping_incomplete (helpers.py:142-159) -/
def mappingIncomplete (m : Mapping) : Bool := m.key.isNone || m.label.isNone || m.content.isNone

end Spex
