import Verif.Model.Regex
import Verif.Model.Word
/-
Model of src/spex/htmlspec/docx/header.py.
-/
set_option autoImplicit false
namespace Spex

/-- `_rgx_revision` (header.py:12): `.*[Rr]evision\s+(?P<rev>\S+).*` -/
def revisionRe : Re := .seqs [.star (fun c => c != '\n'), .cls (fun c => c == 'R' || c == 'r'), .lit c!"evision", .plus isSpace,
  .grp 1 (.plus (fun c => !isSpace c)), .star (fun c => c != '\n')]

/-- Header.header (header.py:19-21): the texts of all `w:t` elements of `word/header1.xml`. Reading that file from the archive is
not modelled. -/
def headerText (root : Node) : Str := (descendants wT [] root).flatMap (fun l => (l.node.text?).getD [])

/-- Header.revision (header.py:22-23) -/
def headerRevision (header : Str) : Option Str := (revisionRe.pmatch header).bind (group · 1)

/-- Header.title (header.py:24) -/
def headerTitle (header : Str) : Str := strip (splitHead ',' header)

end Spex
