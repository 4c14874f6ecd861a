/-
Python runtime fragments used by the modelled code: strings as lists of characters, the `str` methods the code calls,
`int()` on strings, exceptions as values.
No file of /repo is modelled here; each definition names the CPython builtin it stands for.
-/
set_option autoImplicit false
namespace Spex

/-- Python `str`. Lone surrogates cannot occur (texts come from XML/UTF-8) (throughout /repo/src, e.g. xml.py:38-47). -/
abbrev Str := List Char

/-- `c!"abc"` is the list of characters of the literal. -/
syntax:max "c!" str : term
macro_rules
  | `(c!$s:str) => do
    let cs := s.getString.toList.map (fun c => Lean.Syntax.mkCharLit c)
    `(([$(cs.toArray),*] : List Char))

/-- The exceptions which the modelled code can raise (all are subclasses of python's `Exception`) (e.g. xml.py:82, structtable.py:404-425,
rowiter.py:131-135, tablewrap.py:70). -/
inductive Exn where
  | xpathNotFound      -- spex.jsonspec.exceptions.XPathElementNotFoundException
  | labelExtraction    -- spex.jsonspec.exceptions.LabelExtractionError
  | valueError
  | keyError
  | indexError
  | typeError
  | runtimeError
  | assertionError
  | xmlSyntaxError     -- lxml.etree.XMLSyntaxError
  | bdbQuit            -- bdb.BdbQuit: `breakpoint()` without a terminal
  | recursionError     -- only produced when the model's fuel is exhausted; see C32
  deriving DecidableEq, Repr

/-- `str.isspace` for one character; identical to regex `\s`, `str.strip()` and `str.split()` separators
(CPython `Py_UNICODE_ISSPACE`; complete list of code points, see tools/check_unicode.py) (used in xml.py:47, helpers.py:66,
regular_expressions.py:47-69). -/
def isSpace (c : Char) : Bool :=
  [0x9, 0xa, 0xb, 0xc, 0xd, 0x1c, 0x1d, 0x1e, 0x1f, 0x20, 0x85, 0xa0, 0x1680, 0x2000, 0x2001, 0x2002, 0x2003,
   0x2004, 0x2005, 0x2006, 0x2007, 0x2008, 0x2009, 0x200a, 0x2028, 0x2029, 0x202f, 0x205f, 0x3000].contains c.toNat

/-- Python's Unicode tables (as far as used), with the laws the proofs rely on (used in document.py:263, helpers.py:97-103,
structtable.py:420-422). -/
class Uni where
  /-- regex `\w` -/
  isWord : Char → Bool
  /-- `Some d` iff the character is a decimal digit (regex `\d`, accepted by `int()`) of value `d` -/
  digit : Char → Option Nat
  /-- `str.upper` of one character; `str.upper` maps characters one by one -/
  upperC : Char → Str
  /-- `str.lower`; not characterwise (final sigma) -/
  lower : Str → Str
  isWord_ascii : ∀ c : Char, c.toNat < 128 → isWord c = (c.isAlphanum || c == '_')
  digit_ascii : ∀ c : Char, c.toNat < 128 → digit c = if c.isDigit then some (c.toNat - 48) else none
  digit_lt : ∀ c d, digit c = some d → d < 10
  digit_word : ∀ c, (digit c).isSome → isWord c = true
  space_not_word : ∀ c, isSpace c = true → isWord c = false
  upper_ascii : ∀ c : Char, c.toNat < 128 → upperC c = [c.toUpper]
  upper_idem : ∀ c x, x ∈ upperC c → upperC x = [x]
  /-- a changed character never becomes an ASCII character which is not a letter -/
  upper_new : ∀ c x : Char, x ∈ upperC c → x.toNat < 128 → x.isAlpha = false → x = c
  /-- white space is not changed -/
  upper_space : ∀ c : Char, isSpace c = true → upperC c = [c]
  lower_ascii : ∀ s : Str, (∀ c ∈ s, c.toNat < 128) → lower s = s.map Char.toLower
  lower_idem : ∀ s, lower (lower s) = lower s
  lower_new : ∀ s, ∀ x : Char, x ∈ lower s → x.toNat < 128 → x.isAlpha = false → x ∈ s
  lower_nil : lower [] = []
  /-- ASCII characters are mapped one by one, whatever follows -/
  lower_prefix : ∀ a b : Str, (∀ c ∈ a, c.toNat < 128) → a.map Char.toLower <+: lower (a ++ b)

export Uni (isWord digit upperC lower)

variable [Uni]

/-- regex `\d` (regular_expressions.py:59) -/
def isDigit (c : Char) : Bool := (digit c).isSome

/-- `str.upper()` (helpers.py:103, structtable.py:383, __main__.py:39) -/
def upper (s : Str) : Str := s.flatMap upperC

/-- `str.lstrip` for a character predicate (helpers.py:46, 97) -/
def lstripBy (p : Char → Bool) (s : Str) : Str := s.dropWhile p

/-- `str.rstrip` for a character predicate (helpers.py:46, 98) -/
def rstripBy (p : Char → Bool) (s : Str) : Str := (s.reverse.dropWhile p).reverse

/-- `str.strip` for a character predicate (helpers.py:76, 79) -/
def stripBy (p : Char → Bool) (s : Str) : Str := rstripBy p (lstripBy p s)

/-- `str.strip()` (xml.py:47, document.py:247) -/
def strip (s : Str) : Str := stripBy isSpace s

/-- `str.replace(a, r)` for a one character pattern (helpers.py:99-101, structtable.py:432) -/
def replace1 (a : Char) (r : Str) (s : Str) : Str := s.flatMap (fun c => if c = a then r else [c])

/-- `str.replace(aa, r)` for the pattern of twice the same character: scan left to right, non overlapping, one pass (helpers.py:102) -/
def replace2 (a : Char) (r : Str) : Str → Str
  | [] => []
  | [c] => [c]
  | c :: d :: s => if c = a ∧ d = a then r ++ replace2 a r s else c :: replace2 a r (d :: s)

/-- `str.split(sep, 1)[0]` (helpers.py:50, structtable.py:359, valuetable.py:240) -/
def splitHead (sep : Char) (s : Str) : Str := s.takeWhile (· != sep)

/-- `len(str.split(sep, 1)) == 1` is `!s.contains sep` (helpers.py:50, structtable.py:359, valuetable.py:240) -/
def hasChar (c : Char) (s : Str) : Bool := s.contains c

/-- `str.split(sep)` for a one character separator (__main__.py:39, header.py:24, styles.py:34) -/
def splitOn (sep : Char) : Str → List Str
  | [] => [[]]
  | c :: s =>
    if c = sep then [] :: splitOn sep s
    else match splitOn sep s with
      | [] => [[c]]
      | w :: ws => (c :: w) :: ws

/-- worker of `str.split()`: `cur` is the word being read (helpers.py:66, structtable.py:363) -/
def wordsAux : Str → Str → List Str
  | cur, [] => if cur = [] then [] else [cur]
  | cur, c :: s =>
    if isSpace c then (if cur = [] then wordsAux [] s else cur :: wordsAux [] s)
    else wordsAux (cur ++ [c]) s

/-- `str.split()` (helpers.py:66, structtable.py:363) -/
def words (s : Str) : List Str := wordsAux [] s

/-- `str.startswith` (structtable.py:145, 155, valuetable.py:83, 88) -/
def startsWith (s p : Str) : Bool := p.isPrefixOf s

/-- `str.endswith` (quirks/kv.py:25) -/
def endsWith (s p : Str) : Bool := p.isSuffixOf s

/-- `p in s` for strings (document.py:154) -/
def isInfix (p : Str) : Str → Bool
  | [] => p.isPrefixOf []
  | c :: s => p.isPrefixOf (c :: s) || isInfix p s

/-- The leading and trailing characters `int()` skips: white space, but without the ASCII separators 0x1c..0x1f (used in
structtable.py:420-422, rowiter.py:60-130, tablewrap.py:47, numbering.py:111-150). -/
def isIntSpace (c : Char) : Bool := isSpace c && !([0x1c, 0x1d, 0x1e, 0x1f].contains c.toNat)

/-- digits of a numeral with optional single underscores between digits; `acc` is the value of the digits read,
`n` their number, `prev` whether the previous character was a digit (used in structtable.py:420-422, rowiter.py:60-130, tablewrap.py:47,
numbering.py:111-150) -/
def intDigits : Nat → Nat → Bool → Str → Except Exn (Nat × Nat)
  | acc, n, prev, [] => if prev then .ok (acc, n) else .error .valueError
  | acc, n, prev, c :: s =>
    match digit c with
    | some d => intDigits (acc * 10 + d) (n + 1) true s
    | none => if c = '_' ∧ prev then intDigits acc n false s else .error .valueError

/-- CPython's `sys.int_info.default_max_str_digits` (used in structtable.py:420-422, rowiter.py:60-130, tablewrap.py:47, numbering.py:111-150) -/
def maxStrDigits : Nat := 4300

/-- unsigned part of `int(str)` (used in structtable.py:420-422, rowiter.py:60-130, tablewrap.py:47, numbering.py:111-150) -/
def intUnsigned (s : Str) : Except Exn Nat :=
  match intDigits 0 0 false s with
  | .error e => .error e
  | .ok (v, n) => if n > maxStrDigits then .error .valueError else .ok v

/-- `int(str)` (base 10): surrounding blanks, sign, digits, ValueError otherwise (used in structtable.py:420-422, rowiter.py:60-130,
tablewrap.py:47, numbering.py:111-150) -/
def pyInt (s : Str) : Except Exn Int :=
  match stripBy isIntSpace s with
  | '+' :: t => (intUnsigned t).map Int.ofNat
  | '-' :: t => (intUnsigned t).map (fun n => - Int.ofNat n)
  | t => (intUnsigned t).map Int.ofNat

/-- `str(n)` for a natural number, without leading zeros: least significant digit first, then reversed (used in structtable.py:105,
htmlrenderer.py:222-223) -/
def natDigitsRev : Nat → Nat → Str
  | 0, _ => []
  | fuel + 1, n =>
    if n < 10 then [Char.ofNat (48 + n)]
    else Char.ofNat (48 + n % 10) :: natDigitsRev fuel (n / 10)

/-- `str(n)` for a non negative integer (used in structtable.py:105, htmlrenderer.py:222-223) -/
def natStr (n : Nat) : Str := (natDigitsRev (n + 1) n).reverse

/-- `str(i)` (used in structtable.py:105, htmlrenderer.py:222-223) -/
def intStr : Int → Str
  | .ofNat n => natStr n
  | .negSucc n => '-' :: natStr (n + 1)

end Spex
