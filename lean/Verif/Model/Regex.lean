import Verif.Model.PyBasic
/-
The fragment of python's `re` used by /repo: a backtracking matcher in the list-of-successes style.
Results are ordered by priority (greedy first, left alternative first), so `re.match` is the head of the list.
-/
set_option autoImplicit false
namespace Spex

/-- Regular expressions, as far as used. Groups are numbered. Repetition is only used on character classes (python's `re`, for
regular_expressions.py:45-71 and document.py:79). -/
inductive Re where
  | eps
  | cls (p : Char → Bool)      -- a single character of the class
  | star (p : Char → Bool)     -- greedy `[..]*`
  | seq (a b : Re)
  | alt (a b : Re)
  | opt (a : Re)               -- greedy `(..)?`
  | grp (n : Nat) (a : Re)     -- capturing group
  | bol                        -- `^` (no MULTILINE)
  | eol                        -- `$` (no MULTILINE): end, or before a final newline

/-- Matcher state: are we at position 0, remaining text, captured groups (latest first) (python's `re`, for regular_expressions.py:45-71 and
document.py:79). -/
structure MS where
  start : Bool
  rest : Str
  caps : List (Nat × Str)
  deriving DecidableEq

/-- successes of `[..]*`, longest first (python's `re`, for regular_expressions.py:45-71 and document.py:79) -/
def starRuns (p : Char → Bool) : Bool → Str → List (Nat × Str) → List MS
  | b, [], g => [⟨b, [], g⟩]
  | b, c :: s, g => if p c then starRuns p false s g ++ [⟨b, c :: s, g⟩] else [⟨b, c :: s, g⟩]

/-- All successes of matching an expression at the current position, in the order in which `re` tries them (python's `re`, for
regular_expressions.py:45-71 and document.py:79). -/
def Re.run : Re → MS → List MS
  | .eps, m => [m]
  | .cls p, m =>
    match m.rest with
    | [] => []
    | c :: s => if p c then [⟨false, s, m.caps⟩] else []
  | .star p, m => starRuns p m.start m.rest m.caps
  | .seq a b, m => (a.run m).flatMap b.run
  | .alt a b, m => a.run m ++ b.run m
  | .opt a, m => a.run m ++ [m]
  | .grp n a, m => (a.run m).map fun t =>
      { t with caps := (n, m.rest.take (m.rest.length - t.rest.length)) :: t.caps }
  | .bol, m => if m.start then [m] else []
  | .eol, m => if m.rest = [] ∨ m.rest = ['\n'] then [m] else []

/-- `regex.match(s)`: the captured groups of the first success (python's `re`, for regular_expressions.py:45-71 and document.py:79) -/
def Re.pmatch (r : Re) (s : Str) : Option (List (Nat × Str)) :=
  (r.run ⟨true, s, []⟩).head?.map (·.caps)

/-- `m.group(n)` of a successful match; `none` is python's `None` (python's `re`, for regular_expressions.py:45-71 and document.py:79) -/
def group (caps : List (Nat × Str)) (n : Nat) : Option Str := caps.lookup n

/-- `[..]+` (python's `re`, for regular_expressions.py:45-71 and document.py:79) -/
def Re.plus (p : Char → Bool) : Re := .seq (.cls p) (.star p)

/-- a literal character (python's `re`, for regular_expressions.py:45-71 and document.py:79) -/
def Re.chr (a : Char) : Re := .cls (· == a)

/-- sequence of several expressions (python's `re`, for regular_expressions.py:45-71 and document.py:79) -/
def Re.seqs : List Re → Re
  | [] => .eps
  | [r] => r
  | r :: rs => .seq r (Re.seqs rs)

/-- a literal string (python's `re`, for regular_expressions.py:45-71 and document.py:79) -/
def Re.lit (s : Str) : Re := Re.seqs (s.map Re.chr)

end Spex
