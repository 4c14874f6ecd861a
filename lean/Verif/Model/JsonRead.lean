import Verif.Model.Lint
/-
Reading JSON text: the specification against which the writer is proved right, and the model of `json.loads` in
src/spex/validate.py:17.
-/
set_option autoImplicit false
namespace Spex

/-! Of the numbers only integers are read (RFC 8259 has more), and an escape may not be half of a surrogate pair: this is not a
character. -/

/-- insignificant whitespace (`json.loads` of CPython, called in validate.py:17) -/
def jsonWs (c : Char) : Bool := c = ' ' || c = '\n' || c = '\r' || c = '\t'

/-- the value of a hexadecimal digit (`json.loads` of CPython, called in validate.py:17) -/
def hexVal (c : Char) : Option Nat :=
  if 48 ≤ c.toNat ∧ c.toNat ≤ 57 then some (c.toNat - 48)
  else if 97 ≤ c.toNat ∧ c.toNat ≤ 102 then some (c.toNat - 87)
  else if 65 ≤ c.toNat ∧ c.toNat ≤ 70 then some (c.toNat - 55)
  else none

/-- the number given by four hexadecimal digits (`json.loads` of CPython, called in validate.py:17) -/
def hexCode (a b c d : Char) : Option Nat := do
  some ((← hexVal a) * 4096 + (← hexVal b) * 256 + (← hexVal c) * 16 + (← hexVal d))

/-- the character of a number (`json.loads` of CPython, called in validate.py:17) -/
def charOf (n : Nat) : Option Char := if h : n.isValidChar then some (Char.ofNatAux n h) else none

/-- a character given as `\uXXXX` (`json.loads` of CPython, called in validate.py:17) -/
def hexChar (a b c d : Char) : Option Char := do charOf (← hexCode a b c d)

/-- a character given as a surrogate pair of two numbers (RFC 8259, section 7) (`json.loads` of CPython, called in validate.py:17) -/
def pairChar (hi lo : Nat) : Option Char :=
  if 0xD800 ≤ hi ∧ hi < 0xDC00 ∧ 0xDC00 ≤ lo ∧ lo < 0xE000 then charOf (0x10000 + (hi - 0xD800) * 0x400 + (lo - 0xDC00)) else none

/-- a character given as `\uXXXX\uXXXX` (`json.loads` of CPython, called in validate.py:17) -/
def hexPair (a b c d e f g h : Char) : Option Char := do pairChar (← hexCode a b c d) (← hexCode e f g h)

/-- the character meant by a backslash and this character (`json.loads` of CPython, called in validate.py:17) -/
def simpleEscape (c : Char) : Option Char :=
  if c = '"' then some '"' else if c = '\\' then some '\\' else if c = '/' then some '/'
  else if c = 'b' then some (Char.ofNat 8) else if c = 'f' then some (Char.ofNat 12) else if c = 'n' then some '\n'
  else if c = 'r' then some '\r' else if c = 't' then some '\t' else none

/-- the rest of a string, after its opening quote (`json.loads` of CPython, called in validate.py:17) -/
def readString : Str → Option (Str × Str)
  | [] => none
  | '"' :: r => some ([], r)
  | '\\' :: 'u' :: a :: b :: c :: d :: r => match hexChar a b c d with
    | some x => do
      let (s, r') ← readString r
      some (x :: s, r')
    | none => match r with
      | '\\' :: 'u' :: e :: f :: g :: h :: r1 => do
        let x ← hexPair a b c d e f g h
        let (s, r') ← readString r1
        some (x :: s, r')
      | _ => none
  | '\\' :: e :: r => do
    let x ← simpleEscape e
    let (s, r') ← readString r
    some (x :: s, r')
  | x :: r =>
    if x = '\\' ∨ x.toNat < 32 then none
    else do
      let (s, r') ← readString r
      some (x :: s, r')

/-- a decimal digit (`json.loads` of CPython, called in validate.py:17) -/
def jsonDigit (c : Char) : Bool := 48 ≤ c.toNat && c.toNat ≤ 57

/-- digits of which the first is a zero, though it is not the only one (`json.loads` of CPython, called in validate.py:17) -/
def leadingZero : Str → Bool
  | '0' :: _ :: _ => true
  | _ => false

/-- a natural number (for validate.py:17; CPython json.scanner.NUMBER_RE: `0|[1-9]\d*`). After a leading zero `json.loads` would stop with the further
digits left, which no text may have there; here the number itself is refused. -/
def readNat (s : Str) : Option (Nat × Str) :=
  if (s.takeWhile jsonDigit).isEmpty || leadingZero (s.takeWhile jsonDigit) then none
  else some ((s.takeWhile jsonDigit).foldl (fun n c => 10 * n + (c.toNat - 48)) 0, s.dropWhile jsonDigit)

/-- an integer (`json.loads` of CPython, called in validate.py:17) -/
def readInt : Str → Option (Int × Str)
  | '-' :: r => (readNat r).map fun p => (-(p.1 : Int), p.2)
  | r => (readNat r).map fun p => ((p.1 : Int), p.2)

/-- a given word (`json.loads` of CPython, called in validate.py:17) -/
def readWord (w s : Str) : Option Str := if s.take w.length = w then some (s.drop w.length) else none

/-- without leading whitespace (`json.loads` of CPython, called in validate.py:17) -/
def skipWs (s : Str) : Str := s.dropWhile jsonWs

mutual
/-- a value; the first argument bounds the depth of the recursion (`json.loads` of CPython, called in validate.py:17) -/
def readValue : Nat → Str → Option (Json × Str)
  | 0, _ => none
  | n + 1, s => match skipWs s with
    | [] => none
    | c :: r =>
      if c = '"' then (readString r).map fun p => (.str p.1, p.2)
      else if c = '[' then
        (match skipWs r with
        | ']' :: r' => some (.arr [], r')
        | r' => do
          let (x, r1) ← readValue n r'
          let (xs, r2) ← readItems n r1
          some (.arr (x :: xs), r2))
      else if c = '{' then
        (match skipWs r with
        | '}' :: r' => some (.obj [], r')
        | r' => do
          let (kv, r1) ← readPair n r'
          let (kvs, r2) ← readPairs n r1
          some (.obj (kv :: kvs), r2))
      else if c = 'n' then (readWord c!"null" (c :: r)).map fun r => (.null, r)
      else if c = 't' then (readWord c!"true" (c :: r)).map fun r => (.bool true, r)
      else if c = 'f' then (readWord c!"false" (c :: r)).map fun r => (.bool false, r)
      else (readInt (c :: r)).map fun p => (.num p.1, p.2)
/-- the further items of a list, and its end (`json.loads` of CPython, called in validate.py:17) -/
def readItems : Nat → Str → Option (List Json × Str)
  | 0, _ => none
  | n + 1, s => match skipWs s with
    | ']' :: r => some ([], r)
    | ',' :: r => do
      let (x, r1) ← readValue n r
      let (xs, r2) ← readItems n r1
      some (x :: xs, r2)
    | _ => none
/-- an entry of an object (`json.loads` of CPython, called in validate.py:17) -/
def readPair : Nat → Str → Option ((Str × Json) × Str)
  | 0, _ => none
  | n + 1, s => match skipWs s with
    | '"' :: r => do
      let (k, r1) ← readString r
      match skipWs r1 with
      | ':' :: r2 => do
        let (v, r3) ← readValue n r2
        some ((k, v), r3)
      | _ => none
    | _ => none
/-- the further entries of an object, and its end (`json.loads` of CPython, called in validate.py:17) -/
def readPairs : Nat → Str → Option (List (Str × Json) × Str)
  | 0, _ => none
  | n + 1, s => match skipWs s with
    | '}' :: r => some ([], r)
    | ',' :: r => do
      let (kv, r1) ← readPair n r
      let (kvs, r2) ← readPairs n r1
      some (kv :: kvs, r2)
    | _ => none
end

/-- a text which is one JSON value (`json.loads` of CPython, called in validate.py:17) -/
def readJson (s : Str) : Option Json :=
  match readValue (s.length + 1) s with
  | some (j, r) => if (skipWs r).isEmpty then some j else none
  | none => none

end Spex
