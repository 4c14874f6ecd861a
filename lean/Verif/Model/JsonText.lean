import Verif.Model.Lint
/-
The text which `json.dump(doc, file, indent=2, ensure_ascii=False)` writes (used in src/spex/writer.py:103), and that of
`json.dumps(data)` (used in src/spexsrv/application/app.py:57). The encoding of the file and the flushing of its buffer are not
modelled.
-/
set_option autoImplicit false
namespace Spex

/-! ### json.dump(..., indent=2, ensure_ascii=False) (writer.py:103) -/

/-- a hexadecimal digit, lower case (for writer.py:103) -/
def hexDigit (n : Nat) : Char := if n < 10 then Char.ofNat (48 + n) else Char.ofNat (87 + n)

/-- CPython json.encoder.py_encode_basestring: ESCAPE, ESCAPE_DCT (for writer.py:103) -/
def jsonEscape (c : Char) : Str :=
  if c = '"' then c!"\\\"" else if c = '\\' then c!"\\\\" else if c = '\n' then c!"\\n" else if c = '\r' then c!"\\r"
  else if c = '\t' then c!"\\t" else if c.toNat = 12 then c!"\\f" else if c.toNat = 8 then c!"\\b"
  else if c.toNat < 32 then c!"\\u00" ++ [hexDigit (c.toNat / 16), hexDigit (c.toNat % 16)]
  else [c]

/-- a string in quotes (for writer.py:103) -/
def jsonString (s : Str) : Str := '"' :: (s.flatMap jsonEscape ++ ['"'])

/-- line break and indentation (for writer.py:103) -/
def jsonIndent (level : Nat) : Str := '\n' :: List.replicate (2 * level) ' '

mutual
/-- CPython json.encoder._make_iterencode with indent=2 (for writer.py:103) -/
def jsonDump (level : Nat) : Json → Str
  | .null => c!"null"
  | .bool true => c!"true"
  | .bool false => c!"false"
  | .num n => intStr n
  | .str s => jsonString s
  | .arr [] => c!"[]"
  | .arr (x :: xs) => '[' :: (jsonIndent (level + 1) ++ (jsonDump (level + 1) x ++ (jsonDumpItems (level + 1) xs ++ (jsonIndent level ++ [']']))))
  | .obj [] => c!"{}"
  | .obj ((k, v) :: kvs) => '{' :: (jsonIndent (level + 1) ++ (jsonString k ++ (c!": " ++ (jsonDump (level + 1) v ++
      (jsonDumpPairs (level + 1) kvs ++ (jsonIndent level ++ ['}']))))))
/-- the further items of a list (for writer.py:103) -/
def jsonDumpItems (level : Nat) : List Json → Str
  | [] => []
  | x :: xs => ',' :: (jsonIndent level ++ (jsonDump level x ++ jsonDumpItems level xs))
/-- the further entries of a dictionary (for writer.py:103) -/
def jsonDumpPairs (level : Nat) : List (Str × Json) → Str
  | [] => []
  | (k, v) :: kvs => ',' :: (jsonIndent level ++ (jsonString k ++ (c!": " ++ (jsonDump level v ++ jsonDumpPairs level kvs))))
end

/-! ### json.dumps(...) (spexsrv/application/app.py:57) -/

/-- `"\\u{0:04x}".format(n)` in CPython json.encoder.py_encode_basestring_ascii (for app.py:57) -/
def jsonHex (n : Nat) : Str :=
  ['\\', 'u', hexDigit (n / 4096 % 16), hexDigit (n / 256 % 16), hexDigit (n / 16 % 16), hexDigit (n % 16)]

/-- CPython json.encoder.py_encode_basestring_ascii: ESCAPE_ASCII, ESCAPE_DCT (for spexsrv/application/app.py:57) -/
def jsonEscapeAscii (c : Char) : Str :=
  if c = '"' then c!"\\\"" else if c = '\\' then c!"\\\\" else if c = '\n' then c!"\\n" else if c = '\r' then c!"\\r"
  else if c = '\t' then c!"\\t" else if c.toNat = 12 then c!"\\f" else if c.toNat = 8 then c!"\\b"
  else if 32 ≤ c.toNat ∧ c.toNat ≤ 126 then [c]
  else if c.toNat < 0x10000 then jsonHex c.toNat
  else jsonHex (0xD800 + (c.toNat - 0x10000) / 0x400) ++ jsonHex (0xDC00 + (c.toNat - 0x10000) % 0x400)

/-- a string in quotes (for spexsrv/application/app.py:57) -/
def jsonStringAscii (s : Str) : Str := '"' :: (s.flatMap jsonEscapeAscii ++ ['"'])

mutual
/-- CPython json.encoder._make_iterencode with indent=None and the separators `", "` and `": "` (for spexsrv/application/app.py:57) -/
def jsonDumps : Json → Str
  | .null => c!"null"
  | .bool true => c!"true"
  | .bool false => c!"false"
  | .num n => intStr n
  | .str s => jsonStringAscii s
  | .arr [] => c!"[]"
  | .arr (x :: xs) => '[' :: (jsonDumps x ++ (jsonDumpsItems xs ++ [']']))
  | .obj [] => c!"{}"
  | .obj ((k, v) :: kvs) => '{' :: (jsonStringAscii k ++ (c!": " ++ (jsonDumps v ++ (jsonDumpsPairs kvs ++ ['}']))))
/-- the further items of a list (for spexsrv/application/app.py:57) -/
def jsonDumpsItems : List Json → Str
  | [] => []
  | x :: xs => ',' :: ' ' :: (jsonDumps x ++ jsonDumpsItems xs)
/-- the further entries of a dictionary (for spexsrv/application/app.py:57) -/
def jsonDumpsPairs : List (Str × Json) → Str
  | [] => []
  | (k, v) :: kvs => ',' :: ' ' :: (jsonStringAscii k ++ (c!": " ++ (jsonDumps v ++ jsonDumpsPairs kvs)))
end

end Spex
