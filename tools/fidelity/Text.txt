import Verif.Model.Document
import Verif.Model.Header
import Verif.Model.WordParse
import Verif.Model.Render
import Verif.Model.JsonText
import Verif.Model.Cli
import Verif.Model.JsonRead
import Verif.Model.Server
import Verif.Model.Ascii
open Spex
instance : Uni := Uni.ascii
def enc : Option Str → String
  | none => "N" | some [] => "E" | some s => ".".intercalate (s.map fun c => toString c.toNat)
def dec (s : String) : Str := if s = "E" then [] else (s.splitOn ".").map fun t => Char.ofNat t.toNat!
def res (r : Re) (gs : List Nat) (s : Str) : List String :=
  match r.pmatch s with
  | none => ["0"]
  | some caps => "1" :: gs.map fun g => enc (group caps g)
def eval (kind : String) (s : Str) : List String :=
  match kind with
  | "struct" => res reStructLabel [1, 2, 3] s
  | "value" => res reValueLabel [1, 3] s
  | "range" => res reRange [1, 2] s
  | "dynamic" => res reDynamicRange [1, 2] s
  | "ellipsis" => res reEllipsisLabel [] s
  | "valid" => res reLabelValidation [] s
  | "rearr" => res reNumRearrange [1, 2] s
  | "table" => res tableIdRe [1] s
  | "fig" => res reFigId [1] s
  | "rev" => res revisionRe [1] s
  | "strip" => [enc (some (strip s))]
  | "words" => (words s).map (enc ∘ some)
  | "int" => match pyInt s with | .ok n => [enc (some (intStr n))] | .error _ => ["N"]
  | "upper" => [enc (some (upper s))]
  | "lower" => [enc (some (lower s))]
  | "blanks" => [enc (some (collapseBlanks s))]
  | "escape" => [enc (some (htmlEscape s))]
  | "json" => [enc (some (jsonStringAscii s))]
  | "jsonu" => [enc (some (jsonString s))]
  | "split" => (splitOn ',' s).map (enc ∘ some)
  | "stem" => [enc (some (withSuffix s []))]
  | "suffix" => [enc (some (suffix s))]
  | "dump" => [enc ((readJson s).map (jsonDump 0))]
  | "dumps" | "loads" => [enc ((readJson s).map jsonDumps)]
  | _ => ["?"]
#eval show IO Unit from do
  let mut bad := 0
  let mut n := 0
  for l in (← IO.FS.readFile "/tmp/ft/text.txt").splitOn "\n" do
    match l.splitOn " " with
    | kind :: arg :: exp =>
      n := n + 1
      let got := eval kind (dec arg)
      if got ≠ exp then
        bad := bad + 1
        if bad < 20 then IO.println s!"{kind} {arg}: {got} expected {exp}"
    | _ => pure ()
  IO.println s!"{n} results, {bad} differ"
