import Verif
open Spex
set_option maxRecDepth 100000
attribute [local instance] Uni.ascii

def jq (s : Str) : String := "\"" ++ String.join (s.map fun c => if c == '"' then "\\\"" else if c == '\\' then "\\\\" else if c.toNat < 32 then "\\u00" ++ (if c.toNat < 16 then "0" else "1") ++ String.singleton (Nat.digitChar (c.toNat % 16)) else c.toString) ++ "\""
def jo (kvs : List (String × String)) := "{" ++ ", ".intercalate (kvs.map fun (k,v) => "\"" ++ k ++ "\": " ++ v) ++ "}"
def jr : RangeV → String
 | .int l h => jo [("low", toString l), ("high", toString h)]
 | .dyn l h => jo [("low", jq l), ("high", jq h)]
 | .raw s => jq s
def je (e : Entity) : String :=
  let m := (match e.info.title with | some t => [("title", jq t)] | none => []) ++ [("fig_id", jq e.info.figId)] ++ (match e.info.parent with | some t => [("parent_fig_id", jq t)] | none => [])
  let b (o : Option Str) := match o with | some t => [("brief", jq t)] | none => []
  match e.body with
  | .values fs => jo (m ++ [("type", "\"values\""), ("fields", "[" ++ ", ".intercalate (fs.map fun f => jo ([("val", jq f.val), ("label", jq f.label)] ++ b f.brief)) ++ "]")])
  | .struct ty fs => jo (m ++ [("type", match ty with | .bits => "\"bits\"" | .bytes => "\"bytes\""), ("fields", "[" ++ ", ".intercalate (fs.map fun f => jo ([("range", jr f.range), ("label", jq f.label)] ++ b f.brief)) ++ "]")])
def jEv : Ev → String
 | .ent e => je e
 | .lint l => jo [("LINT", jq l.err.code), ("fig", jq l.fig), ("row", match l.row with | some r => jq r | none => "null")]


def unesc : List Char → List Char
 | [] => []
 | '\\' :: 'n' :: s => '\n' :: unesc s
 | '\\' :: 'r' :: s => '\r' :: unesc s
 | '\\' :: c :: s => c :: unesc s
 | c :: s => c :: unesc s
instance : Inhabited Node := ⟨.text []⟩
partial def rd (ls : Array String) (i : Nat) : Node × Nat := Id.run do
  let l := ls[i]!
  if l.front == 'T' then return (.text (unesc (l.toList.drop 1)), i+1)
  let tag := unesc (l.toList.drop 1)
  let na := ls[i+1]!.toNat!
  let mut j := i+2
  let mut ats := #[]
  for _ in [0:na] do
    ats := ats.push (unesc ls[j]!.toList, unesc ls[j+1]!.toList)
    j := j+2
  let nk := ls[j]!.toNat!
  j := j+1
  let mut ks := #[]
  for _ in [0:nk] do
    let (k, j') := rd ls j
    ks := ks.push k
    j := j'
  return (.elem tag ats.toList ks.toList, j)
def main (args : List String) : IO Unit := do
  let ls := ((← IO.FS.readFile "/tmp/fid/data.txt").splitOn "\n").toArray
  let mut i := 0
  while i + 1 < ls.size do
    let n := ls[i]!
    let (nd, j) := rd ls (i+1)
    i := j
    let r := parseDoc (envPlain false) nd
    IO.println (n ++ "\t" ++ (match r.out with | .ok _ => "ok" | .error e => reprStr e) ++ "\t[" ++ ", ".intercalate (r.evs.map jEv) ++ "]")
