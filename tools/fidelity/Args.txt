import Verif.Model.Args
import Verif.Model.Ascii
open Spex
instance : Uni := { Uni.ascii with
  digit := fun c => if c = '٣' then some 3 else Uni.ascii.digit c
  digit_ascii := by intro c h; by_cases hc : c = '٣'; · subst hc; exact absurd h (by decide)
                    · simp only [hc, if_false]; exact Uni.ascii.digit_ascii c h
  digit_lt := by intro c d; by_cases hc : c = '٣'; · simp only [hc, if_true]; intro h; cases h; decide
                 · simp only [hc, if_false]; exact Uni.ascii.digit_lt c d
  isWord := fun c => c = '٣' || Uni.ascii.isWord c
  isWord_ascii := by intro c h; by_cases hc : c = '٣'; · subst hc; exact absurd h (by decide)
                     · simp only [hc, decide_false, Bool.false_or]; exact Uni.ascii.isWord_ascii c h
  digit_word := by intro c; by_cases hc : c = '٣'; · simp [hc]
                   · simp only [hc, if_false, decide_false, Bool.false_or]; exact Uni.ascii.digit_word c
  space_not_word := by intro c h; by_cases hc : c = '٣'; · subst hc; exact absurd h (by decide)
                       · simp only [hc, decide_false, Bool.false_or]; exact Uni.ascii.space_not_word c h }
def showAct : ArgAct → String
  | .help => "help=" | .skip => "skip=" | .output s => "output=" ++ String.ofList s
  | .validate b => "validate_json=" ++ (if b then "1" else "0") | .verbose b => "verbose=" ++ (if b then "1" else "0")
  | .lint s => "lint=" ++ String.ofList s | .inputs ss => "inputs=" ++ "|".intercalate (ss.map String.ofList)
def names (s : String) : List (List Str) := if s = "" then [] else (s.splitOn "|").map fun p => (p.splitOn "/").map (·.toList)
#eval show IO Unit from do
  let dir := "/tmp/fa"
  let mut bad := 0
  let mut n := 0
  for l in (← IO.FS.readFile (dir ++ "/args.txt")).splitOn "\n" do
    if l = "" then continue
    match (l.replace "\x1d" "\n").splitOn "\x1f" with
    | exp :: argv =>
      n := n + 1
      let r := argScan (argv.map (·.toList))
      let got := "\x1e".intercalate ((if r.2 then "1" else "0") :: r.1.map showAct)
      if got ≠ exp then
        bad := bad + 1
        if bad < 20 then IO.println s!"{argv}: {got} expected {exp}"
    | [] => pure ()
  IO.println s!"{n} command lines, {bad} differ"
  bad := 0
  n := 0
  for l in (← IO.FS.readFile (dir ++ "/disk.txt")).splitOn "\n" do
    if l = "" then continue
    match l.splitOn "\x1f" with
    | [arg, ds, fs, res, ds2] =>
      n := n + 1
      let dirs := [] :: names ds
      let files := (names fs).map filePath
      let d : Disk := ⟨fun p => dirs.contains p, fun f => if files.contains f then some [] else none⟩
      let (d', r) := argOutput [['w']] d arg.toList
      let got := match r with | none => "!" | some p => if p = [] then "." else "/".intercalate (p.map String.ofList)
      let all := ["a", "b", "c", "w"].map (·.toList)
      let cands := dirs ++ names ds2 ++ all.map (fun x => [x]) ++ all.flatMap (fun x => all.map fun y => [x, y]) ++
        all.flatMap (fun x => all.flatMap fun y => all.map fun z => [x, y, z])
      let ok := cands.all fun p => d'.dirs p == (p == [] || (names ds2).contains p)
      if got ≠ res || !ok then
        bad := bad + 1
        if bad < 20 then IO.println s!"{arg} in {ds}, {fs}: {got} expected {res}, {ok} {ds2}"
    | _ => IO.println s!"? {l}"
  IO.println s!"{n} paths, {bad} differ"
