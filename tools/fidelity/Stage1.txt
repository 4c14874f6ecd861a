import Verif
open Spex
attribute [local instance] Uni.ascii

/-! Renders the pages of example/stage1 again: each table of a page is read (`readXml`), the classes of its spans and cells are replaced
by the formatting which the style sheet gives them, and the model of the renderer is run on the result. -/

abbrev Sheet := List (Str × Attrs)

def trimL (s : Str) : Str := s.dropWhile (· == ' ')

/-- blocks `.name {`, lines, `}` -/
partial def blocks (ls : List Str) : Sheet :=
  match ls with
  | [] => []
  | l :: ls =>
    if l.head? == some '.' then
      let body := ls.takeWhile (· != ['}'])
      let attrs := body.map fun b => (b.takeWhile (· != ':'), ((b.dropWhile (· != ':')).drop 2).dropLast)
      ((l.drop 1).takeWhile (· != ' '), attrs) :: blocks (ls.drop (body.length + 1))
    else blocks ls

def propsOf (as : Attrs) : RunProps where
  bold := (List.lookup c!"font-weight" as).map (· == c!"bold")
  italics := (List.lookup c!"font-style" as).map (· == c!"italic")
  underline := if ((List.lookup c!"text-decoration-line" as).map (startsWith · c!"underline")) == some true then some true else none
  strike := if ((List.lookup c!"text-decoration-line" as).map (fun v => startsWith v.reverse c!"hguorht-enil")) == some true then some true else none
  vert := (List.lookup c!"vertical-align" as).map fun v => if v == c!"sub" then .subscript else if v == c!"super" then .superscript else .baseline
  color := (List.lookup c!"color" as).map (·.drop 1)

def natOf (s : Str) : Nat := s.foldl (fun n c => 10 * n + (c.toNat - 48)) 0

def spanOf (sh : Sheet) (n : Node) : HSpan := ⟨((n.attr? c!"class").bind fun c => List.lookup c sh).map propsOf, n.flat⟩

def lvlOf (n : Node) : NumLvl :=
  let ol := n.hasTag c!"ol"
  ⟨natOf (((n.attr? c!"class").getD []).drop 2), 0, c!"decimal", if ol then c!"%1" else c!"o"⟩

partial def itemsOf (sh : Sheet) (n : Node) : List HItem :=
  (n.elems).flatMap fun li =>
    let spans := li.childs c!"span"
    let lists := li.elems.filter fun k => k.hasTag c!"ol" || k.hasTag c!"ul"
    (if spans.isEmpty then [] else [.item (spans.map (spanOf sh))]) ++ lists.map fun l => .list (lvlOf l) (itemsOf sh l)

instance : Inhabited HUnit := ⟨.para []⟩
instance : Inhabited HCell := ⟨.mk [] [] 1 1 0 0 none⟩

mutual
partial def unitOf (sh : Sheet) (n : Node) : HUnit :=
  if n.hasTag c!"p" then .para (n.elems.map (spanOf sh))
  else if n.hasTag c!"table" then
    .table [] none ((n.elems.zipIdx).map fun (tr, i) => (tr.elems.zipIdx).map fun (td, j) => cellOf sh i j td)
  else .list (lvlOf n) (itemsOf sh n)
partial def cellOf (sh : Sheet) (i j : Nat) (n : Node) : HCell :=
  let span (a : Str) : Int := match n.attr? a with | some v => natOf v | none => 1
  .mk (if n.hasTag c!"th" then c!"th" else c!"td") (n.elems.map (unitOf sh)) (span c!"colspan") (span c!"rowspan") j i
    (((n.attr? c!"class").bind fun c => List.lookup c sh).bind fun as => (List.lookup c!"background-color" as).map (·.drop 1))
end

/-- the lines of a page, without the blanks they begin with; `indent` and `dedent` end a line which has been begun -/
def linesOf (ps : List Piece) : List Str :=
  let (done, cur) := ps.foldl (fun (st : List Str × Str) p => match p with
    | .str s => (st.1, st.2 ++ s)
    | .nl => (st.2 :: st.1, [])
    | .brk => if st.2.isEmpty then st else (st.2 :: st.1, [])) ([], [])
  (if cur.isEmpty then done else cur :: done).reverse.map trimL

/-- the tables of a page, as lists of lines -/
partial def tables (ls : List Str) : List (List Str) :=
  match ls.dropWhile (fun l => l != c!" <table>") with
  | [] => []
  | l :: ls =>
    let body := ls.takeWhile (fun l => l != c!" </table>")
    (l :: body ++ [c!" </table>"]) :: tables (ls.drop (body.length + 1))

def diffs (a b : List Str) : List (Str × Str) := (a.zip b).filter fun p => p.1 != p.2

def main : IO Unit := do
  let dir : System.FilePath := "/repo/example/stage1"
  for e in (← dir.readDir) do
    if e.fileName.endsWith ".html" then
      let htmlLines := ((← IO.FS.readFile e.path).splitOn "\n").map (·.toList)
      let cssLines := ((← IO.FS.readFile (e.path.withExtension "css")).splitOn "\n").map (·.toList)
      let cssLines := (cssLines.map trimL).filter (! ·.isEmpty)
      let sh := blocks cssLines
      let mut st := RSt.init
      let mut n := 0
      let mut bad : List (Str × Str) := []
      let mut unread := 0
      let mut lines := 0
      let ts := tables htmlLines
      for t in ts do
        let text := t.flatMap (· ++ ['\n'])
        match readXml text with
        | none => unread := unread + 1
        | some node =>
          let r := renderAny st (unitOf sh node)
          st := r.2
          n := n + 1
          let want := t.map trimL
          let got := linesOf r.1
          lines := lines + want.length
          bad := bad ++ diffs want got ++ (if want.length == got.length then [] else [(c!"number of lines", c!"")])
      -- the style sheet
      let start := c!"/* list-formatting styles */"
      let middle := c!"/* text-formatting styles */"
      let pre := (cssLines.dropWhile (· != c!"body {")).takeWhile (· != start)
      let rules := ((cssLines.dropWhile (· != start)).drop 1).takeWhile (· != middle)
      let post := cssLines.dropWhile (· != middle)
      let badPre := diffs pre cssPrelude ++ (if pre.length == cssPrelude.length then [] else [(c!"number of lines", c!"")])
      let badPost := diffs post (cssEnd st) ++ (if post.length == (cssEnd st).length then [] else [(c!"number of lines", c!"")])
      let badRules := rules.filter fun r =>
        let sel := r.takeWhile (· != '{')
        let tag := r.take 2
        let id := natOf ((sel.drop 5).takeWhile (· != ' '))
        let depth : Nat := (sel.filter (· == ' ')).length - 1
        let formats := [c!"decimal", c!"lowerLetter", c!"lowerRoman", c!"bullet"]
        !(formats.any fun f => NumLvl.toCss ⟨(id : Nat), (depth : Nat), f, if tag == c!"ol" then c!"%1" else c!"o"⟩ == r)
      IO.println s!"{e.fileName}: {n} tables, {lines} lines, {bad.length} lines differ, {unread} tables not read; style sheet: {pre.length} + {rules.length} + {post.length} lines, {badPre.length} + {badRules.length} + {badPost.length} differ"
      for (w, g) in bad.take 5 ++ badPre.take 3 ++ badPost.take 3 do
        IO.println s!"  file:  {String.ofList w}\n  model: {String.ofList g}"
      for r in badRules.take 5 do IO.println s!"  rule: {String.ofList r}"
