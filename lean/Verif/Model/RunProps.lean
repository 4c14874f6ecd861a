import Verif.Model.Word
/-
Models of src/spex/htmlspec/docx/runproperties.py and src/spex/htmlspec/docx/styles.py, and of
Document.extract_r_rpr (docx/document.py:76-86).
-/
set_option autoImplicit false
namespace Spex

/-! ### runproperties.py -/

/-- VertAlign (runproperties.py:14-19) -/
inductive VertAlign where
  | baseline | subscript | superscript
  deriving DecidableEq, Repr

/-- `VertAlign[name]` (runproperties.py:58) -/
def vertAlignOf (name : Str) : Except Exn VertAlign :=
  if name = c!"baseline" then .ok .baseline
  else if name = c!"subscript" then .ok .subscript
  else if name = c!"superscript" then .ok .superscript
  else .error .keyError

/-- RunProperties (runproperties.py:22-69). The font size is left out: the only place which creates run properties from
a document passes `size=None` (line 234), so it is `None` everywhere. -/
structure RunProps where
  bold : Option Bool
  italics : Option Bool
  underline : Option Bool
  strike : Option Bool
  vert : Option VertAlign
  color : Option Str
  deriving DecidableEq, Repr

/-- the constructor's treatment of the colour (runproperties.py:65-68) -/
def hexColor (color : Option Str) : Option Str :=
  match color with
  | none => none
  | some c => if c.length ≠ 6 then none else some c

/-- `other` overrides if it is not `None` (runproperties.py:145-158) -/
def override {α : Type} (self other : Option α) : Option α :=
  match other with
  | none => self
  | some a => some a

/-- `copy.copy(self)` (runproperties.py:126-135) followed by the overrides -/
def RunProps.mergeWith (self other : RunProps) : RunProps where
  bold := override self.bold other.bold
  italics := override self.italics other.italics
  underline := override self.underline other.underline
  strike := override self.strike other.strike
  vert := override self.vert other.vert
  color := override (hexColor self.color) other.color

/-- RunProperties.merge (runproperties.py:137-164) -/
def RunProps.merge (self : RunProps) (other : Option RunProps) : RunProps :=
  match other with
  | none => self
  | some o => self.mergeWith o

/-- CSS attributes: a python dict in insertion order (runproperties.py:166-199) -/
abbrev Attrs := List (Str × Str)

/-- an attribute which is present if there is a value (runproperties.py:166-199) -/
def attrOpt {α : Type} (name : Str) (o : Option α) (f : α → Str) : Attrs :=
  match o with
  | none => []
  | some a => [(name, f a)]

/-- the text decorations (runproperties.py:175-181): present as soon as the property is not `None` -/
def decorations (p : RunProps) : List Str :=
  (if p.underline.isSome then [c!"underline"] else []) ++ (if p.strike.isSome then [c!"line-through"] else [])

/-- `" ".join(words)` (runproperties.py:181) -/
def joinSpace : List Str → Str
  | [] => []
  | [w] => w
  | w :: ws => w ++ c!" " ++ joinSpace ws

/-- the attribute for the text decorations (runproperties.py:180-181) -/
def decorationAttr (ws : List Str) : Attrs := if ws.isEmpty then [] else [(c!"text-decoration-line", joinSpace ws)]

/-- the value of `vertical-align` (runproperties.py:185-192) -/
def vertCss : VertAlign → Str
  | .baseline => c!"baseline"
  | .subscript => c!"sub"
  | .superscript => c!"super"

/-- __compute_css_attrs (runproperties.py:166-199) -/
def RunProps.cssAttrs (p : RunProps) : Attrs :=
  attrOpt c!"font-weight" p.bold (fun b => if b then c!"bold" else c!"normal") ++
  attrOpt c!"font-style" p.italics (fun b => if b then c!"italic" else c!"normal") ++
  decorationAttr (decorations p) ++
  attrOpt c!"vertical-align" p.vert vertCss ++
  attrOpt c!"color" p.color (fun c => '#' :: c)

/-- bprop_val (runproperties.py:206-217) -/
def bpropVal (rpr : Node) (tag : Str) : Option Bool :=
  match rpr.first [tag] with
  | none => none
  | some e => match e.attr? aVal with
    | none => some true
    | some v => some (decide (strip v ≠ c!"0"))

/-- u_val (runproperties.py:219-224) -/
def uVal (rpr : Node) : Except Exn (Option Bool) :=
  match rpr.first [c!"w:u"] with
  | none => .ok none
  | some e => match e.attr? aVal with
    | none => .error .runtimeError
    | some v => .ok (some (decide (v ≠ c!"none")))

/-- the constructor's treatment of the vertical alignment (runproperties.py:54-61): absent or empty is `None` -/
def vertVal (rpr : Node) : Except Exn (Option VertAlign) :=
  match rpr.attrFirst [c!"w:vertAlign"] aVal with
  | none => .ok none
  | some v => if v.isEmpty then .ok none else (vertAlignOf v).map some

/-- RunProperties.from_rpr_elem (runproperties.py:201-237) for an element -/
def runPropsOf (rpr : Node) : Except Exn RunProps := do
  let u ← uVal rpr
  let v ← vertVal rpr
  .ok { bold := bpropVal rpr c!"w:b", italics := bpropVal rpr c!"w:i", underline := u,
        strike := bpropVal rpr c!"w:strike", vert := v, color := hexColor (rpr.attrFirst [c!"w:color"] aVal) }

/-- RunProperties.from_rpr_elem (runproperties.py:201-237) -/
def fromRprElem (rpr : Option Node) : Except Exn (Option RunProps) :=
  match rpr with
  | none => .ok none
  | some e => (runPropsOf e).map some

/-! ### styles.py -/

/-- the styles of one type: `./w:style[@w:type = '...']` (styles.py:29,44-47) -/
def stylesOfType (doc : Node) (ty : Str) : List Node :=
  (doc.childs c!"w:style").filter (fun s => s.attr? c!"w:type" == some ty)

/-- the first style of the type with an id (styles.py:44-47). Ids with an apostrophe, which would break the query, are
not modelled. -/
def findStyle (doc : Node) (ty id : Str) : Except Exn Node :=
  req ((stylesOfType doc ty).find? (fun s => s.attr? c!"w:styleId" == some id))

/-- the names one style adds to the dictionary, in order (styles.py:30-35) -/
def styleNames (style : Node) : Except Exn (List (Str × Str)) := do
  let id ← reqAttr (style.attr? c!"w:styleId")
  .ok ((id, id) :: (splitOn ',' ((style.attrFirst [c!"w:aliases"] aVal).getD [])).map (fun a => (strip a, id)))

/-- __init_alias_dct (styles.py:26-37): the assignments to the dictionary in order -/
def aliasDct : List Node → Except Exn (List (Str × Str))
  | [] => .ok []
  | s :: ss => do
    let ns ← styleNames s
    let rest ← aliasDct ss
    .ok (ns ++ rest)

/-- the value of a key after a sequence of assignments (styles.py:28-35, 58) -/
def dictGet {α : Type} (assigns : List (Str × α)) (key : Str) : Option α := assigns.reverse.lookup key

/-- `based_on_rpr.merge(rpr) if based_on_rpr is not None else rpr` (styles.py:55) -/
def mergeOpt (base rpr : Option RunProps) : Option RunProps :=
  match base with
  | none => rpr
  | some b => some (b.merge rpr)

/-- __get_style (styles.py:40-55) without the cache. The recursion follows `w:basedOn`; python runs into the recursion
limit if that is cyclic, here the fuel is exhausted. -/
def rawStyle (doc : Node) (ty : Str) : Nat → Str → Except Exn (Option RunProps)
  | 0, _ => .error .recursionError
  | fuel + 1, id => do
    let style ← findStyle doc ty id
    let rpr ← fromRprElem (style.first [wRPr])
    match style.attrFirst [c!"w:basedOn"] aVal with
    | none => .ok rpr
    | some b => do
      let base ← rawStyle doc ty fuel b
      .ok (mergeOpt base rpr)

/-- the cache of `functools.lru_cache` (styles.py:39), most recently used first. The cache belongs to the method, so both
resolvers of a document share it; the key is the resolver (its style type) and the id. -/
abbrev StyleCache := List ((Str × Str) × Option RunProps)

/-- `maxsize` (styles.py:39) -/
def cacheSize : Nat := 60

/-- a hit makes the entry the most recently used one (`lru_cache` of CPython, styles.py:39) -/
def cacheTouch (key : Str × Str) (v : Option RunProps) (cache : StyleCache) : StyleCache :=
  (key, v) :: cache.filter (fun e => e.1 != key)

/-- a new entry displaces the least recently used one if the cache is full (`lru_cache` of CPython, styles.py:39) -/
def cacheAdd (key : Str × Str) (v : Option RunProps) (cache : StyleCache) : StyleCache :=
  (cacheTouch key v cache).take cacheSize

/-- __get_style (styles.py:39-55) with the cache; exceptions are not cached -/
def cachedStyle (doc : Node) (ty : Str) : Nat → Str → StyleCache → Except Exn (Option RunProps) × StyleCache
  | 0, _, cache => (.error .recursionError, cache)
  | fuel + 1, id, cache =>
    match cache.lookup (ty, id) with
    | some v => (.ok v, cacheTouch (ty, id) v cache)
    | none =>
      match findStyle doc ty id with
      | .error e => (.error e, cache)
      | .ok style =>
        match fromRprElem (style.first [wRPr]) with
        | .error e => (.error e, cache)
        | .ok rpr =>
          match style.attrFirst [c!"w:basedOn"] aVal with
          | none => (.ok rpr, cacheAdd (ty, id) rpr cache)
          | some b =>
            match cachedStyle doc ty fuel b cache with
            | (.error e, cache') => (.error e, cache')
            | (.ok base, cache') => (.ok (mergeOpt base rpr), cacheAdd (ty, id) (mergeOpt base rpr) cache')

/-- enough for every `w:basedOn` chain without a cycle (for styles.py:54) -/
def styleFuel (doc : Node) (ty : Str) : Nat := (stylesOfType doc ty).length + 1

/-- StyleResolver.get_style (styles.py:57-59), after __init__ (styles.py:20-24) -/
def getStyle (doc : Node) (ty name : Str) (cache : StyleCache) : Except Exn (Option RunProps) × StyleCache :=
  match aliasDct (stylesOfType doc ty) with
  | .error e => (.error e, cache)
  | .ok dct => match dictGet dct name with
    | none => (.error .keyError, cache)
    | some id => cachedStyle doc ty (styleFuel doc ty) id cache

/-- StylesDocument.get_cstyle (styles.py:72-73) -/
def getCstyle (doc : Node) (name : Str) (cache : StyleCache) : Except Exn (Option RunProps) × StyleCache :=
  getStyle doc c!"character" name cache

end Spex
