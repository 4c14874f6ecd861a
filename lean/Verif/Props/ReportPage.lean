import Verif.Lemmas.HtmlSafe
import Verif.Props.ReportFigure
/-
C89: what a document says reaches the report page as data, and not as markup or as code.
-/
set_option autoImplicit false
namespace Spex

/-! ### Specification -/

/-- the same value: the order of the entries of objects does not matter -/
inductive SameJson : Json → Json → Prop where
  | refl (j : Json) : SameJson j j
  | arr {xs ys : List Json} : List.Forall₂ SameJson xs ys → SameJson (.arr xs) (.arr ys)
  | obj {kvs ms ls : List (Str × Json)} : kvs.map (·.1) = ms.map (·.1) → List.Forall₂ SameJson (kvs.map (·.2)) (ms.map (·.2)) → ms.Perm ls →
      SameJson (.obj kvs) (.obj ls)

/-- in every object of the value the entries are in the order of their keys, which is that of the characters -/
inductive KeysOrdered : Json → Prop where
  | leaf {j : Json} : (∀ xs, j ≠ .arr xs) → (∀ kvs, j ≠ .obj kvs) → KeysOrdered j
  | arr {xs : List Json} : (∀ x ∈ xs, KeysOrdered x) → KeysOrdered (.arr xs)
  | obj {kvs : List (Str × Json)} : kvs.Pairwise (fun a b => a.1 ≤ b.1) → (∀ kv ∈ kvs, KeysOrdered kv.2) → KeysOrdered (.obj kvs)

/-- a declaration in the script of the page -/
def declaration (name text : Str) : Str := c!"    const " ++ name ++ c!" = " ++ text ++ c!";\n"

/-- A text which can stand in the script of a page: printable, and without the characters with which a comment, a tag or a character reference
begins. -/
def InScript (text : Str) : Prop := ∀ c ∈ text, (32 ≤ c.toNat ∧ c.toNat ≤ 126) ∧ c ≠ '<' ∧ c ≠ '>' ∧ c ≠ '&' ∧ c ≠ '\''

/-- the elements of a page: none of them contains a script or loads anything but a style sheet -/
def pageTags : List Str :=
  [c!"html", c!"head", c!"meta", c!"title", c!"link", c!"body", c!"p", c!"span", c!"ul", c!"ol", c!"li", c!"table", c!"tr", c!"td", c!"th"]

/-- the attributes of a page: none of them is a script -/
def pageAttrs : List Str :=
  [c!"lang", c!"charset", c!"data-spec", c!"data-revision", c!"name", c!"content", c!"rel", c!"href", c!"class", c!"id", c!"colspan", c!"rowspan"]

/-- all elements and attributes are of these -/
inductive Harmless : Node → Prop where
  | text (s : Str) : Harmless (.text s)
  | elem {tag : Str} {attrs : List (Str × Str)} {kids : List Node} : tag ∈ pageTags → (∀ a ∈ attrs, a.1 ∈ pageAttrs) → (∀ k ∈ kids, Harmless k) →
      Harmless (.elem tag attrs kids)

/-- a node of a tree -/
inductive NodeOf : Node → Node → Prop where
  | self (n : Node) : NodeOf n n
  | kid {n k : Node} {tag : Str} {attrs : List (Str × Str)} {kids : List Node} : k ∈ kids → NodeOf n k → NodeOf n (.elem tag attrs kids)

/-- XPath finds nodes of the page only -/
def FindsInside (xp : XPathEngine) (root : Node) : Prop := ∀ e ns, xp.found e root = .nodes ns → ∀ n ∈ ns, NodeOf n root

/-- a tag begins somewhere in the text, if it is read as HTML -/
def Tagged (s : Str) : Prop := ∃ (a b : Str) (c : Char), s = a ++ '<' :: c :: b ∧ asciiLetter c = true

/-! ### The script -/

theorem forall₂_sortItems {xs : List Json} (h : ∀ x ∈ xs, SameJson x (sortKeys x)) : List.Forall₂ SameJson xs (sortKeysItems xs) := by
  induction xs with
  | nil => rw [sortKeysItems]; exact .nil
  | cons x xs ih => rw [sortKeysItems]; exact .cons (h x (by simp)) (ih fun y hy => h y (by simp [hy]))

theorem sortPairs_keys (kvs : List (Str × Json)) : (sortKeysPairs kvs).map (·.1) = kvs.map (·.1) := by
  induction kvs with
  | nil => rw [sortKeysPairs]
  | cons kv kvs ih => cases kv; rw [sortKeysPairs, List.map_cons, List.map_cons, ih]

theorem forall₂_sortPairs {kvs : List (Str × Json)} (h : ∀ kv ∈ kvs, SameJson kv.2 (sortKeys kv.2)) :
    List.Forall₂ SameJson (kvs.map (·.2)) ((sortKeysPairs kvs).map (·.2)) := by
  induction kvs with
  | nil => rw [sortKeysPairs]; exact .nil
  | cons kv kvs ih =>
    cases kv with
    | mk k v => rw [sortKeysPairs]; exact .cons (h (k, v) (by simp)) (ih fun y hy => h y (by simp [hy]))

theorem same_sortKeys : (j : Json) → SameJson j (sortKeys j)
  | .null => by rw [sortKeys] <;> first | exact .refl _ | (intro _ h; cases h)
  | .bool b => by rw [sortKeys] <;> first | exact .refl _ | (intro _ h; cases h)
  | .num n => by rw [sortKeys] <;> first | exact .refl _ | (intro _ h; cases h)
  | .str s => by rw [sortKeys] <;> first | exact .refl _ | (intro _ h; cases h)
  | .arr xs => by
    rw [sortKeys]
    exact .arr (forall₂_sortItems fun x _ => same_sortKeys x)
  | .obj kvs => by
    rw [sortKeys]
    exact .obj (sortPairs_keys kvs).symm (forall₂_sortPairs fun kv h => by
      have := List.sizeOf_lt_of_mem h
      have : sizeOf kv.2 < sizeOf kv := by cases kv; simp <;> omega
      exact same_sortKeys kv.2) (stableSort_perm _ _).symm

theorem inScript_tojson (j : Json) : InScript (tojson j) := by
  intro c hc
  obtain ⟨h1, h2⟩ := htmlSafe_mem hc (printable_dumps _)
  simp only [special, Bool.or_eq_false_iff, decide_eq_false_iff_not] at h2
  exact ⟨h1, h2.1.1.1, h2.1.1.2, h2.1.2, h2.2⟩

/-- **C89**, the script of the page. Its data are four declarations. Whatever the document says, their texts are printable and have no
character with which markup begins, so they neither end the script nor the line; and a reader of JSON gets from them the values meant: the
whole JSON document, the ids, the tables and the codes. -/
theorem C89_script (fmt : Node → Str) (report : Json) (ids : List Str) (html : List (Str × Node)) (codes : Json) :
    ∃ t1 t2 t3 t4 : Str,
      scriptData fmt report ids html codes = declaration c!"report" t1 ++ declaration c!"erroneous_figure_ids" t2 ++
        declaration c!"report_html" t3 ++ declaration c!"lintCodes" t4 ∧
      (∀ t ∈ [t1, t2, t3, t4], InScript t) ∧ '<' ∉ scriptData fmt report ids html codes ∧
      (∃ v, readJson t1 = some v ∧ SameJson report v) ∧
      readJson t2 = some (.arr (ids.map .str)) ∧
      (∃ ps, readJson t3 = some (.obj ps) ∧ ps.Perm (html.map fun e => (e.1, Json.str (fmt e.2)))) ∧
      (∃ v, readJson t4 = some v ∧ SameJson codes v) := by
  have heq : scriptData fmt report ids html codes = declaration c!"report" (tojson report) ++
      declaration c!"erroneous_figure_ids" (tojson (.arr (ids.map .str))) ++
      declaration c!"report_html" (tojson (.obj (html.map fun e => (e.1, .str (fmt e.2))))) ++ declaration c!"lintCodes" (tojson codes) := by
    simp only [scriptData, constLine, declaration, List.append_assoc]
  have hdecl : ∀ name j, '<' ∉ name → '<' ∉ declaration name (tojson j) := by
    intro name j hn h
    simp only [declaration, List.mem_append] at h
    rcases h with (((h | h) | h) | h) | h
    · exact absurd h (by decide)
    · exact hn h
    · exact absurd h (by decide)
    · exact (inScript_tojson j _ h).2.1 rfl
    · exact absurd h (by decide)
  have hsort : ∀ l : List (Str × Str), sortKeysPairs (l.map fun e => (e.1, Json.str e.2)) = l.map fun e => (e.1, Json.str e.2) := by
    intro l
    induction l with
    | nil => rw [List.map_nil, sortKeysPairs]
    | cons e l ih =>
      rw [List.map_cons, sortKeysPairs, ih, sortKeys]
      all_goals (intro _ h; cases h)
  refine ⟨_, _, _, _, heq, ?_, ?_, ⟨_, readJson_htmlSafe _, same_sortKeys _⟩, ?_,
    ⟨stableSort (fun a b => keyLe a.1 b.1) (sortKeysPairs (html.map fun e => (e.1, Json.str (fmt e.2)))), ?_, ?_⟩, ⟨_, readJson_htmlSafe _, same_sortKeys _⟩⟩
  · intro t ht
    simp only [List.mem_cons, List.not_mem_nil, or_false] at ht
    rcases ht with rfl | rfl | rfl | rfl <;> exact inScript_tojson _
  · rw [heq]
    simp only [List.mem_append, not_or]
    exact ⟨⟨⟨hdecl _ _ (by decide), hdecl _ _ (by decide)⟩, hdecl _ _ (by decide)⟩, hdecl _ _ (by decide)⟩
  · have : sortKeys (.arr (ids.map .str)) = .arr (ids.map .str) := by
      rw [sortKeys]
      congr 1
      clear heq
      induction ids with
      | nil => rw [List.map_nil, sortKeysItems]
      | cons x xs ih =>
        rw [List.map_cons, sortKeysItems, ih, sortKeys]
        all_goals (intro _ h; cases h)
    rw [tojson, readJson_htmlSafe, this]
  · rw [tojson, readJson_htmlSafe, sortKeys]
  · have := hsort (html.map fun e => (e.1, fmt e.2))
    rw [List.map_map] at this
    rw [show (html.map fun e => (e.1, Json.str (fmt e.2))) = html.map ((fun e : Str × Str => (e.1, Json.str e.2)) ∘ fun e => (e.1, fmt e.2)) from rfl, this]
    exact stableSort_perm _ _

theorem keyLe_iff (s t : Str) : keyLe s t = true ↔ s ≤ t := by
  induction s generalizing t with
  | nil => simp [keyLe]
  | cons a s ih =>
    cases t with
    | nil => simp [keyLe]
    | cons b t =>
      rw [keyLe, List.cons_le_cons_iff]
      by_cases h : a = b
      · subst h
        rw [if_pos rfl, ih]
        simp
      · rw [if_neg h, decide_eq_true_eq]
        simp only [h, false_and, or_false]
        exact Iff.rfl

theorem sortItems_mem {xs : List Json} {y : Json} (h : y ∈ sortKeysItems xs) : ∃ x ∈ xs, y = sortKeys x := by
  induction xs with
  | nil => rw [sortKeysItems] at h; cases h
  | cons x xs ih =>
    rw [sortKeysItems] at h
    rcases List.mem_cons.1 h with rfl | h
    · exact ⟨x, List.mem_cons_self, rfl⟩
    · obtain ⟨z, hz, e⟩ := ih h
      exact ⟨z, List.mem_cons_of_mem _ hz, e⟩

theorem sortPairs_mem {kvs : List (Str × Json)} {y : Str × Json} (h : y ∈ sortKeysPairs kvs) : ∃ kv ∈ kvs, y.2 = sortKeys kv.2 := by
  induction kvs with
  | nil => rw [sortKeysPairs] at h; cases h
  | cons kv kvs ih =>
    cases kv with
    | mk k v =>
      rw [sortKeysPairs] at h
      rcases List.mem_cons.1 h with rfl | h
      · exact ⟨(k, v), List.mem_cons_self, rfl⟩
      · obtain ⟨z, hz, e⟩ := ih h
        exact ⟨z, List.mem_cons_of_mem _ hz, e⟩

theorem ordered_sortKeys : (j : Json) → KeysOrdered (sortKeys j)
  | .null => by rw [sortKeys] <;> first | exact .leaf (fun _ h => by cases h) (fun _ h => by cases h) | (intro _ h; cases h)
  | .bool b => by rw [sortKeys] <;> first | exact .leaf (fun _ h => by cases h) (fun _ h => by cases h) | (intro _ h; cases h)
  | .num n => by rw [sortKeys] <;> first | exact .leaf (fun _ h => by cases h) (fun _ h => by cases h) | (intro _ h; cases h)
  | .str s => by rw [sortKeys] <;> first | exact .leaf (fun _ h => by cases h) (fun _ h => by cases h) | (intro _ h; cases h)
  | .arr xs => by
    rw [sortKeys]
    refine .arr fun y hy => ?_
    obtain ⟨x, hx, rfl⟩ := sortItems_mem hy
    exact ordered_sortKeys x
  | .obj kvs => by
    rw [sortKeys]
    refine .obj ?_ fun y hy => ?_
    · refine (stableSort_pairwise (le := fun a b : Str × Json => keyLe a.1 b.1) ?_ ?_ _).imp fun h => (keyLe_iff _ _).1 h
      · intro a b c h1 h2
        rw [keyLe_iff] at h1 h2 ⊢
        exact List.le_trans h1 h2
      · intro a b
        rw [Bool.or_eq_true, keyLe_iff, keyLe_iff]
        exact List.le_total _ _
    · obtain ⟨kv, hkv, e⟩ := sortPairs_mem ((stableSort_perm _ _).mem_iff.1 hy)
      have := List.sizeOf_lt_of_mem hkv
      have : sizeOf kv.2 < sizeOf kv := by cases kv; simp <;> omega
      rw [e]
      exact ordered_sortKeys kv.2

/-- **C89**, the order of the data: in each of the four declarations the entries of all objects are in the order of their keys. -/
theorem C89_order (fmt : Node → Str) (report : Json) (ids : List Str) (html : List (Str × Node)) (codes : Json) :
    ∃ t1 t2 t3 t4 : Str,
      scriptData fmt report ids html codes = declaration c!"report" t1 ++ declaration c!"erroneous_figure_ids" t2 ++
        declaration c!"report_html" t3 ++ declaration c!"lintCodes" t4 ∧
      ∀ t ∈ [t1, t2, t3, t4], ∃ v, readJson t = some v ∧ KeysOrdered v := by
  refine ⟨tojson report, tojson (.arr (ids.map .str)), tojson (.obj (html.map fun e => (e.1, .str (fmt e.2)))), tojson codes, ?_, ?_⟩
  · simp only [scriptData, constLine, declaration, List.append_assoc]
  · intro t ht
    simp only [List.mem_cons, List.not_mem_nil, or_false] at ht
    rcases ht with rfl | rfl | rfl | rfl <;> exact ⟨_, readJson_htmlSafe _, ordered_sortKeys _⟩

/-! ### The markup -/

mutual
theorem harmless_of_clean : (n : Node) → Harmless n.clean → Harmless n
  | .text s, _ => .text s
  | .elem tag attrs ks, h => by
    rw [Node.clean] at h
    cases h with
    | elem h1 h2 h3 =>
      refine .elem h1 h2 ?_
      split at h3
      · exact h3
      · exact harmless_of_cleans ks h3
theorem harmless_of_cleans : (ks : List Node) → (∀ k ∈ cleans ks, Harmless k) → ∀ k ∈ ks, Harmless k
  | [], _, k, hk => by cases hk
  | n :: ks, h, k, hk => by
    rw [cleans] at h
    have hn : Harmless n := by
      split at h
      · rename_i hb
        cases n with
        | text s => exact .text s
        | elem tag attrs ks => cases hb
      · exact harmless_of_clean n (h _ List.mem_cons_self)
    have hks : ∀ k ∈ ks, Harmless k := harmless_of_cleans ks (by
      split at h
      · exact h
      · exact fun k hk => h k (List.mem_cons_of_mem _ hk))
    rcases List.mem_cons.1 hk with rfl | hk
    · exact hn
    · exact hks k hk
end

theorem Harmless.inside {n root : Node} (h : NodeOf n root) (hr : Harmless root) : Harmless n := by
  induction h with
  | self => exact hr
  | kid hk _ ih =>
    cases hr with
    | elem _ _ h3 => exact ih (h3 _ hk)

theorem opt_attrs {n : Str} {v : Option Str} (h : n ∈ pageAttrs) : ∀ a ∈ optAttr n v, a.1 ∈ pageAttrs := by
  intro a ha
  rw [(optAttr_mem ha).1]
  exact h

theorem harmless_span (cls : Classes) (s : HSpan) : Harmless (spanNode cls s) := by
  refine .elem (by decide) (opt_attrs (by decide)) fun k hk => ?_
  unfold textKids at hk
  split at hk
  · cases hk
  · rw [List.mem_singleton] at hk; subst hk; exact .text _

theorem harmless_spans (cls : Classes) (ss : List HSpan) : ∀ k ∈ ss.map (spanNode cls), Harmless k := by
  intro k hk
  obtain ⟨s, -, rfl⟩ := List.mem_map.1 hk
  exact harmless_span cls s

theorem harmless_li {ns : List Node} (h : ∀ k ∈ ns, Harmless k) : Harmless (liNode ns) := .elem (by decide) (fun a ha => by cases ha) h

theorem harmless_list {ns : List Node} (l : NumLvl) (h : ∀ k ∈ ns, Harmless k) : Harmless (.elem l.tag [(c!"class", l.clsname)] ns) := by
  refine .elem ?_ ?_ h
  · unfold NumLvl.tag; split <;> decide
  · intro a ha; rw [List.mem_singleton] at ha; subst ha; exact (by decide : c!"class" ∈ pageAttrs)

/-- the pending item contains only harmless nodes -/
def PendHarmless (p : Option (List Node)) : Prop := ∀ ns, p = some ns → ∀ k ∈ ns, Harmless k

theorem harmless_pend {p : Option (List Node)} (hp : PendHarmless p) : ∀ k ∈ (p.map liNode).toList, Harmless k := by
  cases p with
  | none => intro k hk; cases hk
  | some ns =>
    intro k hk
    simp only [Option.map_some, Option.toList_some, List.mem_singleton] at hk
    subst hk
    exact harmless_li (hp ns rfl)

mutual
theorem harmless_item (cls : Classes) (e : HItem) (p : Option (List Node)) (hp : PendHarmless p) :
    (∀ k ∈ (itemNode cls p e).1, Harmless k) ∧ PendHarmless (itemNode cls p e).2 := by
  cases e with
  | item spans =>
    rw [itemNode]
    refine ⟨harmless_pend hp, fun ns h => ?_⟩
    cases h
    exact harmless_spans cls spans
  | list props elems =>
    rw [itemNode]
    refine ⟨fun k hk => ?_, fun ns h => by cases h⟩
    rw [List.mem_singleton] at hk
    subst hk
    refine harmless_li fun k hk => ?_
    rcases List.mem_append.1 hk with hk | hk
    · cases p with
      | none => cases hk
      | some ns => exact hp ns rfl k hk
    · rw [List.mem_singleton] at hk
      subst hk
      exact harmless_list props (harmless_items cls elems none (fun ns h => by cases h))
theorem harmless_items (cls : Classes) (es : List HItem) (p : Option (List Node)) (hp : PendHarmless p) :
    ∀ k ∈ itemNodes cls p es, Harmless k := by
  cases es with
  | nil => rw [itemNodes]; exact harmless_pend hp
  | cons e es =>
    obtain ⟨h1, h2⟩ := harmless_item cls e p hp
    rw [itemNodes]
    intro k hk
    rcases List.mem_append.1 hk with hk | hk
    · exact h1 k hk
    · exact harmless_items cls es _ h2 k hk
end

mutual
theorem harmless_unit (cls : Classes) (u : HUnit) (hu : u.Ok) : Harmless (unitNode cls u) := by
  cases u with
  | para spans => rw [unitNode]; exact .elem (by decide) (fun a ha => by cases ha) (harmless_spans cls spans)
  | list props elems => rw [unitNode]; exact harmless_list props (harmless_items cls elems none (fun ns h => by cases h))
  | table src id rows =>
    rw [HUnit.Ok] at hu
    rw [unitNode]
    refine .elem (by decide) (fun a ha => ?_) (harmless_rows cls 0 rows hu.2)
    cases id with
    | none => cases ha
    | some i =>
      simp only [idAttr] at ha
      split at ha
      · cases ha
      · rw [List.mem_singleton] at ha; subst ha; exact (by decide : c!"id" ∈ pageAttrs)
theorem harmless_units (cls : Classes) (us : List HUnit) (hu : unitsOk us) : ∀ k ∈ unitNodes cls us, Harmless k := by
  cases us with
  | nil => rw [unitNodes]; intro k hk; cases hk
  | cons u us =>
    rw [unitsOk] at hu
    rw [unitNodes]
    intro k hk
    rcases List.mem_cons.1 hk with rfl | hk
    · exact harmless_unit cls u hu.1
    · exact harmless_units cls us hu.2 k hk
theorem harmless_rows (cls : Classes) (r : Nat) (rows : List (List HCell)) (hu : rowsOk rows) : ∀ k ∈ rowNodes cls r rows, Harmless k := by
  cases rows with
  | nil => rw [rowNodes]; intro k hk; cases hk
  | cons row rows =>
    rw [rowsOk] at hu
    rw [rowNodes]
    intro k hk
    rcases List.mem_cons.1 hk with rfl | hk
    · exact .elem (by decide) (fun a ha => by cases ha) (harmless_cells cls r 0 row hu.1)
    · exact harmless_rows cls (r + 1) rows hu.2 k hk
theorem harmless_cells (cls : Classes) (r c : Nat) (cells : List HCell) (hu : cellsOk cells) : ∀ k ∈ cellNodes cls r c cells, Harmless k := by
  match cells with
  | [] => rw [cellNodes]; intro k hk; cases hk
  | .mk tag elems colspan rowspan left top fill :: cells =>
    rw [cellsOk] at hu
    obtain ⟨h1, h2, h3⟩ := hu
    rw [cellNodes]
    split
    · intro k hk
      rcases List.mem_cons.1 hk with rfl | hk
      · refine .elem ?_ (fun a ha => ?_) (harmless_units cls elems h2)
        · rcases h1 with rfl | rfl <;> decide
        · simp only [cellAttrs, List.mem_append] at ha
          rcases ha with (ha | ha) | ha
          · exact opt_attrs (by decide) a ha
          · exact opt_attrs (by decide) a ha
          · exact opt_attrs (by decide) a ha
      · exact harmless_cells cls r (c + 1) cells h3 k hk
    · exact harmless_cells cls r (c + 1) cells h3
end

theorem harmless_page (version title : Str) (revision : Option Str) (fname : Str) {body : List Node} (h : ∀ k ∈ body, Harmless k) :
    Harmless (pageNode version title revision fname body) := by
  have lit : ∀ (l : List (Str × Str)), (∀ n ∈ l.map (·.1), n ∈ pageAttrs) → ∀ a ∈ l, a.1 ∈ pageAttrs :=
    fun l hl a ha => hl _ (List.mem_map_of_mem ha)
  have none' : ∀ k ∈ ([] : List Node), Harmless k := fun k hk => by cases hk
  refine .elem (by decide) (lit _ (by decide)) fun k hk => ?_
  simp only [List.mem_cons, List.not_mem_nil, or_false] at hk
  rcases hk with rfl | rfl
  · refine .elem (by decide) (fun a ha => by cases ha) fun k hk => ?_
    simp only [List.mem_cons, List.not_mem_nil, or_false] at hk
    rcases hk with rfl | rfl | rfl | rfl
    · refine .elem (by decide) (fun a ha => ?_) none'
      rcases List.mem_append.1 ha with ha | ha
      · exact lit [(c!"charset", c!"utf-8"), (c!"data-spec", title)] (show ∀ n ∈ [c!"charset", c!"data-spec"], n ∈ pageAttrs by decide) a ha
      · exact opt_attrs (by decide) a ha
    · exact .elem (by decide) (lit _ (show ∀ n ∈ [c!"name", c!"content"], n ∈ pageAttrs by decide)) none'
    · refine .elem (by decide) (fun a ha => by cases ha) fun k hk => ?_
      unfold textKids at hk
      split at hk
      · cases hk
      · rw [List.mem_singleton] at hk; subst hk; exact .text _
    · exact .elem (by decide) (lit _ (show ∀ n ∈ [c!"rel", c!"href"], n ∈ pageAttrs by decide)) none'
  · exact .elem (by decide) (fun a ha => by cases ha) h

theorem kid_inside {n k : Node} (hk : k ∈ n.kids) {m : Node} (h : NodeOf m k) : NodeOf m n := by
  cases n with
  | text s => cases hk
  | elem tag attrs ks => exact .kid hk h

theorem first_inside {xp : XPathEngine} {root : Node} (hs : FindsInside xp root) {e : Str} {t : Node} (h : xpathFirst xp e root = some t) :
    NodeOf t root := by
  have hfig : ∀ n ∈ figures root, NodeOf n root := by
    intro n hn
    obtain ⟨b, hb, hn⟩ := List.mem_flatMap.1 hn
    exact kid_inside (List.mem_filter.1 hb).1 (kid_inside (List.mem_filter.1 hn).1 (.self n))
  have hall : ∀ ns, xpathTables xp e root = .nodes ns → ∀ n ∈ ns, NodeOf n root := by
    intro ns hns n hn
    unfold xpathTables at hns
    split at hns
    · cases hns; exact hfig n (List.mem_filter.1 hn).1
    · cases hns; exact hfig n (List.mem_filter.1 hn).1
    · cases hns; exact hfig n (List.mem_filter.1 hn).1
    · cases hns
    · exact hs _ _ hns n hn
  unfold xpathFirst at h
  split at h
  · rename_i p ps hp
    cases h
    exact hall _ hp _ List.mem_cons_self
  · cases h

section
variable [Uni]

/-- **C89**, what the page inserts as markup for a document from Word: either a part of the page of the document, of which all elements and
attributes are fixed names without scripts and the texts are texts; or the id of the figure, if no table is found for it. If no `<` stands in the
id, this is no markup either. Not covered: other ids, see `C89_markup_false`; and pages which do not come from Word, which may contain anything. -/
theorem C89_markup_partial {f : WordFile} {stem : Str} {doc : WordDoc} {header : Str} {us : List HUnit} (h : Readable f stem doc header us)
    {layout : List Piece → Str} (hl : ∀ ps, Laid ps (layout ps)) {unzip : Str → WordFile} {bytes : Str} (hb : unzip bytes = f) :
    ∃ (page css : Str) (root : Node), (stageTools unzip layout).docx stem bytes = .ok (page, css) ∧
      (stageTools unzip layout).xml page = .ok root ∧
      ∀ (xp : XPathEngine), FindsInside xp root → ∀ (json : Str) (d : ReportData), reportData (stageTools unzip layout).xml xp json page = some d →
      ∀ clicks as, articles d clicks = some as → ∀ a ∈ as,
        (∃ t, NodeOf t root ∧ Harmless t ∧ ∀ fmt, insertedMarkup fmt a = fmt t) ∨
        (∀ fmt, ¬ Tagged (insertedMarkup fmt a)) ∨
        ('<' ∈ a.heading ∧ (∃ l ∈ d.lints, l.fig = a.heading) ∧ ∀ fmt, insertedMarkup fmt a = a.heading) := by
  obtain ⟨page, css, root, g1, g2, g3⟩ := h.read hl unzip bytes hb
  refine ⟨page, css, root, g1, g2, fun xp hxp json d hd clicks as has a ha => ?_⟩
  have hroot : Harmless root := harmless_of_clean root (by
    rw [g3]; exact harmless_page _ _ _ _ (harmless_units _ us (parseWord_ok h.text h.tables)))
  have hshown := shown_table g2 hd has ha
  cases hx : xpathFirst xp (rootId a.heading) root with
  | some t =>
    rw [hx] at hshown
    have hin := first_inside hxp hx
    exact .inl ⟨t, hin, hroot.inside hin, fun fmt => by rw [insertedMarkup, hshown]⟩
  | none =>
    rw [hx] at hshown
    simp only at hshown
    split at hshown
    · refine .inr (.inl fun fmt ht => ?_)
      rw [insertedMarkup, hshown] at ht
      obtain ⟨x, y, c, hc, -⟩ := ht
      have hc : c!"function () { [native code] }" = x ++ '<' :: c :: y := hc
      have : '<' ∈ c!"function () { [native code] }" := by rw [hc]; simp
      exact absurd this (by decide)
    · by_cases hm : '<' ∈ a.heading
      · exact .inr (.inr ⟨hm, (article_from has ha).2, fun fmt => by rw [insertedMarkup, hshown]⟩)
      · refine .inr (.inl fun fmt ht => ?_)
        rw [insertedMarkup, hshown] at ht
        obtain ⟨x, y, c, hc, -⟩ := ht
        have hc : a.heading = x ++ '<' :: c :: y := hc
        exact hm (by rw [hc]; simp)

omit [Uni] in
theorem shown_letter {xml : Str → Except Exn Node} {xp : XPathEngine} {json html : Str} {d : ReportData} {root : Node}
    (hx : xml html = .ok root) (hd : reportData xml xp json html = some d) {clicks : List Click} {as : List Article}
    (h : articles d clicks = some as) {a : Article} (ha : a ∈ as) {n : Str} {c : Char} {r : Str} (hn : ShortNumber n)
    (hc : 'A' ≤ c ∧ c ≤ 'Z' ∧ c ≠ 'E') (hh : a.heading = n ++ c :: r) : a.shown = .text a.heading := by
  refine C72_letter_false xml xp json html d root hx hd clicks as h a ha n c (r.takeWhile (· != '_')) hn hc ?_
  have hall : ∀ y ∈ n, (y != '_') = true := by
    intro y hy
    have := hn.2.1 y hy
    rw [bne_iff_ne]
    rintro rfl
    revert this; decide
  have hc' : (c != '_') = true := by
    rw [bne_iff_ne]
    rintro rfl
    exact absurd hc.2.1 (by decide)
  rw [rootId, hh, List.takeWhile_append_of_pos hall, List.takeWhile_cons, hc']
  simp

omit [Uni] in
/-- **C89**, the falsity in general: the id of a figure which begins with a number and a capital letter is inserted as markup, and so is a tag
which follows in it. -/
theorem C89_figure_id_false (xml : Str → Except Exn Node) (xp : XPathEngine) (json html : Str) (d : ReportData) (root : Node)
    (hx : xml html = .ok root) (hd : reportData xml xp json html = some d) (clicks : List Click) (as : List Article)
    (h : articles d clicks = some as) (a : Article) (ha : a ∈ as) (n : Str) (c x : Char) (r s : Str) (hn : ShortNumber n)
    (hc : 'A' ≤ c ∧ c ≤ 'Z' ∧ c ≠ 'E') (hh : a.heading = n ++ c :: (r ++ '<' :: x :: s)) (hl : asciiLetter x = true) :
    ∀ fmt, Tagged (insertedMarkup fmt a) := by
  intro fmt
  rw [insertedMarkup, shown_letter hx hd h ha hn hc hh]
  exact ⟨n ++ c :: r, s, x, by rw [hh]; simp, hl⟩

end

open Sample

/-- a title with a tag in it -/
def taggedTitle : Str := c!"Figure 5A<img/src=''/onerror=alert(1)>: Five"

/-- **C89**, that no text of a document is inserted as markup: there is a page with a single table which is converted as usual, and whose
report inserts the tag which stands in its title, as it is. -/
theorem C89_markup_false : letI := Uni.ascii
    ∃ (root : Node) (d : ReportData) (as : List Article) (a : Article),
      (∃ t ∈ figures root, ∃ tr ∈ t.kids, tr.flat = taggedTitle) ∧
      reportData (fun _ => .ok root) repEngine (parseSpec [] true false none (.ok root)).2.1.file.content [] = some d ∧
      articles d [] = some as ∧ a ∈ as ∧ ∀ fmt, insertedMarkup fmt a = c!"5A<img/src=''/onerror=alert(1)>" ∧ Tagged (insertedMarkup fmt a) := by
  let _ := Uni.ascii
  have h : (repSeen [repTable none taggedTitle] []).map (·.map (·.1)) = some [c!"5A<img/src=''/onerror=alert(1)>"] := by
    decide +kernel
  unfold repSeen at h
  cases hd : repData [repTable none taggedTitle] with
  | none => rw [hd] at h; cases h
  | some d =>
    rw [hd, Option.bind_some] at h
    cases has : articles d [] with
    | none => rw [has] at h; cases h
    | some as =>
      rw [has] at h
      simp only [Option.map_some, Option.some.injEq, List.map_map] at h
      cases as with
      | nil => cases h
      | cons a as =>
        have hh : a.heading = c!"5A<img/src=''/onerror=alert(1)>" := (List.cons.inj h).1
        refine ⟨headedDoc c!"Big" c!"1.0A" [repTable none taggedTitle], d, a :: as, a, ?_, hd, has, List.mem_cons_self, fun fmt => ⟨?_, ?_⟩⟩
        · exact ⟨repTable none taggedTitle, List.mem_cons_self, _, List.mem_cons_self, rfl⟩
        · rw [insertedMarkup, shown_letter (xml := fun _ => .ok (headedDoc c!"Big" c!"1.0A" [repTable none taggedTitle])) rfl hd has List.mem_cons_self
            (n := c!"5") (c := 'A') (by decide) (by decide) hh]
          exact hh
        · exact C89_figure_id_false (fun _ => .ok (headedDoc c!"Big" c!"1.0A" [repTable none taggedTitle])) repEngine _ [] d _ rfl hd [] _ has a
            List.mem_cons_self c!"5" 'A' 'i' [] _ (by decide) (by decide) hh (by decide) fmt

/-! ### Examples -/

/-- C89: quotes, tags, line separators and characters beyond the basic plane in the data of the script -/
example : tojson (.obj [(c!"b", .str c!"</script><!-- & 'x'"), (c!"a", .arr [.str [Char.ofNat 0x2028, Char.ofNat 0x1F600], .num (-3)])]) =
    c!"{\"a\": [\"\\u2028\\ud83d\\ude00\", -3], \"b\": \"\\u003c/script\\u003e\\u003c!-- \\u0026 \\u0027x\\u0027\"}" := by decide +kernel

/-- C89: the order of keys is that of their characters, and a key is behind its parts -/
example : c!"9" ≤ c!"A7" ∧ c!"1" ≤ c!"12" ∧ ¬ c!"12" ≤ c!"1" ∧ c!"12" ≤ c!"9" := by decide

/-- the hypotheses of `C89_markup_partial`: XPath finds nothing but parts of a page -/
example (root : Node) : FindsInside ⟨fun _ r => .nodes [r], fun _ _ => false⟩ root := by
  intro e ns h n hn
  cases h
  rw [List.mem_singleton] at hn
  subst hn
  exact .self _

end Spex
