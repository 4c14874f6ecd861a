import Verif.Model.XmlRead
import Verif.Model.Render
import Mathlib.Data.List.Basic
import Verif.Props.PageSpec
/-
Texts which describe trees: writing and reading XML.
-/
set_option autoImplicit false
namespace Spex

/-! ### Reading -/

theorem xmlRun_append (st : Tree × Mode) (a b : Str) : xmlRun st (a ++ b) = (xmlRun st a).bind (fun st' => xmlRun st' b) := by
  induction a generalizing st with
  | nil => rfl
  | cons c a ih =>
    simp only [List.cons_append, xmlRun]
    cases h : xmlStep st c with
    | none => rfl
    | some st' => simp only [Option.bind_some, ih]

theorem xmlRun_trans {st st' : Tree × Mode} {a b : Str} (h : xmlRun st a = some st') : xmlRun st (a ++ b) = xmlRun st' b := by
  rw [xmlRun_append, h]; rfl

/-- an ASCII name -/
structure IsName (s : Str) : Prop where
  ne : s ≠ []
  start : ∀ c ∈ s.head?, isNameStart c = true
  chars : ∀ c ∈ s, isNameChar c = true

/-- a value which may stand in quotes as it is -/
def SafeValue (q : Char) (v : Str) : Prop :=
  ∀ c ∈ v, c ≠ q ∧ c ≠ '<' ∧ c ≠ '&' ∧ isXmlSpace c = (c == ' ') ∧ isXmlChar c = true

theorem run_name (t : Tree) (tag s : Str) (h : ∀ c ∈ s, isNameChar c = true) :
    xmlRun (t, .name tag) s = some (t, .name (tag ++ s)) := by
  induction s generalizing tag with
  | nil => simp [xmlRun]
  | cons c s ih =>
    have hc := h c (by simp)
    simp only [xmlRun, xmlStep, hc, if_true, Option.bind_some]
    rw [ih _ (fun x hx => h x (List.mem_cons_of_mem _ hx))]
    simp

theorem run_attrName (t : Tree) (tag : Str) (as : List (Str × Str)) (n s : Str) (h : ∀ c ∈ s, isNameChar c = true) :
    xmlRun (t, .attr tag as n) s = some (t, .attr tag as (n ++ s)) := by
  induction s generalizing n with
  | nil => simp [xmlRun]
  | cons c s ih =>
    have hc := h c (by simp)
    simp only [xmlRun, xmlStep, hc, if_true, Option.bind_some]
    rw [ih _ (fun x hx => h x (List.mem_cons_of_mem _ hx))]
    simp

theorem run_endName (t : Tree) (tag s : Str) (h : ∀ c ∈ s, isNameChar c = true) :
    xmlRun (t, .endName tag) s = some (t, .endName (tag ++ s)) := by
  induction s generalizing tag with
  | nil => simp [xmlRun]
  | cons c s ih =>
    have hc := h c (by simp)
    simp only [xmlRun, xmlStep, hc, if_true, Option.bind_some]
    rw [ih _ (fun x hx => h x (List.mem_cons_of_mem _ hx))]
    simp

theorem run_value (t : Tree) (tag : Str) (as : List (Str × Str)) (n : Str) (q : Char) (r v : Str) (h : SafeValue q v) :
    xmlRun (t, .quoted tag as n q r) v = some (t, .quoted tag as n q (r ++ v)) := by
  induction v generalizing r with
  | nil => simp [xmlRun]
  | cons c v ih =>
    obtain ⟨h1, h2, h3, h4, -⟩ := h c (by simp)
    have hch : (if isXmlSpace c then ' ' else c) = c := by
      by_cases hs : isXmlSpace c = true
      · rw [if_pos hs]
        rw [h4] at hs
        exact (by simpa using hs : c = ' ').symm
      · rw [if_neg hs]
    simp only [xmlRun, xmlStep, h1, h2, h3, if_false, Option.bind_some, hch]
    rw [ih _ (fun x hx => h x (List.mem_cons_of_mem _ hx))]
    simp

/-- the state after the name of a start tag and some attributes -/
def inTag (tag : Str) (as : List (Str × Str)) : Mode := if as.isEmpty then .name tag else .value tag as

theorem inTag_space (t : Tree) (tag : Str) (as : List (Str × Str)) :
    xmlStep (t, inTag tag as) ' ' = some (t, .tag tag as) := by
  unfold inTag
  cases as with
  | nil => rfl
  | cons a as => rfl

theorem inTag_gt (t : Tree) (tag : Str) (as : List (Str × Str)) :
    xmlStep (t, inTag tag as) '>' = some (t.start tag as, .text) := by
  unfold inTag
  cases as with
  | nil => rfl
  | cons a as => rfl

theorem inTag_slash (t : Tree) (tag : Str) (as : List (Str × Str)) :
    xmlStep (t, inTag tag as) '/' = some (t, .slash tag as) := by
  unfold inTag
  cases as with
  | nil => rfl
  | cons a as => rfl

/-- an attribute as it is written -/
def attrStr (q : Char) (a : Str × Str) : Str := ' ' :: a.1 ++ '=' :: q :: a.2 ++ [q]

theorem nameStart_not_space {c : Char} (h : isNameStart c = true) :
    c ≠ '/' ∧ c ≠ '!' ∧ c ≠ '>' ∧ c ≠ '<' ∧ c ≠ '&' := by
  refine ⟨?_, ?_, ?_, ?_, ?_⟩ <;> (rintro rfl; revert h; decide)

theorem run_attr (t : Tree) (tag : Str) (as : List (Str × Str)) (q : Char) (a : Str × Str) (hq : q = '"' ∨ q = '\'')
    (hn : IsName a.1) (hv : SafeValue q a.2) (hd : as.lookup a.1 = none) :
    xmlRun (t, inTag tag as) (attrStr q a) = some (t, inTag tag (as ++ [a])) := by
  rcases a with ⟨n, v⟩
  simp only at hn hv hd
  unfold attrStr
  cases n with
  | nil => exact absurd rfl hn.ne
  | cons c n =>
    have hc := hn.start c rfl
    simp only [List.cons_append, List.append_assoc, xmlRun, inTag_space, Option.bind_some]
    simp only [xmlStep, hc, if_true, Option.bind_some]
    rw [xmlRun_trans (run_attrName _ _ _ _ _ (fun x hx => hn.chars x (List.mem_cons_of_mem _ hx)))]
    have e1 : isNameChar '=' = false := by decide
    have e2 : isXmlSpace '=' = false := by decide
    have e3 : isXmlSpace q = false := by rcases hq with rfl | rfl <;> decide
    simp only [xmlRun, xmlStep, e1, e2, e3, hq, if_true, Option.bind_some, Bool.false_eq_true, if_false, List.singleton_append]
    rw [xmlRun_trans (run_value _ _ _ _ _ _ _ hv)]
    simp only [xmlRun, xmlStep, if_true, hd, Option.isSome_none, Bool.false_eq_true, if_false, Option.bind_some, List.nil_append]
    unfold inTag
    simp

theorem lookup_append_none {α β : Type} [BEq α] {a b : List (α × β)} {k : α} (h1 : a.lookup k = none) (h2 : b.lookup k = none) :
    (a ++ b).lookup k = none := by
  rw [List.lookup_append, h1, h2]; rfl

/-- names which differ from each other and from the ones before -/
def NewNames (as : List (Str × Str)) : List (Str × Str) → Prop
  | [] => True
  | b :: bs => as.lookup b.1 = none ∧ NewNames (as ++ [b]) bs

theorem run_attrs (t : Tree) (tag : Str) (as : List (Str × Str)) (q : Char) (bs : List (Str × Str)) (hq : q = '"' ∨ q = '\'')
    (h : ∀ a ∈ bs, IsName a.1 ∧ SafeValue q a.2) (hd : NewNames as bs) :
    xmlRun (t, inTag tag as) (bs.flatMap (attrStr q)) = some (t, inTag tag (as ++ bs)) := by
  induction bs generalizing as with
  | nil => simp [xmlRun]
  | cons b bs ih =>
    simp only [List.flatMap_cons]
    obtain ⟨h1, h2⟩ := h b (by simp)
    rw [xmlRun_trans (run_attr t tag as q b hq h1 h2 hd.1)]
    rw [ih _ (fun a ha => h a (List.mem_cons_of_mem _ ha)) hd.2]
    simp

theorem run_open (t : Tree) (tag : Str) (h : IsName tag) : xmlRun (t, .text) ('<' :: tag) = some (t, inTag tag []) := by
  cases tag with
  | nil => exact absurd rfl h.ne
  | cons c s =>
    have hc := h.start c rfl
    obtain ⟨n1, n2, -⟩ := nameStart_not_space hc
    simp only [xmlRun, xmlStep, if_true, Option.bind_some, n1, n2, hc, if_false, false_and]
    rw [run_name _ _ _ (fun x hx => h.chars x (List.mem_cons_of_mem _ hx))]
    rfl

theorem run_close (t : Tree) (tag : Str) (h : IsName tag) :
    xmlRun (t, .text) (c!"</" ++ tag ++ c!">") = (t.close tag).map (·, .text) := by
  cases tag with
  | nil => exact absurd rfl h.ne
  | cons c s =>
    have hc := h.start c rfl
    have e1 : isNameChar '>' = false := by decide
    have e2 : isXmlSpace '>' = false := by decide
    have e3 : ('/' : Char) ≠ '<' := by decide
    simp only [List.cons_append, List.nil_append, xmlRun, xmlStep, if_true, Option.bind_some, hc]
    rw [xmlRun_trans (run_endName _ _ _ (fun x hx => h.chars x (List.mem_cons_of_mem _ hx)))]
    simp only [xmlRun, xmlStep, e1, e2, Bool.false_eq_true, if_false, if_true, List.singleton_append]
    cases t.close (c :: s) <;> rfl

/-- characters of text are added one by one -/
def addChars (s : Str) (ks : List Node) : List Node := s.foldl (fun ks c => addChar c ks) ks

theorem run_escapeChar (t : Tree) (c : Char) : xmlRun (t, .text) (escapeChar c) = some (t.add c, .text) := by
  unfold escapeChar
  by_cases h1 : c = '&'
  · subst h1; rfl
  by_cases h2 : c = '<'
  · subst h2; rfl
  by_cases h3 : c = '>'
  · subst h3; rfl
  by_cases h4 : c = '"'
  · subst h4; rfl
  by_cases h5 : c = '\''
  · subst h5; rfl
  simp only [h1, h2, h3, h4, h5, if_false, xmlRun, xmlStep, false_and, Option.bind_some]

theorem run_escape (t : Tree) (s : Str) :
    xmlRun (t, .text) (htmlEscape s) = some ({ t with kids := addChars s t.kids }, .text) := by
  unfold htmlEscape
  induction s generalizing t with
  | nil => rfl
  | cons c s ih =>
    rw [List.flatMap_cons, xmlRun_trans (run_escapeChar t c), ih]
    rfl

/-- text which may stand as it is -/
def SafeText (s : Str) : Prop := ∀ c ∈ s, c ≠ '<' ∧ c ≠ '&' ∧ c ≠ '>' ∧ c ≠ '\r' ∧ isXmlChar c = true

theorem run_raw (t : Tree) (s : Str) (h : SafeText s) :
    xmlRun (t, .text) s = some ({ t with kids := addChars s t.kids }, .text) := by
  induction s generalizing t with
  | nil => rfl
  | cons c s ih =>
    obtain ⟨h1, h2, h3, -⟩ := h c (by simp)
    simp only [xmlRun, xmlStep, h1, h2, h3, if_false, false_and, Option.bind_some]
    rw [ih _ (fun x hx => h x (List.mem_cons_of_mem _ hx))]
    rfl

/-! ### Pieces as characters, ends of lines and places where they may be are `none` -/

/-- white space between elements -/
def Gap (w : Str) : Prop := ∀ c ∈ w, c = '\n' ∨ c = ' ' ∨ c = '\t'

theorem Gap.nil : Gap [] := fun c hc => by cases hc

theorem Blanks.gap {w : Str} (h : Blanks w) : Gap ('\n' :: w) := by
  intro c hc
  rcases List.mem_cons.1 hc with rfl | hc
  · exact .inl rfl
  · exact .inr (h c hc)

def pieceChars : Piece → List (Option Char)
  | .str s => s.map some
  | .nl => [none]
  | .brk => [none]

def chars (ps : List Piece) : List (Option Char) := ps.flatMap pieceChars

/-- as `Laid`, by characters -/
inductive LaidC : List (Option Char) → Str → Prop where
  | nil : LaidC [] []
  | chr {c : Char} {ps : List (Option Char)} {t : Str} : LaidC ps t → LaidC (some c :: ps) (c :: t)
  | nl {w : Str} {ps : List (Option Char)} {t : Str} : Gap w → LaidC ps t → LaidC (none :: ps) (w ++ t)

theorem LaidC.strs {s : Str} {ps : List (Option Char)} {t : Str} (h : LaidC ps t) : LaidC (s.map some ++ ps) (s ++ t) := by
  induction s with
  | nil => exact h
  | cons c s ih => exact .chr ih

theorem Laid.chars {ps : List Piece} {t : Str} (h : Laid ps t) : LaidC (Spex.chars ps) t := by
  induction h with
  | nil => exact .nil
  | str _ ih => exact LaidC.strs ih
  | nl hw _ ih => exact .nl hw.gap ih
  | brk hw _ ih => exact .nl hw.gap ih
  | stay _ ih => exact .nl .nil ih

theorem LaidC.append {a b : List (Option Char)} {t : Str} (h : LaidC (a ++ b) t) :
    ∃ t1 t2, t = t1 ++ t2 ∧ LaidC a t1 ∧ LaidC b t2 := by
  induction a generalizing t with
  | nil => exact ⟨[], t, rfl, .nil, h⟩
  | cons x a ih =>
    cases h with
    | chr h =>
      obtain ⟨t1, t2, rfl, h1, h2⟩ := ih h
      exact ⟨_ :: t1, t2, rfl, .chr h1, h2⟩
    | nl hw h =>
      obtain ⟨t1, t2, rfl, h1, h2⟩ := ih h
      exact ⟨_, t2, by simp, .nl hw h1, h2⟩

theorem LaidC.str_eq {s t : Str} (h : LaidC (s.map some) t) : t = s := by
  induction s generalizing t with
  | nil => cases h; rfl
  | cons c s ih => cases h with | chr h => rw [ih h]

theorem LaidC.str_append {s : Str} {b : List (Option Char)} {t : Str} (h : LaidC (s.map some ++ b) t) :
    ∃ t2, t = s ++ t2 ∧ LaidC b t2 := by
  obtain ⟨t1, t2, rfl, h1, h2⟩ := h.append
  rw [h1.str_eq]
  exact ⟨t2, rfl, h2⟩

theorem LaidC.nl_eq {t : Str} (h : LaidC [none] t) : Gap t := by
  cases h with
  | nl hw h => cases h; rw [List.append_nil]; exact hw

/-! ### Trees with ends of lines -/

/-- a tree as it is written: ends of lines, elements which hold text (escaped or not), elements which hold elements, and
empty elements -/
inductive HTree where
  | nl
  | leaf (tag : Str) (attrs : List (Str × Str)) (esc : Bool) (s : Str)
  | elem (tag : Str) (q : Char) (attrs : List (Str × Str)) (kids : List HTree)
  | void (tag : Str) (attrs : List (Str × Str)) (space : Bool)

/-- start tag -/
def tagStr (tag : Str) (q : Char) (attrs : List (Str × Str)) : Str := '<' :: tag ++ attrs.flatMap (attrStr q) ++ ['>']

/-- text in an element -/
def leafStr (esc : Bool) (s : Str) : Str := if esc then htmlEscape s else s

mutual
def HTree.ser : HTree → List (Option Char)
  | .nl => [none]
  | .leaf tag attrs esc s => (tagStr tag '"' attrs ++ leafStr esc s ++ endTag tag).map some
  | .elem tag q attrs kids => (tagStr tag q attrs).map some ++ sers kids ++ (endTag tag).map some
  | .void tag attrs space => ('<' :: tag ++ attrs.flatMap (attrStr '"') ++ (if space then c!" />" else c!"/>")).map some
def sers : List HTree → List (Option Char)
  | [] => []
  | h :: hs => h.ser ++ sers hs
end

theorem sers_append (a b : List HTree) : sers (a ++ b) = sers a ++ sers b := by
  induction a with
  | nil => rfl
  | cons x a ih => simp only [List.cons_append, sers, ih, List.append_assoc]

/-- names and values are harmless -/
structure SafeTag (tag : Str) (q : Char) (attrs : List (Str × Str)) : Prop where
  name : IsName tag
  quote : q = '"' ∨ q = '\''
  vals : ∀ a ∈ attrs, IsName a.1 ∧ SafeValue q a.2
  new : NewNames [] attrs

/-- text is harmless -/
def SafeLeaf (esc : Bool) (s : Str) : Prop := if esc then ∀ c ∈ s, isXmlChar c = true else SafeText s

mutual
/-- names, values and texts are harmless -/
def HTree.WF : HTree → Prop
  | .nl => True
  | .leaf tag attrs esc s => SafeTag tag '"' attrs ∧ isLeafTag tag = true ∧ SafeLeaf esc s
  | .elem tag q attrs kids => SafeTag tag q attrs ∧ isLeafTag tag = false ∧ WFs kids
  | .void tag attrs _ => SafeTag tag '"' attrs ∧ isLeafTag tag = false
def WFs : List HTree → Prop
  | [] => True
  | h :: hs => h.WF ∧ WFs hs
end

theorem WFs_append {a b : List HTree} : WFs (a ++ b) ↔ WFs a ∧ WFs b := by
  induction a with
  | nil => simp [WFs]
  | cons x a ih => simp [WFs, ih, and_assoc]

mutual
/-- the nodes which are read for a tree; ends of lines are white space -/
inductive Inst : HTree → Node → Prop where
  | nl {w : Str} (h : Gap w) : Inst .nl (.text w)
  | leaf (tag : Str) (attrs : List (Str × Str)) (esc : Bool) (s : Str) : Inst (.leaf tag attrs esc s) (.elem tag attrs [.text s])
  | elem (tag : Str) (q : Char) (attrs : List (Str × Str)) {kids : List HTree} {ns : List Node} (h : Insts kids ns) :
      Inst (.elem tag q attrs kids) (.elem tag attrs ns)
  | void (tag : Str) (attrs : List (Str × Str)) (space : Bool) : Inst (.void tag attrs space) (.elem tag attrs [])
inductive Insts : List HTree → List Node → Prop where
  | nil : Insts [] []
  | cons {h : HTree} {n : Node} {hs : List HTree} {ns : List Node} (h1 : Inst h n) (h2 : Insts hs ns) : Insts (h :: hs) (n :: ns)
end

/-- nodes are added to the ones before (the last one first); texts next to each other are joined -/
def pushAll : List Node → List Node → List Node
  | [], acc => acc
  | .text s :: ns, acc => pushAll ns (addChars s acc)
  | .elem tag attrs ks :: ns, acc => pushAll ns (.elem tag attrs (pushAll ks []).reverse :: acc)

theorem Gap.safe {w : Str} (h : Gap w) : SafeText w := by
  intro c hc
  rcases h c hc with rfl | rfl | rfl <;> decide

theorem run_startTag (t : Tree) {tag : Str} {q : Char} {attrs : List (Str × Str)} (h : SafeTag tag q attrs) :
    xmlRun (t, .text) (tagStr tag q attrs) = some (t.start tag attrs, .text) := by
  unfold tagStr
  rw [List.append_assoc, xmlRun_trans (run_open t tag h.name), xmlRun_trans (run_attrs t tag [] q attrs h.quote h.vals h.new)]
  simp only [List.nil_append, xmlRun, inTag_gt, Option.bind_some]

theorem run_void (t : Tree) {tag : Str} {attrs : List (Str × Str)} (space : Bool) (h : SafeTag tag '"' attrs) :
    xmlRun (t, .text) ('<' :: tag ++ attrs.flatMap (attrStr '"') ++ (if space then c!" />" else c!"/>")) =
      some (t.void tag attrs, .text) := by
  rw [List.append_assoc, xmlRun_trans (run_open t tag h.name), xmlRun_trans (run_attrs t tag [] '"' attrs (.inl rfl) h.vals h.new)]
  have e : xmlStep (t, .slash tag attrs) '>' = some (t.void tag attrs, .text) := rfl
  have e' : xmlStep (t, .tag tag attrs) '/' = some (t, .slash tag attrs) := rfl
  cases space
  · simp only [List.nil_append, xmlRun, inTag_slash, Option.bind_some, Bool.false_eq_true, if_false, e]
  · simp only [List.nil_append, xmlRun, inTag_space, Option.bind_some, if_true, e, e']

theorem run_leaf (t : Tree) {esc : Bool} {s : Str} (h : SafeLeaf esc s) :
    xmlRun (t, .text) (leafStr esc s) = some ({ t with kids := addChars s t.kids }, .text) := by
  unfold leafStr
  cases esc with
  | true => exact run_escape t s
  | false => exact run_raw t s h

mutual
theorem ser_run (h : HTree) (t : Str) (hw : h.WF) (hl : LaidC h.ser t) :
    ∃ n, Inst h n ∧ ∀ stk acc, xmlRun (⟨stk, acc⟩, .text) t = some (⟨stk, pushAll [n] acc⟩, .text) := by
  cases h with
  | nl =>
    rw [HTree.ser] at hl
    have hb := hl.nl_eq
    exact ⟨_, .nl hb, fun stk acc => by rw [run_raw _ _ hb.safe]; simp only [pushAll]⟩
  | leaf tag attrs esc s =>
    rw [HTree.ser] at hl
    rw [HTree.WF] at hw
    rw [hl.str_eq]
    refine ⟨_, .leaf tag attrs esc s, fun stk acc => ?_⟩
    rw [List.append_assoc, xmlRun_trans (run_startTag _ hw.1)]
    rw [xmlRun_trans (run_leaf _ hw.2.2), endTag, run_close _ _ hw.1.name]
    simp only [Tree.start, Tree.close, if_true, Option.map_some, pushAll]
  | elem tag q attrs kids =>
    rw [HTree.ser] at hl
    rw [HTree.WF] at hw
    obtain ⟨ht, -, hk⟩ := hw
    obtain ⟨t1, t2, rfl, h1, h2⟩ := hl.append
    obtain ⟨t3, rfl, h3⟩ := h1.str_append
    obtain ⟨ns, hi, hr⟩ := sers_run kids t3 hk h3
    rw [h2.str_eq]
    refine ⟨_, .elem tag q attrs hi, fun stk acc => ?_⟩
    rw [List.append_assoc, xmlRun_trans (run_startTag _ ht)]
    unfold Tree.start
    rw [xmlRun_trans (hr _ _), endTag, run_close _ _ ht.name]
    simp only [Tree.close, if_true, Option.map_some, pushAll]
  | void tag attrs space =>
    rw [HTree.ser] at hl
    rw [HTree.WF] at hw
    rw [hl.str_eq]
    refine ⟨_, .void tag attrs space, fun stk acc => ?_⟩
    rw [run_void _ _ hw.1]
    simp only [Tree.void, pushAll, List.reverse_nil]
theorem sers_run (hs : List HTree) (t : Str) (hw : WFs hs) (hl : LaidC (sers hs) t) :
    ∃ ns, Insts hs ns ∧ ∀ stk acc, xmlRun (⟨stk, acc⟩, .text) t = some (⟨stk, pushAll ns acc⟩, .text) := by
  cases hs with
  | nil =>
    rw [sers] at hl
    cases hl
    exact ⟨[], .nil, fun stk acc => by simp [xmlRun, pushAll]⟩
  | cons h hs =>
    rw [sers] at hl
    rw [WFs] at hw
    obtain ⟨t1, t2, rfl, h1, h2⟩ := hl.append
    obtain ⟨n, hi, hr⟩ := ser_run h t1 hw.1 h1
    obtain ⟨ns, his, hrs⟩ := sers_run hs t2 hw.2 h2
    refine ⟨n :: ns, .cons hi his, fun stk acc => ?_⟩
    rw [xmlRun_trans (hr stk acc), hrs]
    cases n <;> simp only [pushAll]
end

/-! ### White space between elements -/

mutual
/-- the tree without ends of lines -/
def HTree.erase : HTree → List Node
  | .nl => []
  | .leaf tag attrs _ s => [.elem tag attrs (textKids s)]
  | .elem tag _ attrs kids => [.elem tag attrs (erases kids)]
  | .void tag attrs _ => [.elem tag attrs []]
def erases : List HTree → List Node
  | [] => []
  | h :: hs => h.erase ++ erases hs
end

theorem erases_append (a b : List HTree) : erases (a ++ b) = erases a ++ erases b := by
  induction a with
  | nil => rfl
  | cons x a ih => simp only [List.cons_append, erases, ih, List.append_assoc]

theorem cleans_append (a b : List Node) : cleans (a ++ b) = cleans a ++ cleans b := by
  induction a with
  | nil => rfl
  | cons x a ih =>
    simp only [List.cons_append, cleans, ih]
    split <;> rfl

theorem addChars_text (s u : Str) (ks : List Node) : addChars s (.text u :: ks) = .text (u ++ s) :: ks := by
  unfold addChars
  induction s generalizing u with
  | nil => simp
  | cons c s ih =>
    rw [List.foldl_cons, addChar, ih]; simp

theorem addChars_nil (s : Str) : addChars s [] = textKids s := by
  cases s with
  | nil => rfl
  | cons c s =>
    show addChars s (addChar c []) = _
    unfold addChar
    rw [addChars_text]
    rfl

/-- texts are white space -/
def BlankTexts (ks : List Node) : Prop := ∀ s, Node.text s ∈ ks → s.all isXmlSpace = true

theorem addChars_blank {w : Str} (hw : w.all isXmlSpace = true) {acc : List Node} (h : BlankTexts acc) :
    BlankTexts (addChars w acc) ∧ cleans (addChars w acc).reverse = cleans acc.reverse := by
  cases w with
  | nil => exact ⟨h, rfl⟩
  | cons c w =>
    cases acc with
    | nil =>
      rw [addChars_nil]
      refine ⟨?_, ?_⟩
      · intro s hs
        simp only [textKids, List.isEmpty_cons, Bool.false_eq_true, if_false, List.mem_singleton, Node.text.injEq] at hs
        rw [hs]; exact hw
      · simp [textKids, cleans, Node.isBlank, hw]
    | cons k ks =>
      cases k with
      | text u =>
        rw [addChars_text]
        have hu := h u (by simp)
        have huw : (u ++ c :: w).all isXmlSpace = true := by rw [List.all_append, hu, hw]; rfl
        refine ⟨?_, ?_⟩
        · intro s hs
          rcases List.mem_cons.1 hs with hs | hs
          · cases hs; exact huw
          · exact h s (List.mem_cons_of_mem _ hs)
        · simp only [List.reverse_cons, cleans_append, cleans, Node.isBlank, huw, hu, if_true]
      | elem tag as kk =>
        show BlankTexts (addChars w (addChar c _)) ∧ cleans (addChars w (addChar c _)).reverse = _
        unfold addChar
        rw [addChars_text]
        refine ⟨?_, ?_⟩
        · intro s hs
          rcases List.mem_cons.1 hs with hs | hs
          · cases hs; exact hw
          · exact h s hs
        · have : (Node.text ([c] ++ w)).isBlank = true := hw
          rw [List.reverse_cons, cleans_append]
          simp only [cleans, this, if_true, List.append_nil]

theorem Gap.all {w : Str} (h : Gap w) : w.all isXmlSpace = true := by
  rw [List.all_eq_true]
  intro c hc
  rcases h c hc with rfl | rfl | rfl <;> decide

mutual
theorem clean_inst {h : HTree} {n : Node} (hw : h.WF) (hi : Inst h n) (acc : List Node) (hb : BlankTexts acc) :
    BlankTexts (pushAll [n] acc) ∧ cleans (pushAll [n] acc).reverse = cleans acc.reverse ++ h.erase := by
  cases hi with
  | @nl w hbl =>
    obtain ⟨h1, h2⟩ := addChars_blank hbl.all hb
    simp only [pushAll, HTree.erase, List.append_nil]
    exact ⟨h1, h2⟩
  | leaf tag attrs esc s =>
    rw [HTree.WF] at hw
    simp only [pushAll, HTree.erase]
    refine ⟨?_, ?_⟩
    · intro u hu
      rcases List.mem_cons.1 hu with hu | hu
      · cases hu
      · exact hb u hu
    · rw [List.reverse_cons, cleans_append, addChars_nil]
      have : (textKids s).reverse = textKids s := by unfold textKids; split <;> rfl
      simp only [cleans, Node.isBlank, Bool.false_eq_true, if_false, Node.clean, hw.2.1, if_true, this]
  | @elem tag q attrs kids ns hi =>
    rw [HTree.WF] at hw
    obtain ⟨h1, h2⟩ := clean_insts hw.2.2 hi [] (fun s hs => by simp at hs)
    simp only [pushAll, HTree.erase]
    refine ⟨?_, ?_⟩
    · intro u hu
      rcases List.mem_cons.1 hu with hu | hu
      · cases hu
      · exact hb u hu
    · rw [List.reverse_cons, cleans_append]
      simp only [cleans, Node.isBlank, Bool.false_eq_true, if_false, Node.clean, hw.2.1, h2, List.reverse_nil, List.nil_append]
  | void tag attrs space =>
    rw [HTree.WF] at hw
    simp only [pushAll, HTree.erase]
    refine ⟨?_, ?_⟩
    · intro u hu
      rcases List.mem_cons.1 hu with hu | hu
      · cases hu
      · exact hb u hu
    · rw [List.reverse_cons, cleans_append]
      simp only [cleans, Node.isBlank, Bool.false_eq_true, if_false, Node.clean, hw.2, List.reverse_nil]
theorem clean_insts {hs : List HTree} {ns : List Node} (hw : WFs hs) (hi : Insts hs ns) (acc : List Node) (hb : BlankTexts acc) :
    BlankTexts (pushAll ns acc) ∧ cleans (pushAll ns acc).reverse = cleans acc.reverse ++ erases hs := by
  cases hi with
  | nil =>
    simp only [pushAll, erases, List.append_nil]
    exact ⟨hb, trivial⟩
  | @cons h n hs ns h1 h2 =>
    rw [WFs] at hw
    obtain ⟨a1, a2⟩ := clean_inst hw.1 h1 acc hb
    obtain ⟨b1, b2⟩ := clean_insts hw.2 h2 _ a1
    have e : pushAll (n :: ns) acc = pushAll ns (pushAll [n] acc) := by cases n <;> simp only [pushAll]
    rw [e, erases]
    refine ⟨b1, ?_⟩
    rw [b2, a2, List.append_assoc]
end

/-! ### Ends of lines in texts -/

theorem eolNorm_cons_ne {c : Char} (h : c ≠ '\r') (s : Str) : eolNorm (c :: s) = c :: eolNorm s := by
  rw [eolNorm]
  · intro s' h1; exact absurd h1 h
  · intro h1; exact absurd h1 h

theorem eolNorm_noCR {s : Str} (h : ∀ c ∈ s, c ≠ '\r') : eolNorm s = s := by
  induction s with
  | nil => rfl
  | cons c s ih => rw [eolNorm_cons_ne (h c (by simp)), ih (fun x hx => h x (List.mem_cons_of_mem _ hx))]

/-- does not end within an end of line -/
def NoCR (s : Str) : Prop := s.getLast? ≠ some '\r'

theorem eolNorm_cr {s : Str} (h : s.head? ≠ some '\n') : eolNorm ('\r' :: s) = '\n' :: eolNorm s := by
  rw [eolNorm]
  rintro s' rfl
  exact h rfl

theorem eolNorm_append {a : Str} (b : Str) (h : NoCR a ∨ b.head? ≠ some '\n') : eolNorm (a ++ b) = eolNorm a ++ eolNorm b := by
  induction a using eolNorm.induct with
  | case1 => rfl
  | case2 s ih =>
    show eolNorm ('\r' :: '\n' :: (s ++ b)) = _
    simp only [eolNorm, List.cons_append]
    rw [ih]
    refine h.imp_left (fun h h2 => h ?_)
    cases s with
    | nil => simp at h2
    | cons x s => simpa [List.getLast?_cons_cons] using h2
  | case3 s hne ih =>
    cases s with
    | nil =>
      rcases h with h | h
      · exact absurd rfl h
      · show eolNorm ('\r' :: b) = _
        rw [eolNorm_cr h]; rfl
    | cons x s =>
      have hx : x ≠ '\n' := fun hx => hne s (by rw [hx])
      have e : ∀ u : Str, eolNorm ('\r' :: x :: u) = '\n' :: eolNorm (x :: u) :=
        fun u => eolNorm_cr (by simpa using hx)
      show eolNorm ('\r' :: x :: (s ++ b)) = _
      rw [e, e, List.cons_append]
      have := ih (h.imp_left (fun h h2 => h (by simpa [List.getLast?_cons_cons] using h2)))
      rw [← this]
      rfl
  | case4 c s h1 h2 ih =>
    by_cases hc : c = '\r'
    · exfalso
      subst hc
      exact h2 rfl
    rw [List.cons_append, eolNorm_cons_ne hc, eolNorm_cons_ne hc, List.cons_append]
    rw [ih]
    refine h.imp_left (fun h h2 => h ?_)
    cases s with
    | nil => simp at h2
    | cons x s => simpa [List.getLast?_cons_cons] using h2

/-- no carriage return, and characters allowed in XML -/
def Plain (s : Str) : Prop := ∀ c ∈ s, c ≠ '\r' ∧ isXmlChar c = true

theorem Plain.append {a b : Str} (ha : Plain a) (hb : Plain b) : Plain (a ++ b) := by
  intro c hc
  rcases List.mem_append.1 hc with h | h
  · exact ha c h
  · exact hb c h

theorem Plain.cons {c : Char} {s : Str} (hc : c ≠ '\r' ∧ isXmlChar c = true) (hs : Plain s) : Plain (c :: s) := by
  intro x hx
  rcases List.mem_cons.1 hx with rfl | h
  · exact hc
  · exact hs x h

theorem Plain.eolNorm {s : Str} (h : Plain s) : Spex.eolNorm s = s := eolNorm_noCR (fun c hc => (h c hc).1)

theorem Plain.noCR {s : Str} (h : Plain s) : NoCR s := by
  intro hl
  exact (h _ (List.mem_of_getLast? hl)).1 rfl

theorem nameChar_plain {c : Char} (h : isNameChar c = true) : c ≠ '\r' ∧ isXmlChar c = true := by
  have : 0x20 ≤ c.toNat ∧ c.toNat < 128 := by
    have key : ∀ lo hi : UInt32, lo ≤ c.val → c.val ≤ hi → 32 ≤ lo.toNat → hi.toNat < 128 → 32 ≤ c.toNat ∧ c.toNat < 128 := by
      intro lo hi h1 h2 h3 h4
      rw [UInt32.le_iff_toNat_le] at h1 h2
      show 32 ≤ c.val.toNat ∧ c.val.toNat < 128
      omega
    simp only [isNameChar, isNameStart, Char.isAlpha, Char.isUpper, Char.isLower, Char.isDigit, Bool.or_eq_true,
      Bool.and_eq_true, decide_eq_true_eq, beq_iff_eq, ge_iff_le] at h
    rcases h with (((((h | h) | h) | h) | h) | h) | h
    · exact key _ _ h.1 h.2 (by decide) (by decide)
    · exact key _ _ h.1 h.2 (by decide) (by decide)
    · subst h; decide
    · subst h; decide
    · exact key _ _ h.1 h.2 (by decide) (by decide)
    · subst h; decide
    · subst h; decide
  refine ⟨?_, ?_⟩
  · rintro rfl
    have := this.1
    revert this
    decide
  · simp only [isXmlChar, Bool.or_eq_true, Bool.and_eq_true, decide_eq_true_eq, bne_iff_ne, ne_eq]
    right
    omega

theorem IsName.plain {s : Str} (h : IsName s) : Plain s := fun c hc => nameChar_plain (h.chars c hc)

theorem SafeValue.plain {q : Char} {s : Str} (h : SafeValue q s) : Plain s := by
  intro c hc
  obtain ⟨-, -, -, h4, h5⟩ := h c hc
  refine ⟨?_, h5⟩
  rintro rfl
  revert h4
  decide

theorem SafeText.plain {s : Str} (h : SafeText s) : Plain s := fun c hc => ⟨(h c hc).2.2.2.1, (h c hc).2.2.2.2⟩

theorem attrStr_plain {q : Char} {a : Str × Str} (hq : q = '"' ∨ q = '\'') (hn : IsName a.1) (hv : SafeValue q a.2) :
    Plain (attrStr q a) := by
  have hq' : q ≠ '\r' ∧ isXmlChar q = true := by rcases hq with rfl | rfl <;> decide
  exact .append (.append (.cons (by decide) hn.plain) (.cons (by decide) (.cons hq' hv.plain)))
    (.cons hq' (fun c hc => by simp at hc))

theorem attrs_plain {q : Char} {as : List (Str × Str)} (hq : q = '"' ∨ q = '\'')
    (h : ∀ a ∈ as, IsName a.1 ∧ SafeValue q a.2) : Plain (as.flatMap (attrStr q)) := by
  intro c hc
  obtain ⟨a, ha, hc⟩ := List.mem_flatMap.1 hc
  exact attrStr_plain hq (h a ha).1 (h a ha).2 c hc

theorem SafeTag.plain {tag : Str} {q : Char} {attrs : List (Str × Str)} (h : SafeTag tag q attrs) : Plain (tagStr tag q attrs) :=
  .append (.append (.cons (by decide) h.name.plain) (attrs_plain h.quote h.vals)) (.cons (by decide) (fun c hc => by simp at hc))

theorem endTag_plain {tag : Str} (h : IsName tag) : Plain (endTag tag) :=
  .append (.append (.cons (by decide) (.cons (by decide) (fun c hc => by simp at hc))) h.plain)
    (.cons (by decide) (fun c hc => by simp at hc))

theorem escapeChar_plain {c : Char} (h : c ≠ '\r') : ∀ x ∈ escapeChar c, x ≠ '\r' := by
  unfold escapeChar
  repeat' split
  all_goals first | decide | (intro x hx; rw [List.mem_singleton.1 hx]; exact h)

theorem escapeChar_xml {c : Char} (h : isXmlChar c = true) : ∀ x ∈ escapeChar c, isXmlChar x = true := by
  unfold escapeChar
  repeat' split
  all_goals first | decide | (intro x hx; rw [List.mem_singleton.1 hx]; exact h)

theorem escape_xml {s : Str} (h : ∀ c ∈ s, isXmlChar c = true) : ∀ c ∈ htmlEscape s, isXmlChar c = true := by
  intro x hx
  obtain ⟨c, hc, hx⟩ := List.mem_flatMap.1 hx
  exact escapeChar_xml (h c hc) x hx

theorem htmlEscape_cons (c : Char) (s : Str) : htmlEscape (c :: s) = escapeChar c ++ htmlEscape s := by
  simp [htmlEscape]

theorem eolNorm_escape (s : Str) : eolNorm (htmlEscape s) = htmlEscape (eolNorm s) := by
  induction s using eolNorm.induct with
  | case1 => rfl
  | case2 s ih =>
    simp only [eolNorm, htmlEscape_cons]
    show eolNorm ('\r' :: '\n' :: htmlEscape s) = '\n' :: htmlEscape (eolNorm s)
    simp only [eolNorm, ih]
  | case3 s hne ih =>
    have e : eolNorm ('\r' :: s) = '\n' :: eolNorm s := by rw [eolNorm]; exact hne
    rw [e, htmlEscape_cons, htmlEscape_cons]
    show eolNorm ('\r' :: htmlEscape s) = '\n' :: htmlEscape (eolNorm s)
    rw [← ih]
    apply eolNorm_cr
    cases s with
    | nil => simp [htmlEscape]
    | cons x s =>
      have hx : x ≠ '\n' := fun hx => hne s (by rw [hx])
      rw [htmlEscape_cons]
      unfold escapeChar
      repeat' split
      all_goals first | (simp; done) | simpa using hx
  | case4 c s h1 h2 ih =>
    have hc : c ≠ '\r' := by
      rintro rfl
      exact h2 rfl
    rw [eolNorm_cons_ne hc, htmlEscape_cons, htmlEscape_cons, ← ih]
    rw [eolNorm_append _ (.inl _), eolNorm_noCR (escapeChar_plain hc)]
    intro hl
    exact escapeChar_plain hc _ (List.mem_of_getLast? hl) rfl

mutual
/-- ends of lines in texts as XML reads them -/
def HTree.norm : HTree → HTree
  | .nl => .nl
  | .leaf tag attrs esc s => .leaf tag attrs esc (eolNorm s)
  | .elem tag q attrs kids => .elem tag q attrs (norms kids)
  | .void tag attrs space => .void tag attrs space
def norms : List HTree → List HTree
  | [] => []
  | h :: hs => h.norm :: norms hs
end

theorem eolNorm_xml {s : Str} (h : ∀ c ∈ s, isXmlChar c = true) : ∀ c ∈ eolNorm s, isXmlChar c = true := by
  induction s using eolNorm.induct with
  | case1 => exact h
  | case2 s ih =>
    simp only [eolNorm]
    intro x hx
    rcases List.mem_cons.1 hx with rfl | hx
    · decide
    · exact ih (fun y hy => h y (by simp [hy])) x hx
  | case3 s hne ih =>
    have e : eolNorm ('\r' :: s) = '\n' :: eolNorm s := by rw [eolNorm]; exact hne
    rw [e]
    intro x hx
    rcases List.mem_cons.1 hx with rfl | hx
    · decide
    · exact ih (fun y hy => h y (by simp [hy])) x hx
  | case4 c s h1 h2 ih =>
    have hc : c ≠ '\r' := by
      rintro rfl
      exact h2 rfl
    rw [eolNorm_cons_ne hc]
    intro x hx
    rcases List.mem_cons.1 hx with rfl | hx
    · exact h x (by simp)
    · exact ih (fun y hy => h y (by simp [hy])) x hx

theorem LaidC.of_str (s : Str) : LaidC (s.map some) s := by
  have := LaidC.strs (s := s) LaidC.nil
  simpa using this

theorem LaidC.concat {a b : List (Option Char)} {t u : Str} (h : LaidC a t) (h' : LaidC b u) : LaidC (a ++ b) (t ++ u) := by
  induction h with
  | nil => exact h'
  | chr _ ih => exact .chr ih
  | nl hw _ ih => rw [List.append_assoc]; exact .nl hw ih

theorem leaf_norm {esc : Bool} {s : Str} (h : SafeLeaf esc s) :
    eolNorm (leafStr esc s) = leafStr esc (eolNorm s) ∧ (∀ c ∈ leafStr esc s, isXmlChar c = true) := by
  unfold SafeLeaf at h
  unfold leafStr
  cases esc with
  | true => exact ⟨eolNorm_escape s, escape_xml h⟩
  | false => exact ⟨rfl, fun c hc => (h c hc).2.2.2.2⟩

/-- what is read from a text: its normal form, in which further text does not matter, and whether its characters are allowed -/
structure Reads (t : Str) : Prop where
  last : NoCR t
  xml : ∀ c ∈ t, isXmlChar c = true

theorem NoCR.append {a b : Str} (ha : NoCR a) (hb : NoCR b) : NoCR (a ++ b) := by
  unfold NoCR at *
  rw [List.getLast?_append]
  cases h : b.getLast? with
  | none => simpa using ha
  | some x => rw [h] at hb; simpa using hb

theorem Plain.reads {t : Str} (h : Plain t) : Reads t := ⟨h.noCR, fun c hc => (h c hc).2⟩

theorem Reads.append {a b : Str} (ha : Reads a) (hb : Reads b) : Reads (a ++ b) := by
  refine ⟨ha.last.append hb.last, fun c hc => ?_⟩
  rcases List.mem_append.1 hc with h | h
  · exact ha.xml c h
  · exact hb.xml c h

mutual
theorem ser_norm (h : HTree) (t : Str) (hw : h.WF) (hl : LaidC h.ser t) : LaidC h.norm.ser (eolNorm t) ∧ Reads t := by
  cases h with
  | nl =>
    rw [HTree.ser] at hl
    have hb := hl.nl_eq
    have hp := hb.safe.plain
    refine ⟨?_, hp.reads⟩
    rw [hp.eolNorm, HTree.norm, HTree.ser]
    have := LaidC.nl hb LaidC.nil
    simpa using this
  | leaf tag attrs esc s =>
    rw [HTree.ser] at hl
    rw [HTree.WF] at hw
    obtain ⟨e1, e2⟩ := leaf_norm hw.2.2
    have p1 := hw.1.plain
    have p2 := endTag_plain hw.1.name
    rw [hl.str_eq, HTree.norm, HTree.ser]
    have hne : (endTag tag).head? ≠ some '\n' := by simp [endTag]
    refine ⟨?_, ?_, ?_⟩
    · rw [List.append_assoc (tagStr tag '"' attrs) (leafStr esc s), eolNorm_append _ (.inl p1.noCR), eolNorm_append _ (.inr hne), p1.eolNorm, p2.eolNorm, e1,
        ← List.append_assoc]
      exact .of_str _
    · have : (tagStr tag '"' attrs ++ leafStr esc s ++ endTag tag).getLast? = some '>' := by
        unfold endTag; rw [← List.append_assoc, List.getLast?_append]; rfl
      unfold NoCR
      rw [this]
      decide
    · intro c hc
      rcases List.mem_append.1 hc with hc | hc
      · rcases List.mem_append.1 hc with hc | hc
        · exact (p1 c hc).2
        · exact e2 c hc
      · exact (p2 c hc).2
  | elem tag q attrs kids =>
    rw [HTree.ser] at hl
    rw [HTree.WF] at hw
    obtain ⟨ht, -, hk⟩ := hw
    obtain ⟨t1, t2, rfl, h1, h2⟩ := hl.append
    obtain ⟨t3, rfl, h3⟩ := h1.str_append
    obtain ⟨hi, hr⟩ := sers_norm kids t3 hk h3
    have p1 := ht.plain
    have p2 := endTag_plain ht.name
    rw [h2.str_eq, HTree.norm, HTree.ser]
    refine ⟨?_, (p1.reads.append hr).append p2.reads⟩
    rw [eolNorm_append _ (.inl (p1.reads.append hr).last), eolNorm_append _ (.inl p1.noCR), p1.eolNorm, p2.eolNorm]
    exact ((LaidC.of_str _).concat hi).concat (.of_str _)
  | void tag attrs space =>
    rw [HTree.ser] at hl
    rw [HTree.WF] at hw
    have p : Plain ('<' :: tag ++ attrs.flatMap (attrStr '"') ++ (if space then c!" />" else c!"/>")) := by
      refine .append (.append (.cons (by decide) hw.1.name.plain) (attrs_plain hw.1.quote hw.1.vals)) ?_
      cases space
      · intro c hc; revert c; decide
      · intro c hc; revert c; decide
    rw [hl.str_eq, HTree.norm, HTree.ser, p.eolNorm]
    exact ⟨.of_str _, p.reads⟩
theorem sers_norm (hs : List HTree) (t : Str) (hw : WFs hs) (hl : LaidC (sers hs) t) :
    LaidC (sers (norms hs)) (eolNorm t) ∧ Reads t := by
  cases hs with
  | nil =>
    rw [sers] at hl
    cases hl
    exact ⟨.nil, by simp [NoCR], by simp⟩
  | cons h hs =>
    rw [sers] at hl
    rw [WFs] at hw
    obtain ⟨t1, t2, rfl, h1, h2⟩ := hl.append
    obtain ⟨a1, a2⟩ := ser_norm h t1 hw.1 h1
    obtain ⟨b1, b2⟩ := sers_norm hs t2 hw.2 h2
    rw [norms, sers, eolNorm_append _ (.inl a2.last)]
    exact ⟨a1.concat b1, a2.append b2⟩
end

mutual
theorem norm_WF (h : HTree) (hw : h.WF) : h.norm.WF := by
  cases h with
  | nl => rw [HTree.norm, HTree.WF]; trivial
  | leaf tag attrs esc s =>
    rw [HTree.WF] at hw
    rw [HTree.norm, HTree.WF]
    refine ⟨hw.1, hw.2.1, ?_⟩
    have h3 := hw.2.2
    unfold SafeLeaf at h3 ⊢
    cases esc with
    | true => exact eolNorm_xml h3
    | false =>
      simp only [Bool.false_eq_true, if_false] at h3 ⊢
      rw [h3.plain.eolNorm]
      exact h3
  | elem tag q attrs kids =>
    rw [HTree.WF] at hw
    rw [HTree.norm, HTree.WF]
    exact ⟨hw.1, hw.2.1, norms_WF kids hw.2.2⟩
  | void tag attrs space => rw [HTree.norm]; exact hw
theorem norms_WF (hs : List HTree) (hw : WFs hs) : WFs (norms hs) := by
  cases hs with
  | nil => rw [norms, WFs]; trivial
  | cons h hs =>
    rw [WFs] at hw
    rw [norms, WFs]
    exact ⟨norm_WF h hw.1, norms_WF hs hw.2⟩
end

end Spex
