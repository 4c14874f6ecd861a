import Verif.Lemmas.PageRead
/-
White space in a page that has been read: inside a paragraph or an item of a list there is none but before and after the elements.
-/
set_option autoImplicit false
namespace Spex

/-- a text at most -/
def TextOpt (ks : List Node) : Prop := ks = [] ∨ ∃ w, ks = [.text w]

/-- elements, with texts before and after them at most -/
def Framed (ks : List Node) : Prop := ∃ a ls b, ks = a ++ ls ++ b ∧ TextOpt a ∧ (∀ l ∈ ls, l.isElem = true) ∧ TextOpt b

mutual
/-- inside paragraphs and items of lists only the first and the last child may be texts -/
def Node.Tight : Node → Prop
  | .text _ => True
  | .elem tag _ ks => (tag = c!"p" ∨ tag = c!"li" → Framed ks) ∧ Tights ks
def Tights : List Node → Prop
  | [] => True
  | k :: ks => k.Tight ∧ Tights ks
end

theorem tights_iff (ks : List Node) : Tights ks ↔ ∀ k ∈ ks, k.Tight := by
  induction ks with
  | nil => simp [Tights]
  | cons k ks ih => rw [Tights, ih, List.forall_mem_cons]

/-- an element which holds text -/
def HTree.isLeaf : HTree → Bool
  | .leaf .. => true
  | _ => false

/-- how the trees in a paragraph or an item of a list end -/
def TailOpt (tl : List HTree) : Prop := tl = [] ∨ tl = [.nl] ∨ ∃ t q as ks, tl = [.elem t q as ks, .nl]

mutual
/-- paragraphs and items of lists hold an end of line, then elements with text, then possibly another element and an end of line -/
def HTree.Tight : HTree → Prop
  | .nl => True
  | .leaf .. => True
  | .elem tag _ _ kids => (tag = c!"p" ∨ tag = c!"li" → ∃ ls tl, kids = .nl :: (ls ++ tl) ∧ (∀ l ∈ ls, l.isLeaf = true) ∧ TailOpt tl) ∧ HTights kids
  | .void .. => True
def HTights : List HTree → Prop
  | [] => True
  | h :: hs => h.Tight ∧ HTights hs
end

theorem htights_append {a b : List HTree} : HTights (a ++ b) ↔ HTights a ∧ HTights b := by
  induction a with
  | nil => simp [HTights]
  | cons x a ih => simp [HTights, ih, and_assoc]

theorem norms_leaf {hs : List HTree} (h : ∀ l ∈ hs, l.isLeaf = true) : ∀ l ∈ norms hs, l.isLeaf = true := by
  induction hs with
  | nil => intro l hl; rw [norms] at hl; cases hl
  | cons x hs ih =>
    intro l hl
    rw [norms] at hl
    rcases List.mem_cons.1 hl with rfl | hl
    · have := h x List.mem_cons_self
      cases x <;> first | rfl | exact absurd this (by simp [HTree.isLeaf])
    · exact ih (fun l hl => h l (List.mem_cons_of_mem _ hl)) l hl

mutual
theorem norm_tight {h : HTree} (ht : h.Tight) : h.norm.Tight := by
  cases h with
  | nl => rw [HTree.norm, HTree.Tight]; trivial
  | leaf tag attrs esc s => rw [HTree.norm, HTree.Tight]; trivial
  | void tag attrs s => rw [HTree.norm, HTree.Tight]; trivial
  | elem tag q attrs kids =>
    rw [HTree.Tight] at ht
    rw [HTree.norm, HTree.Tight]
    refine ⟨fun he => ?_, norms_tight ht.2⟩
    obtain ⟨ls, tl, rfl, hl, htl⟩ := ht.1 he
    refine ⟨norms ls, norms tl, by rw [norms, HTree.norm, norms_append], norms_leaf hl, ?_⟩
    rcases htl with rfl | rfl | ⟨t, q, as, ks, rfl⟩
    · exact .inl (by rw [norms])
    · exact .inr (.inl (by rw [norms, norms, HTree.norm]))
    · exact .inr (.inr ⟨t, q, _, _, by rw [norms, norms, norms, HTree.norm, HTree.norm]⟩)
theorem norms_tight {hs : List HTree} (ht : HTights hs) : HTights (norms hs) := by
  cases hs with
  | nil => rw [norms, HTights]; trivial
  | cons h hs =>
    rw [HTights] at ht
    rw [norms, HTights]
    exact ⟨norm_tight ht.1, norms_tight ht.2⟩
end

theorem addChars_tight (s : Str) {acc : List Node} (h : Tights acc) : Tights (addChars s acc) := by
  unfold addChars
  induction s generalizing acc with
  | nil => exact h
  | cons c s ih =>
    rw [List.foldl_cons]
    refine ih ?_
    cases acc with
    | nil => simp [addChar, Tights, Node.Tight]
    | cons k ks =>
      rw [Tights] at h
      cases k with
      | text u => rw [addChar, Tights, Node.Tight]; exact ⟨trivial, h.2⟩
      | elem t as kk => simp only [addChar]; rw [Tights, Node.Tight, Tights]; exact ⟨trivial, h⟩

theorem tights_reverse {ks : List Node} (h : Tights ks) : Tights ks.reverse := by
  rw [tights_iff] at h ⊢
  exact fun k hk => h k (List.mem_reverse.1 hk)

theorem pushAll_leaves {hs : List HTree} {ns : List Node} (hi : Insts hs ns) (hl : ∀ l ∈ hs, l.isLeaf = true) :
    ∀ acc, ∃ es, pushAll ns acc = es ++ acc ∧ ∀ e ∈ es, e.isElem = true := by
  induction hs generalizing ns with
  | nil => cases hi; intro acc; exact ⟨[], by rw [pushAll]; rfl, fun e he => by cases he⟩
  | cons h hs ih =>
    intro acc
    cases hi with
    | cons h1 h2 =>
      have := hl h List.mem_cons_self
      cases h1 with
      | nl h => exact absurd this (by simp [HTree.isLeaf])
      | elem tag q attrs h => exact absurd this (by simp [HTree.isLeaf])
      | void tag attrs s => exact absurd this (by simp [HTree.isLeaf])
      | leaf tag attrs esc s =>
        obtain ⟨es, h3, h4⟩ := ih h2 (fun l hl' => hl l (List.mem_cons_of_mem _ hl')) (.elem tag attrs (pushAll [.text s] []).reverse :: acc)
        refine ⟨es ++ [.elem tag attrs (pushAll [.text s] []).reverse], by rw [pushAll.eq_def]; simp only; rw [h3]; simp, ?_⟩
        intro e he
        rcases List.mem_append.1 he with he | he
        · exact h4 e he
        · rw [List.mem_singleton.1 he]; rfl

theorem addChars_frame (w : Str) {es a : List Node} (he : ∀ e ∈ es, e.isElem = true) (ha : TextOpt a) :
    ∃ b a', addChars w (es ++ a) = b ++ es ++ a' ∧ TextOpt b ∧ TextOpt a' := by
  cases es with
  | nil =>
    rcases ha with rfl | ⟨u, rfl⟩
    · refine ⟨textKids w, [], by rw [List.append_nil, addChars_nil]; simp, ?_, .inl rfl⟩
      cases w with
      | nil => exact .inl rfl
      | cons c w => exact .inr ⟨_, rfl⟩
    · exact ⟨[], [.text (u ++ w)], by rw [List.nil_append, addChars_text]; rfl, .inl rfl, .inr ⟨_, rfl⟩⟩
  | cons e es =>
    cases e with
    | text s => exact absurd (he _ List.mem_cons_self) (by simp [Node.isElem])
    | elem t as ks =>
      cases w with
      | nil => exact ⟨[], a, rfl, .inl rfl, ha⟩
      | cons c w =>
        refine ⟨[.text (c :: w)], a, ?_, .inr ⟨_, rfl⟩, ha⟩
        show addChars w (addChar c _) = _
        simp only [List.cons_append, addChar, addChars_text]
        rfl

theorem framed_reverse {b es a : List Node} (hb : TextOpt b) (he : ∀ e ∈ es, e.isElem = true) (ha : TextOpt a) : Framed (b ++ es ++ a).reverse := by
  have rev : ∀ {x : List Node}, TextOpt x → TextOpt x.reverse := by
    rintro x (rfl | ⟨w, rfl⟩)
    · exact .inl rfl
    · exact .inr ⟨w, rfl⟩
  exact ⟨a.reverse, es.reverse, b.reverse, by simp, rev ha, fun e h => he e (List.mem_reverse.1 h), rev hb⟩

theorem Insts.split {a b : List HTree} {ns : List Node} (h : Insts (a ++ b) ns) : ∃ x y, ns = x ++ y ∧ Insts a x ∧ Insts b y := by
  induction a generalizing ns with
  | nil => exact ⟨[], ns, rfl, .nil, h⟩
  | cons t a ih =>
    cases h with
    | cons h1 h2 =>
      obtain ⟨x, y, rfl, g1, g2⟩ := ih h2
      exact ⟨_ :: x, y, rfl, .cons h1 g1, g2⟩

theorem pushAll_append (x y : List Node) (acc : List Node) : pushAll (x ++ y) acc = pushAll y (pushAll x acc) := by
  induction x generalizing acc with
  | nil => rw [List.nil_append, pushAll]
  | cons n x ih =>
    cases n with
    | text s => rw [List.cons_append, pushAll, pushAll, ih]
    | elem t as ks => rw [List.cons_append, pushAll.eq_def]; simp only; rw [ih]; conv => rhs; rw [pushAll.eq_def (.elem t as ks :: x)]

theorem kids_framed {ls tl : List HTree} {ns : List Node} (hi : Insts (.nl :: (ls ++ tl)) ns) (hl : ∀ l ∈ ls, l.isLeaf = true)
    (ht : TailOpt tl) : Framed (pushAll ns []).reverse := by
  cases hi with
  | cons h1 h2 =>
    cases h1 with
    | @nl w hb =>
      obtain ⟨x, y, rfl, g1, g2⟩ := h2.split
      rw [pushAll, pushAll_append]
      have ha : TextOpt (addChars w []) := by
        rw [addChars_nil]
        cases w with
        | nil => exact .inl rfl
        | cons c w => exact .inr ⟨_, rfl⟩
      generalize addChars w [] = a at ha
      obtain ⟨es, e1, he⟩ := pushAll_leaves g1 hl a
      rw [e1]
      rcases ht with rfl | rfl | ⟨t, q, as, ks, rfl⟩
      · cases g2
        rw [pushAll]
        exact framed_reverse (b := []) (.inl rfl) he ha
      · cases g2 with
        | cons k1 k2 =>
          cases k2
          cases k1 with
          | @nl w' hb' =>
            rw [pushAll, pushAll]
            obtain ⟨b, a', e, h3, h4⟩ := addChars_frame w' he ha
            rw [e]
            exact framed_reverse h3 he h4
      · cases g2 with
        | cons k1 k2 =>
          cases k2 with
          | cons k3 k4 =>
            cases k4
            cases k1 with
            | @elem _ _ _ _ ms h =>
              cases k3 with
              | @nl w' hb' =>
                simp only [pushAll]
                have he' : ∀ e ∈ (Node.elem t as (pushAll ms []).reverse :: es), e.isElem = true := by
                  intro e h
                  rcases List.mem_cons.1 h with rfl | h
                  · rfl
                  · exact he e h
                rw [← List.cons_append]
                obtain ⟨b, a', e, h3, h4⟩ := addChars_frame w' he' ha
                rw [e]
                exact framed_reverse h3 he' h4

mutual
theorem inst_tight {h : HTree} {n : Node} (hi : Inst h n) (ht : h.Tight) {acc : List Node} (ha : Tights acc) : Tights (pushAll [n] acc) := by
  cases hi with
  | nl hb => simp only [pushAll]; exact addChars_tight _ ha
  | leaf tag attrs esc s =>
    simp only [pushAll, Tights, Node.Tight]
    refine ⟨⟨fun _ => ?_, ?_⟩, ha⟩
    · rw [addChars_nil]
      cases s with
      | nil => exact ⟨[], [], [], rfl, .inl rfl, by simp, .inl rfl⟩
      | cons c s => exact ⟨[.text (c :: s)], [], [], rfl, .inr ⟨_, rfl⟩, by simp, .inl rfl⟩
    · exact tights_reverse (addChars_tight s (by rw [Tights]; trivial))
  | @elem tag q attrs kids ns hi =>
    rw [HTree.Tight] at ht
    simp only [pushAll, Tights, Node.Tight]
    refine ⟨⟨fun he => ?_, tights_reverse (insts_tight hi ht.2 (by rw [Tights]; trivial))⟩, ha⟩
    obtain ⟨ls, tl, rfl, hl, htl⟩ := ht.1 he
    exact kids_framed hi hl htl
  | void tag attrs s =>
    simp only [pushAll, Tights, Node.Tight, List.reverse_nil]
    exact ⟨⟨fun _ => ⟨[], [], [], rfl, .inl rfl, by simp, .inl rfl⟩, trivial⟩, ha⟩
theorem insts_tight {hs : List HTree} {ns : List Node} (hi : Insts hs ns) (ht : HTights hs) {acc : List Node} (ha : Tights acc) :
    Tights (pushAll ns acc) := by
  cases hi with
  | nil => rw [pushAll]; exact ha
  | @cons h n hs ns h1 h2 =>
    rw [HTights] at ht
    have e : pushAll (n :: ns) acc = pushAll ns (pushAll [n] acc) := by cases n <;> simp only [pushAll]
    rw [e]
    exact insts_tight h2 ht.2 (inst_tight h1 ht.1 ha)
end

theorem root_mem {t : Tree} {n : Node} (h : t.root = some n) : n ∈ t.kids := by
  unfold Tree.root at h
  split at h
  · split at h
    · rename_i hf
      cases h
      exact (List.mem_filter.1 (hf ▸ List.mem_singleton.2 rfl : _ ∈ t.kids.filter (fun k => !k.isBlank))).1
    · cases h
  · cases h

theorem tree_tight {T : List HTree} {t : Str} {n : Node} (hw : WFs T) (ht : HTights T) (hl : LaidC (docType ++ sers T) t)
    (hn : readXml t = some n) : n.Tight := by
  obtain ⟨t1, t2, rfl, h1, h2⟩ := hl.append
  unfold docType at h1
  obtain ⟨t3, rfl, h3⟩ := h1.str_append
  have hb := h3.nl_eq
  obtain ⟨g1, g2⟩ := sers_norm T t2 hw h2
  have hp : Plain (c!"<!DOCTYPE html>" ++ t3) := by
    intro c hc
    rcases List.mem_append.1 hc with hc | hc
    · exact (by decide : ∀ c ∈ c!"<!DOCTYPE html>", c ≠ '\r' ∧ isXmlChar c = true) c hc
    · exact hb.safe.plain c hc
  have hall : (c!"<!DOCTYPE html>" ++ t3 ++ t2).all isXmlChar = true := by
    rw [List.all_eq_true]
    exact (hp.reads.append g2).xml
  unfold readXml at hn
  rw [if_pos hall, eolNorm_append _ (.inl hp.noCR), eolNorm_noCR (fun c hc => (hp c hc).1)] at hn
  obtain ⟨ns, hi, hr⟩ := sers_run (norms T) _ (norms_WF T hw) g1
  have hd : xmlRun (⟨[], []⟩, .text) (c!"<!DOCTYPE html>") = some (⟨[], []⟩, .text) := rfl
  have hs : SafeText t3 := hb.safe
  rw [List.append_assoc, xmlRun_trans hd, xmlRun_trans (run_raw _ _ hs), hr] at hn
  have hk := insts_tight hi (norms_tight ht) (addChars_tight t3 (acc := []) (by rw [Tights]; trivial))
  exact (tights_iff _).1 hk n (root_mem hn)

/-! ### The trees of a page -/

theorem htights_spans (cls : Classes) (ss : List HSpan) : HTights (ss.map (spanT cls)) ∧ ∀ l ∈ ss.map (spanT cls), l.isLeaf = true := by
  constructor
  · induction ss with
    | nil => rw [List.map_nil, HTights]; trivial
    | cons s ss ih => rw [List.map_cons, HTights, spanT, HTree.Tight]; exact ⟨trivial, ih⟩
  · intro l hl
    obtain ⟨s, -, rfl⟩ := List.mem_map.1 hl
    rfl

theorem htights_elem {tag : Str} {q : Char} {as : List (Str × Str)} {ks : List HTree} (ht : tag ≠ c!"p" ∧ tag ≠ c!"li") (hk : HTights ks) :
    HTights [.elem tag q as (.nl :: ks), .nl] := by
  simp only [HTights, HTree.Tight, true_and, and_true]
  exact ⟨fun h => h.elim (fun h => absurd h ht.1) (fun h => absurd h ht.2), hk⟩

theorem htights_list {ns : List HTree} (l : NumLvl) (h : HTights ns) : HTights (listT l ns) := by
  refine htights_elem ?_ h
  unfold NumLvl.tag
  split <;> decide

/-- a pending item: elements with text -/
def PendTight (p : Option (List HTree)) : Prop := ∀ ns, p = some ns → HTights ns ∧ ∀ l ∈ ns, l.isLeaf = true

theorem htights_li {ls ns : List HTree} (h : HTights ls) (hl : ∀ l ∈ ls, l.isLeaf = true) (hn : ns = [.nl] ∨ ∃ p es, ns = listT p es) (h' : HTights ns) :
    HTights (liT (ls ++ ns)) := by
  unfold liT
  simp only [HTights, HTree.Tight, true_and, and_true]
  refine ⟨fun _ => ⟨ls, ns, rfl, hl, ?_⟩, htights_append.2 ⟨h, h'⟩⟩
  rcases hn with rfl | ⟨p, es, rfl⟩
  · exact .inr (.inl rfl)
  · exact .inr (.inr ⟨_, _, _, _, rfl⟩)

theorem htights_pend {p : Option (List HTree)} (h : PendTight p) : HTights ((p.map liT0).getD []) ∧ HTights (p.getD []) ∧ ∀ l ∈ p.getD [], l.isLeaf = true := by
  cases p with
  | none => exact ⟨trivial, trivial, by simp⟩
  | some ns =>
    refine ⟨?_, h ns rfl⟩
    exact htights_li (h ns rfl).1 (h ns rfl).2 (.inl rfl) (by simp [HTights, HTree.Tight])

mutual
theorem tight_item (cls : Classes) (e : HItem) (p : Option (List HTree)) (hp : PendTight p) :
    HTights (itemT cls p e).1 ∧ PendTight (itemT cls p e).2 := by
  cases e with
  | item spans =>
    rw [itemT]
    refine ⟨(htights_pend hp).1, fun ns h => ?_⟩
    cases h
    exact htights_spans cls spans
  | list props elems =>
    rw [itemT]
    exact ⟨htights_li (htights_pend hp).2.1 (htights_pend hp).2.2 (.inr ⟨_, _, rfl⟩)
      (htights_list props (tight_items cls elems none (fun ns h => by cases h))), fun ns h => by cases h⟩
theorem tight_items (cls : Classes) (es : List HItem) (p : Option (List HTree)) (hp : PendTight p) : HTights (itemsT cls p es) := by
  cases es with
  | nil => rw [itemsT]; exact (htights_pend hp).1
  | cons e es =>
    obtain ⟨h1, h2⟩ := tight_item cls e p hp
    rw [itemsT, htights_append]
    exact ⟨h1, tight_items cls es _ h2⟩
end

mutual
theorem tight_unit (cls : Classes) (u : HUnit) (hu : u.Ok) : HTights (unitT cls u) := by
  cases u with
  | para spans =>
    obtain ⟨h1, h2⟩ := htights_spans cls spans
    simp only [unitT, HTights, HTree.Tight, true_and, and_true]
    exact ⟨fun _ => ⟨_, [.nl], rfl, h2, .inr (.inl rfl)⟩, htights_append.2 ⟨h1, by simp [HTights, HTree.Tight]⟩⟩
  | list props elems => rw [unitT]; exact htights_list props (tight_items cls elems none (fun ns h => by cases h))
  | table src id rows =>
    rw [HUnit.Ok] at hu
    rw [unitT]; exact htights_elem (by decide) (tight_rows cls 0 rows hu.2)
theorem tight_units (cls : Classes) (us : List HUnit) (hu : unitsOk us) : HTights (unitsT cls us) := by
  cases us with
  | nil => rw [unitsT, HTights]; trivial
  | cons u us =>
    rw [unitsOk] at hu
    rw [unitsT, htights_append]
    exact ⟨tight_unit cls u hu.1, tight_units cls us hu.2⟩
theorem tight_rows (cls : Classes) (r : Nat) (rows : List (List HCell)) (h : rowsOk rows) : HTights (rowsT cls r rows) := by
  cases rows with
  | nil => rw [rowsT, HTights]; trivial
  | cons row rows =>
    rw [rowsOk] at h
    rw [rowsT, ← List.singleton_append, ← List.singleton_append (l := rowsT _ _ _), ← List.append_assoc, htights_append]
    exact ⟨htights_elem (by decide) (tight_cells cls r 0 row h.1), tight_rows cls (r + 1) rows h.2⟩
theorem tight_cells (cls : Classes) (r c : Nat) (cells : List HCell) (h : cellsOk cells) : HTights (cellsT cls r c cells) := by
  match cells with
  | [] => rw [cellsT, HTights]; trivial
  | .mk tag elems colspan rowspan left top fill :: cells =>
    rw [cellsOk] at h
    rw [cellsT]
    split
    · rw [← List.singleton_append, ← List.singleton_append (l := cellsT _ _ _ _), ← List.append_assoc, htights_append]
      refine ⟨?_, tight_cells cls r (c + 1) cells h.2.2⟩
      simp only [List.singleton_append, HTights, HTree.Tight, true_and, and_true]
      refine ⟨fun he => absurd he ?_, tight_units cls elems h.2.1⟩
      rcases h.1 with rfl | rfl <;> decide
    · exact tight_cells cls r (c + 1) cells h.2.2
end

theorem tight_page (version title : Str) (revision : Option Str) (fname : Str) {body : List HTree} (h : HTights body) :
    HTights (pageT version title revision fname body) := by
  simp only [pageT, HTights, HTree.Tight, true_and, and_true]
  exact ⟨fun h => absurd h (by decide), fun h => absurd h (by decide), fun h => absurd h (by decide), h⟩

theorem page_tight {version title fname : Str} {revision : Option Str} {us : List HUnit} (h1 : HeadText version) (h2 : HeadText title)
    (h3 : ∀ r, revision = some r → HeadText r) (h4 : HeadText fname) (hu : unitsOk us) {t : Str}
    (hl : Laid (renderPage version title revision fname us).1 t) {n : Node} (hn : readXml t = some n) : n.Tight := by
  obtain ⟨ho, hc⟩ := renderPage_spec version title revision fname us
  have hl' := hl.chars
  rw [hc] at hl'
  exact tree_tight (WF_page h1 h2 h3 h4 (WF_units (classesOf_ok ho) us hu)) (tight_page _ _ _ _ (tight_units _ us hu)) hl' hn

end Spex
