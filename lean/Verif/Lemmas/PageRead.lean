import Verif.Lemmas.PageOk
/-
A page is read back.
-/
set_option autoImplicit false
namespace Spex

theorem cleans_eq (l : List Node) : cleans l = (l.filter (fun k => !k.isBlank)).map Node.clean := by
  induction l with
  | nil => rfl
  | cons k l ih =>
    rw [cleans]
    by_cases h : k.isBlank = true
    · rw [if_pos h, ih, List.filter_cons_of_neg (by simp [h])]
    · rw [if_neg h, ih, List.filter_cons_of_pos (by simpa using h)]
      rfl

theorem clean_elem {n : Node} {tag : Str} {as : List (Str × Str)} {ks : List Node} (h : n.clean = .elem tag as ks) :
    ∃ ks', n = .elem tag as ks' := by
  cases n with
  | text s => rw [Node.clean] at h; cases h
  | elem t a k => rw [Node.clean] at h; cases h; exact ⟨k, rfl⟩

theorem root_of_cleans {kids : List Node} {tag : Str} {as : List (Str × Str)} {ks : List Node}
    (h : cleans kids.reverse = [.elem tag as ks]) : ∃ n, (Tree.mk [] kids).root = some n ∧ n.clean = .elem tag as ks := by
  rw [cleans_eq, List.filter_reverse, List.map_reverse] at h
  have h2 := congrArg List.reverse h
  rw [List.reverse_reverse, List.reverse_singleton] at h2
  cases hf : kids.filter (fun k => !k.isBlank) with
  | nil => rw [hf] at h2; cases h2
  | cons n ns =>
    rw [hf] at h2
    cases ns with
    | cons m ms => simp at h2
    | nil =>
      rw [List.map_singleton] at h2
      have h3 : n.clean = .elem tag as ks := by simpa using h2
      obtain ⟨k, rfl⟩ := clean_elem h3
      refine ⟨_, ?_, h3⟩
      unfold Tree.root
      simp only [hf, List.isEmpty_nil, if_true]

theorem addChars_cleans {w : Str} (hw : w.all isXmlSpace = true) :
    BlankTexts (addChars w []) ∧ cleans (addChars w []).reverse = [] := by
  obtain ⟨h1, h2⟩ := addChars_blank hw (acc := []) (fun s hs => by simp at hs)
  exact ⟨h1, by rw [h2]; rfl⟩

theorem tree_read {T : List HTree} {tag : Str} {as : List (Str × Str)} {ks : List Node} {t : Str} (hw : WFs T)
    (hn : nodesOf T = [.elem tag as ks]) (hl : LaidC (docType ++ sers T) t) :
    ∃ n, readXml t = some n ∧ n.clean = .elem tag as ks := by
  obtain ⟨t1, t2, rfl, h1, h2⟩ := hl.append
  unfold docType at h1
  obtain ⟨t3, rfl, h3⟩ := h1.str_append
  have hb := h3.nl_eq
  obtain ⟨g1, g2⟩ := sers_norm T t2 hw h2
  have hp : Plain (c!"<!DOCTYPE html>" ++ t3) := by
    intro c hc
    rcases List.mem_append.1 hc with hc | hc
    · exact (by decide : ∀ c ∈ c!"<!DOCTYPE html>", c ≠ '\r' ∧ isXmlChar c = true) c hc
    · exact hb.safe.plain c hc
  have hbl : t3.all isXmlSpace = true := hb.all
  have hall : (c!"<!DOCTYPE html>" ++ t3 ++ t2).all isXmlChar = true := by
    rw [List.all_eq_true]
    exact (hp.reads.append g2).xml
  unfold readXml
  rw [if_pos hall, eolNorm_append _ (.inl hp.noCR), eolNorm_noCR (fun c hc => (hp c hc).1)]
  obtain ⟨ns, hi, hr⟩ := sers_run (norms T) _ (norms_WF T hw) g1
  have hd : xmlRun (⟨[], []⟩, .text) (c!"<!DOCTYPE html>") = some (⟨[], []⟩, .text) := rfl
  have hs : SafeText t3 := hb.safe
  rw [List.append_assoc, xmlRun_trans hd, xmlRun_trans (run_raw _ _ hs), hr]
  obtain ⟨a1, a2⟩ := addChars_cleans hbl
  obtain ⟨b1, b2⟩ := clean_insts (norms_WF T hw) hi _ a1
  refine root_of_cleans ?_
  rw [b2, a2, List.nil_append]
  exact hn

theorem tree_read_plain {T : List HTree} {tag : Str} {as : List (Str × Str)} {ks : List Node} {t : Str} (hw : WFs T)
    (hn : nodesOf T = [.elem tag as ks]) (hl : LaidC (sers T) t) :
    ∃ n, readXml t = some n ∧ n.clean = .elem tag as ks := by
  obtain ⟨g1, g2⟩ := sers_norm T t hw hl
  unfold readXml
  rw [if_pos (List.all_eq_true.2 g2.xml)]
  obtain ⟨ns, hi, hr⟩ := sers_run (norms T) _ (norms_WF T hw) g1
  rw [hr]
  obtain ⟨b1, b2⟩ := clean_insts (norms_WF T hw) hi [] (fun s hs => by simp at hs)
  refine root_of_cleans ?_
  rw [b2]
  exact hn

/-- text which has no special meaning in the head of a page -/
def HeadText (s : Str) : Prop := ∀ c ∈ s, isXmlChar c = true ∧ c ∉ c!"<>&\"\t\n\r"

theorem HeadText.value {s : Str} (h : HeadText s) : SafeValue '"' s := by
  intro c hc
  obtain ⟨h1, h2⟩ := h c hc
  have hn : ∀ x ∈ c!"<>&\"\t\n\r", c ≠ x := fun x hx he => h2 (he ▸ hx)
  refine ⟨hn _ (by decide), hn _ (by decide), hn _ (by decide), ?_, h1⟩
  unfold isXmlSpace
  rw [beq_false_of_ne (hn '\t' (by decide)), beq_false_of_ne (hn '\n' (by decide)), beq_false_of_ne (hn '\r' (by decide))]
  simp

theorem HeadText.text {s : Str} (h : HeadText s) : SafeText s := by
  intro c hc
  obtain ⟨h1, h2⟩ := h c hc
  have hn : ∀ x ∈ c!"<>&\"\t\n\r", c ≠ x := fun x hx he => h2 (he ▸ hx)
  exact ⟨hn _ (by decide), hn _ (by decide), hn _ (by decide), hn _ (by decide), h1⟩

theorem safeTag_lit {tag : Str} {q : Char} {as : List (Str × Str)} (hq : q = '"' ∨ q = '\'')
    (h : (!tag.isEmpty && tag.head?.all isNameStart && tag.all isNameChar) = true)
    (ha : ∀ a ∈ as, (!a.1.isEmpty && a.1.head?.all isNameStart && a.1.all isNameChar) = true)
    (hv : ∀ a ∈ as, SafeValue q a.2) (hn : NewNames [] as) : SafeTag tag q as :=
  ⟨isName_lit h, hq, fun a hm => ⟨isName_lit (ha a hm), hv a hm⟩, hn⟩

theorem value_lit {q : Char} {v : Str} (h : v.all (fun c => c != q && c != '<' && c != '&' && (isXmlSpace c == (c == ' ')) && isXmlChar c) = true) :
    SafeValue q v := by
  intro c hc
  have := List.all_eq_true.1 h c hc
  simp only [Bool.and_eq_true, bne_iff_ne, beq_iff_eq] at this
  exact ⟨this.1.1.1.1, this.1.1.1.2, this.1.1.2, this.1.2, this.2⟩

theorem WF_page {version title fname : Str} {revision : Option Str} {body : List HTree} (h1 : HeadText version) (h2 : HeadText title)
    (h3 : ∀ r, revision = some r → HeadText r) (h4 : HeadText fname) (hb : WFs body) :
    WFs (pageT version title revision fname body) := by
  simp only [pageT, WFs, HTree.WF, true_and, and_true]
  refine ⟨?_, by decide, ⟨?_, by decide, ⟨?_, by decide⟩, ⟨?_, by decide⟩, ⟨?_, by decide, ?_⟩, ?_, by decide⟩, ?_, by decide, hb⟩
  · refine safeTag_lit (.inl rfl) (by decide) (by decide) ?_ ⟨rfl, trivial⟩
    intro a ha
    rw [List.mem_singleton] at ha
    subst ha
    exact value_lit (by decide)
  · exact tag_lit _ _ (.inl rfl) (by decide)
  · refine ⟨isName_lit (by decide), .inl rfl, ?_, ?_⟩
    · intro a ha
      rcases List.mem_append.1 ha with ha | ha
      · rcases List.mem_cons.1 ha with rfl | ha
        · exact ⟨isName_lit (by decide), value_lit (by decide)⟩
        · rw [List.mem_singleton] at ha
          subst ha
          exact ⟨isName_lit (s := c!"data-spec") (by decide), h2.value⟩
      · obtain ⟨e1, e2⟩ := optAttr_mem ha
        rw [e1]
        exact ⟨isName_lit (by decide), (h3 _ e2).value⟩
    · cases revision with
      | none => exact ⟨rfl, rfl, trivial⟩
      | some r => exact ⟨rfl, rfl, rfl, trivial⟩
  · refine ⟨isName_lit (by decide), .inl rfl, ?_, ⟨rfl, rfl, trivial⟩⟩
    intro a ha
    rcases List.mem_cons.1 ha with rfl | ha
    · exact ⟨isName_lit (by decide), value_lit (by decide)⟩
    · rw [List.mem_singleton] at ha
      subst ha
      exact ⟨isName_lit (s := c!"content") (by decide), h1.value⟩
  · exact tag_lit _ _ (.inl rfl) (by decide)
  · exact h4.text
  · refine ⟨isName_lit (by decide), .inl rfl, ?_, ⟨rfl, rfl, trivial⟩⟩
    intro a ha
    rcases List.mem_cons.1 ha with rfl | ha
    · exact ⟨isName_lit (by decide), value_lit (by decide)⟩
    · rw [List.mem_singleton] at ha
      subst ha
      refine ⟨isName_lit (s := c!"href") (by decide), ?_⟩
      intro c hc
      rcases List.mem_append.1 hc with hc | hc
      · exact h4.value c hc
      · exact value_lit (by decide) c hc
  · exact tag_lit _ _ (.inl rfl) (by decide)

theorem page_read {version title fname : Str} {revision : Option Str} {us : List HUnit} (h1 : HeadText version) (h2 : HeadText title)
    (h3 : ∀ r, revision = some r → HeadText r) (h4 : HeadText fname) (hu : unitsOk us) {t : Str}
    (hl : Laid (renderPage version title revision fname us).1 t) :
    ∃ n, readXml t = some n ∧
      n.clean = pageNode version title revision fname (unitNodes (classesOf (renderPage version title revision fname us).2) us) := by
  obtain ⟨ho, hc⟩ := renderPage_spec version title revision fname us
  have hl' := hl.chars
  rw [hc] at hl'
  refine tree_read (WF_page h1 h2 h3 h4 (WF_units (classesOf_ok ho) us hu)) ?_ hl'
  rw [nodesOf_page _ _ _ _ _ (fun c hc' => (h4.text c hc').2.2.2.1), nodesOf_units]
  rfl

theorem body_read {us : List HUnit} (hu : unitsOk us) {t : Str} (hl : Laid (renderUnits RSt.init us).1 t) :
    ∃ n, readXml (c!"<body>" ++ t ++ c!"</body>") = some n ∧
      n.clean = .elem c!"body" [] (unitNodes (classesOf (renderUnits RSt.init us).2) us) := by
  have h := renderUnits_spec us RSt.init RSt.init_ok
  have hl' := hl.chars
  rw [h.pieces _ (.refl _) h.ok] at hl'
  have ht : SafeTag c!"body" '"' [] := tag_lit _ _ (.inl rfl) (by decide)
  refine tree_read_plain (T := [.elem c!"body" '"' [] (unitsT (classesOf (renderUnits RSt.init us).2) us)]) ?_ ?_ ?_
  · simp only [WFs, HTree.WF, and_true]
    exact ⟨ht, by decide, WF_units (classesOf_ok h.ok) us hu⟩
  · rw [nodesOf_elem, nodesOf_units, nodesOf_nil]
  · rw [sers, sers, HTree.ser, List.append_nil]
    exact (LaidC.of_str c!"<body>").concat hl' |>.concat (LaidC.of_str c!"</body>")

end Spex
