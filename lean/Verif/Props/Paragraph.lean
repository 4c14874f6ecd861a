import Verif.Props.WordTables
/-
C50: the text of a Word paragraph.
-/
set_option autoImplicit false
namespace Spex

/-! ### Specification -/

/-- the text of a run: all its `w:t` -/
def runText (r : Node) : Str := Node.flats (r.childs wT)

/-- the text of a child of a paragraph: of a run, or of the runs of a hyperlink or simple field -/
def childText (c : Node) : Str :=
  if c.hasTag wR then runText c
  else if c.hasTag wHyperlink || c.hasTag wFldSimple then (c.childs wR).flatMap runText
  else []

/-- the text of a paragraph -/
def paraText (p : Node) : Str := p.elems.flatMap childText

/-- what is kept of a run: its first text, up to an element inside it -/
def keptRun (r : Node) : Str :=
  match r.childs wT with
  | [] => []
  | t :: _ => Node.flats (t.kids.takeWhile (fun k => !k.isElem))

/-- what is kept of a child of a paragraph: of a hyperlink or simple field it is the first run -/
def keptChild (c : Node) : Str :=
  if c.hasTag wR then keptRun c
  else if c.hasTag wHyperlink || c.hasTag wFldSimple then ((c.childs wR).head?.map keptRun).getD []
  else []

/-- what is kept of the text of a paragraph -/
def keptText (p : Node) : Str := p.elems.flatMap keptChild

/-- the run has one text, which has no elements inside -/
def SimpleRun (r : Node) : Prop :=
  r.childs wT = [] ∨ ∃ t, r.childs wT = [t] ∧ ∀ k ∈ t.kids, k.isElem = false

/-- the paragraph's runs are simple and every hyperlink and field has one run -/
def SimplePara (p : Node) : Prop :=
  ∀ c ∈ p.elems, (c.hasTag wR = true → SimpleRun c) ∧
    (c.hasTag wHyperlink = true ∨ c.hasTag wFldSimple = true → ∃ r, c.childs wR = [r] ∧ SimpleRun r)

/-- the text of spans -/
def spansText (spans : List HSpan) : Str := spans.flatMap (·.text)

/-! ### Proofs -/

theorem steps_one (t : Str) (n : Node) : n.steps [t] = n.childs t := by
  unfold Node.steps
  have : Node.steps [] = fun n : Node => [n] := by funext n; rw [Node.steps]
  rw [this, List.flatMap_singleton']

theorem first_one (t : Str) (n : Node) : n.first [t] = (n.childs t).head? := by
  unfold Node.first; rw [steps_one]

theorem flats_eq_flatMap (ks : List Node) : Node.flats ks = ks.flatMap Node.flat := by
  induction ks with
  | nil => rw [Node.flats]; rfl
  | cons k ks ih => rw [Node.flats, ih, List.flatMap_cons]

theorem flat_kids {n : Node} (h : n.isElem = true) : n.flat = Node.flats n.kids := by
  cases n with
  | text s => cases h
  | elem t as ks => rw [Node.flat]; rfl

theorem text?_sublist {t : Node} (ht : t.isElem = true) : (t.text?.getD []).Sublist t.flat := by
  rw [flat_kids ht, flats_eq_flatMap]
  unfold Node.text?
  have hs : ((t.kids.takeWhile (fun k => !k.isElem)).flatMap Node.flat).Sublist (t.kids.flatMap Node.flat) :=
    by
      conv => rhs; rw [← List.takeWhile_append_dropWhile (p := fun k : Node => !k.isElem) (l := t.kids)]
      rw [List.flatMap_append]
      exact List.sublist_append_left _ _
  split
  · exact List.nil_sublist _
  · exact hs

theorem text?_eq {t : Node} (ht : t.isElem = true) (h : ∀ k ∈ t.kids, k.isElem = false) : t.text?.getD [] = t.flat := by
  rw [flat_kids ht, flats_eq_flatMap]
  unfold Node.text?
  have : t.kids.takeWhile (fun k => !k.isElem) = t.kids := by
    have gen : ∀ ks : List Node, (∀ k ∈ ks, k.isElem = false) → ks.takeWhile (fun k => !k.isElem) = ks := by
      intro ks
      induction ks with
      | nil => intro _; rfl
      | cons k ks ih =>
        intro h
        rw [List.takeWhile_cons_of_pos (by rw [h k List.mem_cons_self]; rfl), ih (fun k hk => h k (List.mem_cons_of_mem _ hk))]
    exact gen _ h
  rw [this]
  split
  · rename_i hs; rw [hs]; rfl
  · rfl

theorem childs_isElem {n k : Node} {t : Str} (h : k ∈ n.childs t) : k.isElem = true :=
  hasTag_isElem (List.mem_filter.1 h).2

/-- the text of a parsed run -/
theorem parseRun_text {doc : WordDoc} {r : Node} {spans : List HSpan} (h : parseRun doc r = .ok spans) :
    spansText spans = ((r.first [wT]).bind Node.text?).getD [] := by
  unfold parseRun at h
  cases ht : (r.first [wT]).bind Node.text? with
  | none => rw [ht] at h; cases h; rfl
  | some s =>
    rw [ht] at h
    obtain ⟨st, -, h⟩ := except_bind_ok h
    cases h
    simp [spansText]

theorem parseRun_sublist {doc : WordDoc} {r : Node} {spans : List HSpan} (h : parseRun doc r = .ok spans) :
    (spansText spans).Sublist (runText r) := by
  rw [parseRun_text h, first_one]
  unfold runText
  cases hc : r.childs wT with
  | nil => exact List.nil_sublist _
  | cons t ts =>
    simp only [List.head?_cons, Option.bind_some]
    rw [Node.flats]
    have ht : t.isElem = true := childs_isElem (t := wT) (n := r) (by rw [hc]; exact List.mem_cons_self)
    exact (text?_sublist ht).trans (List.sublist_append_left _ _)

theorem parseRun_exact {doc : WordDoc} {r : Node} {spans : List HSpan} (h : parseRun doc r = .ok spans) (hr : SimpleRun r) :
    spansText spans = runText r := by
  rw [parseRun_text h, first_one]
  unfold runText
  rcases hr with hr | ⟨t, hr, hk⟩
  · rw [hr, Node.flats]; rfl
  · have ht : t.isElem = true := childs_isElem (t := wT) (n := r) (by rw [hr]; exact List.mem_cons_self)
    rw [hr, Node.flats, Node.flats, List.append_nil]
    simp only [List.head?_cons, Option.bind_some]
    exact text?_eq ht hk

/-- what a child of a paragraph contributes -/
theorem parseChild_cases {doc : WordDoc} {c : Node} {spans : List HSpan} (h : parseChild doc c = .ok spans) :
    (c.hasTag wR = true ∧ parseRun doc c = .ok spans) ∨
    (c.hasTag wR = false ∧ (c.hasTag wHyperlink || c.hasTag wFldSimple) = true ∧
      ∃ r rs, c.childs wR = r :: rs ∧ parseRun doc r = .ok spans) ∨
    (c.hasTag wR = false ∧ (c.hasTag wHyperlink || c.hasTag wFldSimple) = false ∧ spans = []) := by
  unfold parseChild at h
  obtain ⟨r, h1, h⟩ := except_bind_ok h
  unfold selectRun at h1
  by_cases hr : c.hasTag wR = true
  · rw [if_pos hr] at h1; cases h1
    exact .inl ⟨hr, h⟩
  · have hr' : c.hasTag wR = false := by simpa using hr
    rw [if_neg hr] at h1
    by_cases hh : (c.hasTag wHyperlink || c.hasTag wFldSimple) = true
    · rw [if_pos hh, first_one] at h1
      cases hc : c.childs wR with
      | nil => rw [hc] at h1; cases h1
      | cons r' rs =>
        rw [hc] at h1; cases h1
        exact .inr (.inl ⟨hr', hh, r', rs, rfl, h⟩)
    · rw [if_neg hh] at h1; cases h1
      cases h
      exact .inr (.inr ⟨hr', by simpa using hh, rfl⟩)

theorem spansText_append (a b : List HSpan) : spansText (a ++ b) = spansText a ++ spansText b := by
  simp [spansText]

/-- C50: whatever the paragraph, the spans show parts of its text in order; no text is invented, repeated or moved. -/
theorem C50_nothing_invented {doc : WordDoc} {p : Node} {spans : List HSpan} (h : parseSpans doc p = .ok spans) :
    (spansText spans).Sublist (paraText p) := by
  unfold parseSpans at h
  unfold paraText
  generalize p.elems = cs at h ⊢
  induction cs generalizing spans with
  | nil => rw [parseChildren] at h; cases h; exact List.nil_sublist _
  | cons c cs ih =>
    rw [parseChildren] at h
    obtain ⟨s, h1, h⟩ := except_bind_ok h
    obtain ⟨ss, h2, h⟩ := except_bind_ok h
    cases h
    rw [spansText_append, List.flatMap_cons]
    refine List.Sublist.append ?_ (ih h2)
    unfold childText
    rcases parseChild_cases h1 with ⟨hr, hp⟩ | ⟨hr, hh, r, rs, hc, hp⟩ | ⟨hr, hh, hs⟩
    · rw [if_pos hr]; exact parseRun_sublist hp
    · rw [if_neg (by rw [hr]; decide), if_pos hh, hc, List.flatMap_cons]
      exact (parseRun_sublist hp).trans (List.sublist_append_left _ _)
    · rw [hs]; exact List.nil_sublist _

theorem parseRun_kept {doc : WordDoc} {r : Node} {spans : List HSpan} (h : parseRun doc r = .ok spans) : spansText spans = keptRun r := by
  rw [parseRun_text h, first_one]
  unfold keptRun
  cases hc : r.childs wT with
  | nil => rfl
  | cons t ts =>
    simp only [List.head?_cons, Option.bind_some]
    rw [flats_eq_flatMap]
    unfold Node.text?
    split
    · rename_i hs; rw [hs]; rfl
    · rfl

/-- C50: whatever the paragraph, the spans show exactly this: of each run the first text, and of each hyperlink and field the first run. -/
theorem C50_kept_exact {doc : WordDoc} {p : Node} {spans : List HSpan} (h : parseSpans doc p = .ok spans) : spansText spans = keptText p := by
  unfold parseSpans at h
  unfold keptText
  generalize p.elems = cs at h ⊢
  induction cs generalizing spans with
  | nil => rw [parseChildren] at h; cases h; rfl
  | cons c cs ih =>
    rw [parseChildren] at h
    obtain ⟨s, h1, h⟩ := except_bind_ok h
    obtain ⟨ss, h2, h⟩ := except_bind_ok h
    cases h
    rw [spansText_append, List.flatMap_cons, ih h2]
    congr 1
    unfold keptChild
    rcases parseChild_cases h1 with ⟨hr, hp⟩ | ⟨hr, hh, r, rs, hc, hp⟩ | ⟨hr, hh, hs⟩
    · rw [if_pos hr]; exact parseRun_kept hp
    · rw [if_neg (by rw [hr]; decide), if_pos hh, hc]
      exact parseRun_kept hp
    · rw [if_neg (by rw [hr]; decide), if_neg (by rw [hh]; decide), hs]; rfl

theorem keptRun_all {r : Node} (hr : SimpleRun r) : keptRun r = runText r := by
  unfold keptRun runText
  rcases hr with hr | ⟨t, hr, hk⟩
  · rw [hr, Node.flats]
  · rw [hr, Node.flats, Node.flats, List.append_nil]
    have ht : t.isElem = true := childs_isElem (t := wT) (n := r) (by rw [hr]; exact List.mem_cons_self)
    simp only
    have gen : ∀ ks : List Node, (∀ k ∈ ks, k.isElem = false) → ks.takeWhile (fun k => !k.isElem) = ks := by
      intro ks h
      induction ks with
      | nil => rfl
      | cons k ks ih =>
        rw [List.takeWhile_cons_of_pos (by rw [h k List.mem_cons_self]; rfl), ih (fun k hk => h k (List.mem_cons_of_mem _ hk))]
    rw [flat_kids ht, gen _ hk]

/-- C50: all of the text is kept, if the runs have one text each, and hyperlinks and fields have one run each. -/
theorem C50_kept_all {p : Node} (hp : SimplePara p) : keptText p = paraText p := by
  unfold keptText paraText
  unfold SimplePara at hp
  generalize p.elems = cs at hp ⊢
  induction cs with
  | nil => rfl
  | cons c cs ih =>
    rw [List.flatMap_cons, List.flatMap_cons, ih (fun c hc => hp c (List.mem_cons_of_mem _ hc))]
    congr 1
    obtain ⟨hp1, hp2⟩ := hp c List.mem_cons_self
    unfold keptChild childText
    by_cases hr : c.hasTag wR = true
    · rw [if_pos hr, if_pos hr, keptRun_all (hp1 hr)]
    rw [if_neg hr, if_neg hr]
    by_cases hh : (c.hasTag wHyperlink || c.hasTag wFldSimple) = true
    · rw [if_pos hh, if_pos hh]
      obtain ⟨r, h1, h2⟩ := hp2 (by simpa using hh)
      rw [h1]
      simp [keptRun_all h2]
    · rw [if_neg hh, if_neg hh]

/-- C50: the text is preserved for paragraphs whose runs have one text each and whose hyperlinks and fields have one run
each. Missing: paragraphs with runs of several texts (around line breaks, say) and hyperlinks of several runs; there the
code drops text, see the counterexamples. What it keeps is stated in `C50_kept_exact`. -/
theorem C50_text_preserved_partial {doc : WordDoc} {p : Node} {spans : List HSpan} (h : parseSpans doc p = .ok spans)
    (hp : SimplePara p) : spansText spans = paraText p := by
  rw [C50_kept_exact h, C50_kept_all hp]

/-- C50: a paragraph is dropped only if none of its runs shows any text. -/
theorem C50_paragraph_kept {doc : WordDoc} {p : Node} {us : List HUnit} (h : parseParagraph doc p = .ok us) :
    ∃ spans, parseSpans doc p = .ok spans ∧ (∀ s ∈ spans, s.text ≠ []) ∧ us = if spans = [] then [] else [.para spans] := by
  unfold parseParagraph at h
  obtain ⟨spans, h1, h⟩ := except_bind_ok h
  refine ⟨spans, h1, ?_, ?_⟩
  · unfold parseSpans at h1
    clear h
    generalize p.elems = cs at h1
    induction cs generalizing spans with
    | nil => rw [parseChildren] at h1; cases h1; intro s hs; cases hs
    | cons c cs ih =>
      rw [parseChildren] at h1
      obtain ⟨s, h2, h1⟩ := except_bind_ok h1
      obtain ⟨ss, h3, h1⟩ := except_bind_ok h1
      cases h1
      have one : ∀ r, parseRun doc r = .ok s → ∀ x ∈ s, x.text ≠ [] := by
        intro r hr x hx
        unfold parseRun at hr
        cases ht : (r.first [wT]).bind Node.text? with
        | none => rw [ht] at hr; cases hr; cases hx
        | some t =>
          rw [ht] at hr
          obtain ⟨st, -, hr⟩ := except_bind_ok hr
          cases hr
          rw [List.mem_singleton] at hx
          subst hx
          cases hf : r.first [wT] with
          | none => rw [hf] at ht; cases ht
          | some n => rw [hf] at ht; exact text?_ne_nil ht
      intro x hx
      rcases List.mem_append.1 hx with hx | hx
      · rcases parseChild_cases h2 with ⟨hr, hp⟩ | ⟨hr, hh, r, rs, hc, hp⟩ | ⟨hr, hh, hs⟩
        · exact one _ hp x hx
        · exact one _ hp x hx
        · rw [hs] at hx; cases hx
      · exact ih _ h3 x hx
  · cases spans with
    | nil => cases h; rfl
    | cons s ss => cases h; rw [if_neg (by simp)]

/-! ### Examples and counterexamples -/

/-- a run with the given texts, separated by line breaks -/
def exRun (texts : List String) : Node :=
  .elem wR [] ((texts.map (fun t => Node.elem wT [] [.text t.toList])).intersperse (.elem c!"w:br" [] []))

def exText (r : Except Exn (List HSpan)) : Option Str :=
  match r with
  | .ok spans => some (spansText spans)
  | .error _ => none

theorem exText_some {r : Except Exn (List HSpan)} {s : Str} (h : exText r = some s) : ∃ spans, r = .ok spans ∧ spansText spans = s := by
  cases r with
  | error e => cases h
  | ok us => exact ⟨us, rfl, by simpa [exText] using h⟩

/-- a paragraph with a run, a hyperlink and a field -/
def exSimplePara : Node := .elem wP [] [.elem wPPr [] [], exRun ["see "], .elem wHyperlink [] [exRun ["Figure 1"]],
  .elem wFldSimple [] [exRun ["7"]], exRun [" for more"]]

example : SimplePara exSimplePara := by
  intro c hc
  simp only [exSimplePara, Node.elems, Node.kids, Node.isElem, exRun, List.filter, List.mem_cons, List.not_mem_nil, or_false] at hc
  have simple : ∀ s : String, SimpleRun (exRun [s]) := fun s => .inr ⟨_, rfl, fun k hk => by
    simp only [Node.kids, List.mem_singleton] at hk; rw [hk]; rfl⟩
  rcases hc with rfl | rfl | rfl | rfl | rfl
  · exact ⟨fun h => absurd h (by decide), fun h => absurd h (by decide)⟩
  · exact ⟨fun _ => simple _, fun h => absurd h (by decide)⟩
  · exact ⟨fun h => absurd h (by decide), fun _ => ⟨_, rfl, simple _⟩⟩
  · exact ⟨fun h => absurd h (by decide), fun _ => ⟨_, rfl, simple _⟩⟩
  · exact ⟨fun _ => simple _, fun h => absurd h (by decide)⟩

example : letI := Uni.ascii
    exText (parseSpans (exDocOf []) exSimplePara) = some c!"see Figure 17 for more" := by decide +kernel

/-- a run with two texts, and a hyperlink with two runs: what is kept of them is their start -/
example : letI := Uni.ascii
    exText (parseSpans (exDocOf []) (.elem wP [] [exRun ["one", "two"], .elem wHyperlink [] [exRun [" Figure 1"], exRun ["2"]], exRun ["."]]))
      = some c!"one Figure 1." ∧
    keptText (.elem wP [] [exRun ["one", "two"], .elem wHyperlink [] [exRun [" Figure 1"], exRun ["2"]], exRun ["."]]) = c!"one Figure 1." := by
  decide +kernel

end Spex

namespace Spex

/-- C50, false: of a run with two texts (separated by a line break, say) only the first one is shown. -/
theorem C50_second_text_false : letI := Uni.ascii
    ∃ doc p spans, parseSpans doc p = .ok spans ∧ paraText p = c!"onetwo" ∧ spansText spans = c!"one" := by
  let _ := Uni.ascii
  obtain ⟨spans, h1, h2⟩ := exText_some (show exText (parseSpans (exDocOf []) (.elem wP [] [exRun ["one", "two"]])) = some c!"one" by
    decide +kernel)
  exact ⟨_, _, spans, h1, by decide +kernel, h2⟩

/-- C50, false: of a hyperlink with two runs only the first one is shown. -/
theorem C50_second_run_false : letI := Uni.ascii
    ∃ doc p spans, parseSpans doc p = .ok spans ∧ paraText p = c!"Figure 12" ∧ spansText spans = c!"Figure 1" := by
  let _ := Uni.ascii
  obtain ⟨spans, h1, h2⟩ := exText_some (show exText (parseSpans (exDocOf [])
    (.elem wP [] [.elem wHyperlink [] [exRun ["Figure 1"], exRun ["2"]]])) = some c!"Figure 1" by decide +kernel)
  exact ⟨_, _, spans, h1, by decide +kernel, h2⟩

end Spex
