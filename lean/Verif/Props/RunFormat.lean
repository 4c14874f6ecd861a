import Verif.Props.Sheet
import Verif.Props.Paragraph
import Verif.Model.Ascii
/-
C69, the part about the Word document: which formatting a text has there.
-/
set_option autoImplicit false
namespace Spex

/-! ### Specification: formatting in Word documents (ISO/IEC 29500-1, 17.3.2 and 17.7) -/

/-- the `w:rPr` elements of a character style and of the styles it is based on, the most general style first -/
inductive StyleLayers (styles : Node) : Str → List Node → Prop where
  | root {id : Str} {style : Node}
      (found : (stylesOfType styles c!"character").find? (fun s => s.attr? c!"w:styleId" == some id) = some style)
      (base : style.attrFirst [c!"w:basedOn"] aVal = none) : StyleLayers styles id (style.first [wRPr]).toList
  | based {id b : Str} {style : Node} {ns : List Node}
      (found : (stylesOfType styles c!"character").find? (fun s => s.attr? c!"w:styleId" == some id) = some style)
      (base : style.attrFirst [c!"w:basedOn"] aVal = some b) (rest : StyleLayers styles b ns) :
      StyleLayers styles id (ns ++ (style.first [wRPr]).toList)

/-- the `w:rPr` elements which say how a run is formatted: those of its character style, and its own -/
inductive RunLayers (styles : Node) (r : Node) : List Node → Prop where
  | plain (rpr : r.first [wRPr] = none) : RunLayers styles r []
  | own {own : Node} (rpr : r.first [wRPr] = some own) (style : own.attrFirst [c!"w:rStyle"] aVal = none) : RunLayers styles r [own]
  | styled {own : Node} {name id : Str} {earlier later : List Node} {style : Node} {ns : List Node}
      (rpr : r.first [wRPr] = some own) (named : own.attrFirst [c!"w:rStyle"] aVal = some name)
      (split : stylesOfType styles c!"character" = earlier ++ style :: later) (known : KnownAs style name) (last : ∀ s ∈ later, ¬ KnownAs s name)
      (hid : style.attr? c!"w:styleId" = some id) (layers : StyleLayers styles id ns) : RunLayers styles r (ns ++ [own])

/-- a property which is on or off: bold, italics, strike-through -/
def switch (rpr : Node) (tag : Str) : Option Bool :=
  (rpr.first [tag]).map fun e => match e.attr? aVal with
    | none => true
    | some v => !([c!"0", c!"false", c!"off"].contains (strip v))

/-- underlined in one or another way, or not -/
def underlineSet (rpr : Node) : Option Bool := ((rpr.first [c!"w:u"]).bind (·.attr? aVal)).map fun v => decide (v ≠ c!"none")

/-- vertical position -/
def vertSet (rpr : Node) : Option Str := (rpr.attrFirst [c!"w:vertAlign"] aVal).filter (fun v => !v.isEmpty)

/-- colour: six digits, or `auto` -/
def colorSet (rpr : Node) : Option Str := rpr.attrFirst [c!"w:color"] aVal

/-- formatting by several layers: of each property, the last setting counts -/
def wordFormat (layers : List Node) : Format where
  weight := (lastSet (layers.map (switch · c!"w:b"))).map fun b => if b then c!"bold" else c!"normal"
  slant := (lastSet (layers.map (switch · c!"w:i"))).map fun b => if b then c!"italic" else c!"normal"
  line :=
    if lastSet (layers.map underlineSet) = some true ∧ lastSet (layers.map (switch · c!"w:strike")) = some true then some c!"underline line-through"
    else if lastSet (layers.map underlineSet) = some true then some c!"underline"
    else if lastSet (layers.map (switch · c!"w:strike")) = some true then some c!"line-through" else none
  vert := (lastSet (layers.map vertSet)).map fun v => if v = c!"subscript" then c!"sub" else if v = c!"superscript" then c!"super" else c!"baseline"
  color := (lastSet (layers.map colorSet)).bind fun c => if c = c!"auto" then none else some ('#' :: c)

/-- switches are not written as `false` or `off`, and colours have six digits -/
def PlainLayer (n : Node) : Prop :=
  (∀ tag ∈ [c!"w:b", c!"w:i", c!"w:strike"], ∀ e v, n.first [tag] = some e → e.attr? aVal = some v → strip v ≠ c!"false" ∧ strip v ≠ c!"off") ∧
  ∀ c, n.attrFirst [c!"w:color"] aVal = some c → c.length = 6

/-- the runs of a paragraph whose text is taken over (C50): its own, and the first ones of hyperlinks and fields -/
def textRuns (p : Node) : List Node :=
  (p.elems.flatMap fun c => if c.hasTag wR then [c] else if c.hasTag wHyperlink || c.hasTag wFldSimple then (c.childs wR).take 1 else []).filter
    (fun r => ((r.first [wT]).bind Node.text?).isSome)

/-! ### Proofs -/

theorem bprop_switch {n : Node} (h : PlainLayer n) {tag : Str} (ht : tag ∈ [c!"w:b", c!"w:i", c!"w:strike"]) : bpropVal n tag = switch n tag := by
  unfold bpropVal switch
  cases he : n.first [tag] with
  | none => rfl
  | some e =>
    simp only [Option.map_some]
    cases hv : e.attr? aVal with
    | none => rfl
    | some v =>
      obtain ⟨h1, h2⟩ := h.1 tag ht e v he hv
      simp only [List.contains_cons, List.contains_nil, Bool.or_false, Option.some.injEq]
      by_cases h0 : strip v = c!"0"
      · simp [h0]
      · simp [h0, h1, h2]

theorem props_settings {n : Node} {p : RunProps} (hp : runPropsOf n = .ok p) (h : PlainLayer n) :
    p.bold = switch n c!"w:b" ∧ p.italics = switch n c!"w:i" ∧ p.underline = underlineSet n ∧ p.strike = switch n c!"w:strike" ∧
      p.vert.map vertCss = (vertSet n).map (fun v => if v = c!"subscript" then c!"sub" else if v = c!"superscript" then c!"super" else c!"baseline") ∧
      p.color = colorSet n := by
  unfold runPropsOf at hp
  obtain ⟨u, hu, hp⟩ := except_bind_ok hp
  obtain ⟨v, hv, hp⟩ := except_bind_ok hp
  cases hp
  refine ⟨bprop_switch h (by decide), bprop_switch h (by decide), ?_, bprop_switch h (by decide), ?_, ?_⟩
  · unfold uVal at hu
    unfold underlineSet
    cases he : n.first [c!"w:u"] with
    | none => rw [he] at hu; cases hu; rfl
    | some e =>
      rw [he] at hu
      cases ha : e.attr? aVal with
      | none => simp only [ha] at hu; cases hu
      | some x =>
        simp only [ha] at hu
        cases hu
        simp [ha]
  · unfold vertVal at hv
    unfold vertSet
    cases he : n.attrFirst [c!"w:vertAlign"] aVal with
    | none => rw [he] at hv; cases hv; rfl
    | some x =>
      simp only [he] at hv
      by_cases h0 : x.isEmpty = true
      · rw [if_pos h0] at hv
        cases hv
        simp [Option.filter, h0]
      · rw [if_neg h0] at hv
        rw [show (some x).filter (fun v => !v.isEmpty) = some x by simp [Option.filter, h0]]
        unfold vertAlignOf at hv
        by_cases c1 : x = c!"baseline"
        · rw [if_pos c1] at hv; cases hv; subst c1; rfl
        rw [if_neg c1] at hv
        by_cases c2 : x = c!"subscript"
        · rw [if_pos c2] at hv; cases hv; subst c2; rfl
        rw [if_neg c2] at hv
        by_cases c3 : x = c!"superscript"
        · rw [if_pos c3] at hv; cases hv; subst c3; rfl
        rw [if_neg c3] at hv
        cases hv
  · show hexColor (n.attrFirst [c!"w:color"] aVal) = _
    unfold hexColor colorSet
    cases he : n.attrFirst [c!"w:color"] aVal with
    | none => rfl
    | some c => simp [h.2 c he]

theorem chain_layers {styles : Node} {id : Str} {ids : List Str} {layers : List (Option RunProps)} (h : Chain styles c!"character" id ids layers) :
    ∃ ns, StyleLayers styles id ns ∧ List.Forall₂ (fun n p => runPropsOf n = .ok p) ns (layers.filterMap (fun o => o)) := by
  have one : ∀ {style : Node} {rpr : Option RunProps}, fromRprElem (style.first [wRPr]) = .ok rpr →
      List.Forall₂ (fun n p => runPropsOf n = .ok p) (style.first [wRPr]).toList ([rpr].filterMap (fun o => o)) := by
    intro style rpr hl
    unfold fromRprElem at hl
    cases hf : style.first [wRPr] with
    | none => rw [hf] at hl; cases hl; exact .nil
    | some e =>
      rw [hf] at hl
      simp only at hl
      cases hr : runPropsOf e with
      | error x => rw [hr] at hl; cases hl
      | ok p => rw [hr] at hl; cases hl; exact .cons hr .nil
  induction h with
  | root found layer base => exact ⟨_, .root found base, one layer⟩
  | based found layer base _ ih =>
    obtain ⟨ns, h1, h2⟩ := ih
    refine ⟨_, .based found base h1, ?_⟩
    rw [List.filterMap_append]
    exact List.rel_append h2 (one layer)

/-- a lookup which answers found the last style of that name -/
theorem getStyle_inv {doc : Node} {ty name : Str} {v : Option RunProps} (h : (getStyle doc ty name []).1 = .ok v) :
    ∃ earlier style later id ids layers, stylesOfType doc ty = earlier ++ style :: later ∧ KnownAs style name ∧ (∀ s ∈ later, ¬ KnownAs s name) ∧
      style.attr? c!"w:styleId" = some id ∧ Chain doc ty id ids layers ∧ v = mergeLayers layers := by
  unfold getStyle at h
  cases hd : aliasDct (stylesOfType doc ty) with
  | error e => rw [hd] at h; cases h
  | ok d =>
    rw [hd] at h
    simp only at h
    cases hid : dictGet d name with
    | none => rw [hid] at h; cases h
    | some id =>
      rw [hid] at h
      simp only at h
      obtain ⟨ids, layers, hc, rfl⟩ := (cached_raw (styleFuel doc ty) id [] (by intro ty id v hm; cases hm)).2.2 v h
      have hmem : ∀ (ss : List Node) (d : List (Str × Str)), aliasDct ss = .ok d → dictGet d name = some id →
          ∃ earlier style later, ss = earlier ++ style :: later ∧ KnownAs style name ∧ (∀ s ∈ later, ¬ KnownAs s name) ∧
            style.attr? c!"w:styleId" = some id := by
        intro ss
        induction ss with
        | nil => intro d hd hid; cases hd; cases hid
        | cons s ss ih =>
          intro d hd hid
          rw [aliasDct] at hd
          obtain ⟨ns, h1, hd⟩ := except_bind_ok hd
          obtain ⟨rest, h2, hd⟩ := except_bind_ok hd
          cases hd
          rw [dictGet_append] at hid
          cases hr : dictGet rest name with
          | some v =>
            rw [hr] at hid
            cases hid
            obtain ⟨e, s', l, g1, g2⟩ := ih rest h2 hr
            exact ⟨s :: e, s', l, by rw [g1]; rfl, g2⟩
          | none =>
            rw [hr] at hid
            obtain ⟨id', h3, h4, h5⟩ := styleNames_ok h1
            have hm := List.mem_reverse.1 (lookup_some_mem hid)
            have := h4 _ hm
            simp only at this
            refine ⟨[], s, ss, rfl, (h5 name).1 ⟨_, hm, rfl⟩, ?_, by rw [this]; exact h3⟩
            intro x hx hk
            clear ih
            have hnone : ∀ (ss : List Node) (rest : List (Str × Str)), aliasDct ss = .ok rest → dictGet rest name = none → ∀ x ∈ ss, ¬ KnownAs x name := by
              intro ss
              induction ss with
              | nil => intro _ _ _ x hx; cases hx
              | cons s ss ih =>
                intro rest h2 hr x hx
                rw [aliasDct] at h2
                obtain ⟨ns, h1, h2⟩ := except_bind_ok h2
                obtain ⟨rest', h2', h2⟩ := except_bind_ok h2
                cases h2
                rw [dictGet_append] at hr
                cases hr' : dictGet rest' name with
                | some v => rw [hr'] at hr; cases hr
                | none =>
                  rw [hr'] at hr
                  rcases List.mem_cons.1 hx with rfl | hx
                  · intro hk
                    obtain ⟨id', h3, h4, h5⟩ := styleNames_ok h1
                    obtain ⟨e, he, hek⟩ := (h5 name).2 hk
                    have : name ∉ ns.reverse.map (·.1) := lookup_none_iff.1 hr
                    exact this (List.mem_map.2 ⟨e, List.mem_reverse.2 he, hek⟩)
                  · exact ih rest' h2' hr' x hx
            exact hnone ss rest h2 hr x hx hk
      obtain ⟨e, s, l, g1, g2, g3, g4⟩ := hmem _ d hd hid
      exact ⟨e, s, l, id, ids, layers, g1, g2, g3, g4, hc, rfl⟩

/-- the formatting of a run as it is computed -/
theorem run_layers {doc : WordDoc} {r : Node} {style : Option RunProps} (h : extractRRpr doc r = .ok style) :
    ∃ ns ps, RunLayers doc.styles r ns ∧ List.Forall₂ (fun n p => runPropsOf n = .ok p) ns ps ∧ style = mergeLayers (ps.map some) := by
  unfold extractRRpr at h
  cases hr : r.first [wRPr] with
  | none => rw [hr] at h; cases h; exact ⟨[], [], .plain hr, .nil, rfl⟩
  | some own =>
    rw [hr] at h
    obtain ⟨props, hp, h⟩ := except_bind_ok h
    cases hs : own.attrFirst [c!"w:rStyle"] aVal with
    | none => rw [hs] at h; cases h; exact ⟨[own], [props], .own hr hs, .cons hp .nil, rfl⟩
    | some name =>
      rw [hs] at h
      obtain ⟨st, hst, h⟩ := except_bind_ok h
      obtain ⟨e, s, l, id, ids, layers, g1, g2, g3, g4, g5, rfl⟩ := getStyle_inv hst
      obtain ⟨ns, k1, k2⟩ := chain_layers g5
      refine ⟨ns ++ [own], layers.filterMap (fun o => o) ++ [props], .styled hr hs g1 g2 g3 g4 k1, List.rel_append k2 (.cons hp .nil), ?_⟩
      rw [List.map_append, List.map_cons, List.map_nil, mergeLayers_snoc]
      have : mergeLayers ((layers.filterMap (fun o => o)).map some) = mergeLayers layers := by
        unfold mergeLayers
        rw [List.filterMap_map]
        simp only [Function.comp_def, id_eq]
        rw [show List.filterMap (fun x : RunProps => some x) = fun l => l from by funext l; simp]
      rw [this]
      cases hm : mergeLayers layers with
      | none => rw [hm] at h; cases h; rfl
      | some x => rw [hm] at h; cases h; rfl

theorem lastSet_map {α γ : Type} (f : α → γ) (l : List (Option α)) : lastSet (l.map (Option.map f)) = (lastSet l).map f := by
  unfold lastSet
  rw [← List.map_reverse]
  induction l.reverse with
  | nil => rfl
  | cons o l ih =>
    cases o with
    | none => simpa using ih
    | some a => simp

theorem lastSet_none {α : Type} : lastSet ([] : List (Option α)) = none := rfl

theorem forall2_map_eq {α γ δ : Type} {R : α → γ → Prop} {as : List α} {bs : List γ} (h : List.Forall₂ R as bs) {f : α → δ} {g : γ → δ}
    (hfg : ∀ a b, a ∈ as → R a b → g b = f a) : bs.map g = as.map f := by
  induction h with
  | nil => rfl
  | cons hr _ ih =>
    rw [List.map_cons, List.map_cons, hfg _ _ List.mem_cons_self hr, ih (fun a b ha => hfg a b (List.mem_cons_of_mem _ ha))]

/-- the formatting of a run is the one of its layers -/
theorem format_layers {ns : List Node} {ps : List RunProps} (h : List.Forall₂ (fun n p => runPropsOf n = .ok p) ns ps) (hn : ∀ n ∈ ns, PlainLayer n) :
    ((mergeLayers (ps.map some)).map formatOf).getD ⟨none, none, none, none, none⟩ = wordFormat ns := by
  have hb : ps.map (·.bold) = ns.map (switch · c!"w:b") := forall2_map_eq h (fun n p hm hp => (props_settings hp (hn n hm)).1)
  have hi : ps.map (·.italics) = ns.map (switch · c!"w:i") := forall2_map_eq h (fun n p hm hp => (props_settings hp (hn n hm)).2.1)
  have hu : ps.map (·.underline) = ns.map underlineSet := forall2_map_eq h (fun n p hm hp => (props_settings hp (hn n hm)).2.2.1)
  have hs : ps.map (·.strike) = ns.map (switch · c!"w:strike") := forall2_map_eq h (fun n p hm hp => (props_settings hp (hn n hm)).2.2.2.1)
  have hv : (ps.map (·.vert)).map (Option.map vertCss) = (ns.map vertSet).map
      (Option.map (fun v => if v = c!"subscript" then c!"sub" else if v = c!"superscript" then c!"super" else c!"baseline")) := by
    rw [List.map_map, List.map_map]
    exact forall2_map_eq h (fun n p hm hp => (props_settings hp (hn n hm)).2.2.2.2.1)
  have hc : ps.map (·.color) = ns.map colorSet := forall2_map_eq h (fun n p hm hp => (props_settings hp (hn n hm)).2.2.2.2.2)
  have hcol : ∀ c ∈ ns.map colorSet, c ≠ some c!"auto" := by
    intro c hc he
    obtain ⟨n, hm, rfl⟩ := List.mem_map.1 hc
    exact absurd ((hn n hm).2 _ he) (by decide)
  have hprop : ∀ p ∈ ps, p.Proper := by
    intro p hp
    obtain ⟨n, _, hr⟩ := forall2_right h hp
    exact runPropsOf_proper hr
  have hflat : (ps.map some).filterMap id = ps := by
    rw [List.filterMap_map]
    simp
  unfold wordFormat
  have hv' := congrArg lastSet hv
  rw [lastSet_map, lastSet_map] at hv'
  rw [← hb, ← hi, ← hu, ← hs, ← hc, ← hv']
  have hcolb : (lastSet (ps.map (·.color))).bind (fun c => if c = c!"auto" then none else some ('#' :: c)) = (lastSet (ps.map (·.color))).map (fun c => '#' :: c) := by
    cases hl : lastSet (ps.map (·.color)) with
    | none => rfl
    | some c =>
      have hm : some c ∈ ps.map (·.color) := by
        unfold lastSet at hl
        obtain ⟨x, hx, he⟩ := List.exists_of_findSome?_eq_some hl
        rw [id] at he
        subst he
        exact List.mem_reverse.1 hx
      rw [hc] at hm
      have : c ≠ c!"auto" := fun he => hcol _ hm (by rw [he])
      simp [this]
  rw [hcolb]
  unfold mergeLayers
  rw [hflat]
  cases ps with
  | nil => rfl
  | cons p ps =>
    obtain ⟨e1, e2, e3, e4, e5, e6⟩ := C46_last_layer p ps (hprop p List.mem_cons_self) (fun l hl => hprop l (List.mem_cons_of_mem _ hl))
    simp only [Option.map_some, Option.getD_some]
    unfold formatOf
    rw [e1, e2, e3, e4, e5, e6]
    congr 1

theorem parseRun_span {doc : WordDoc} {r : Node} {spans : List HSpan} (h : parseRun doc r = .ok spans) :
    (((r.first [wT]).bind Node.text?) = none ∧ spans = []) ∨
    ∃ t style, ((r.first [wT]).bind Node.text?) = some t ∧ extractRRpr doc r = .ok style ∧ spans = [⟨style, t⟩] := by
  unfold parseRun at h
  cases ht : (r.first [wT]).bind Node.text? with
  | none => rw [ht] at h; cases h; exact .inl ⟨rfl, rfl⟩
  | some t =>
    rw [ht] at h
    obtain ⟨st, h1, h⟩ := except_bind_ok h
    cases h
    exact .inr ⟨t, st, rfl, h1, rfl⟩

/-- C69: In any Word document, take any paragraph which can be read. Its parts correspond one by one to its runs with text; each has the
text of the run and the formatting which the layers of the run give it, provided that switches are not written as `false` or `off` and
that colours have six digits.
Not shown: the other spellings (`C69_switch_false`, `C69_auto_color_false`), and formatting by styles of the paragraph or the table,
which is not taken over (`C69_paragraph_style_false`). -/
theorem C69_runs_partial {doc : WordDoc} {p : Node} {spans : List HSpan} (h : parseSpans doc p = .ok spans) :
    List.Forall₂ (fun r s => (r.first [wT]).bind Node.text? = some s.text ∧
      ∃ layers, RunLayers doc.styles r layers ∧
        ((∀ n ∈ layers, PlainLayer n) → (Part.text s).shown = .text (wordFormat layers) (eolNorm s.text)))
      (textRuns p) spans := by
  unfold parseSpans at h
  unfold textRuns
  generalize p.elems = cs at h
  have one : ∀ {r : Node} {s : List HSpan}, parseRun doc r = .ok s →
      List.Forall₂ (fun r s => (r.first [wT]).bind Node.text? = some s.text ∧
      ∃ layers, RunLayers doc.styles r layers ∧
        ((∀ n ∈ layers, PlainLayer n) → (Part.text s).shown = .text (wordFormat layers) (eolNorm s.text)))
        ([r].filter (fun r => ((r.first [wT]).bind Node.text?).isSome)) s := by
    intro r s hs
    rcases parseRun_span hs with ⟨h1, rfl⟩ | ⟨t, style, h1, h2, rfl⟩
    · rw [List.filter_cons_of_neg (p := fun r : Node => ((r.first [wT]).bind Node.text?).isSome) (by rw [h1]; decide)]
      exact .nil
    · rw [List.filter_cons_of_pos (p := fun r : Node => ((r.first [wT]).bind Node.text?).isSome) (by rw [h1]; rfl)]
      obtain ⟨ns, ps, k1, k2, rfl⟩ := run_layers h2
      refine .cons ⟨h1, ns, k1, fun hn => ?_⟩ .nil
      rw [Part.shown, format_layers k2 hn]
  induction cs generalizing spans with
  | nil => cases h; exact .nil
  | cons c cs ih =>
    rw [parseChildren] at h
    obtain ⟨s, h1, h⟩ := except_bind_ok h
    obtain ⟨ss, h2, h⟩ := except_bind_ok h
    cases h
    rw [List.flatMap_cons, List.filter_append]
    refine List.rel_append ?_ (ih h2)
    rcases parseChild_cases h1 with ⟨a, b⟩ | ⟨a, b, r, rs, e, g⟩ | ⟨a, b, rfl⟩
    · rw [if_pos a]; exact one b
    · rw [if_neg (by simp [a]), if_pos b, e]; exact one g
    · rw [if_neg (by simp [a]), if_neg (by simp [b])]; exact .nil

/-! ### What does not hold -/

/-- a run with text `x`, formatted as given -/
def exFormatted (settings : List Node) : Node := .elem wR [] [.elem wRPr [] settings, .elem wT [] [.text c!"x"]]

/-- C69 is false of `<w:b w:val="false"/>`: such a text is not bold in Word, but it is on the page. -/
theorem C69_switch_false : letI := Uni.ascii
    RunLayers (exDocOf []).styles (exFormatted [.elem c!"w:b" [(aVal, c!"false")] []]) [.elem wRPr [] [.elem c!"w:b" [(aVal, c!"false")] []]] ∧
    (wordFormat [.elem wRPr [] [.elem c!"w:b" [(aVal, c!"false")] []]]).weight = some c!"normal" ∧
    (parseSpans (exDocOf []) (.elem wP [] [exFormatted [.elem c!"w:b" [(aVal, c!"false")] []]])).toOption.map (·.map fun s => (Part.text s).shown) =
      some [.text ⟨some c!"bold", none, none, none, none⟩ c!"x"] := by
  let _ := Uni.ascii
  exact ⟨.own rfl rfl, by decide +kernel, by decide +kernel⟩

/-- styles: the character style `Red`, and the paragraph style `Bold` -/
def exRedBold : WordDoc := ⟨.elem c!"w:document" [] [.elem c!"w:body" [] []], none, .elem c!"w:styles" []
  [.elem c!"w:style" [(c!"w:type", c!"character"), (c!"w:styleId", c!"Red")] [.elem wRPr [] [.elem c!"w:color" [(aVal, c!"FF0000")] []]],
   .elem c!"w:style" [(c!"w:type", c!"paragraph"), (c!"w:styleId", c!"Bold")] [.elem wRPr [] [.elem c!"w:b" [] []]]]⟩

/-- C69 is false of `<w:color w:val="auto"/>`: it takes back the colour of the style of the run, but the page shows that colour. -/
theorem C69_auto_color_false : letI := Uni.ascii
    RunLayers exRedBold.styles (exFormatted [.elem c!"w:rStyle" [(aVal, c!"Red")] [], .elem c!"w:color" [(aVal, c!"auto")] []])
      ([.elem wRPr [] [.elem c!"w:color" [(aVal, c!"FF0000")] []]] ++
        [.elem wRPr [] [.elem c!"w:rStyle" [(aVal, c!"Red")] [], .elem c!"w:color" [(aVal, c!"auto")] []]]) ∧
    (wordFormat ([.elem wRPr [] [.elem c!"w:color" [(aVal, c!"FF0000")] []]] ++
        [.elem wRPr [] [.elem c!"w:rStyle" [(aVal, c!"Red")] [], .elem c!"w:color" [(aVal, c!"auto")] []]])).color = none ∧
    (parseSpans exRedBold (.elem wP [] [exFormatted [.elem c!"w:rStyle" [(aVal, c!"Red")] [], .elem c!"w:color" [(aVal, c!"auto")] []]])).toOption.map
      (·.map fun s => (Part.text s).shown) = some [.text ⟨none, none, none, none, some c!"#FF0000"⟩ c!"x"] := by
  let _ := Uni.ascii
  have hl : StyleLayers exRedBold.styles c!"Red" [.elem wRPr [] [.elem c!"w:color" [(aVal, c!"FF0000")] []]] := StyleLayers.root
    (style := .elem c!"w:style" [(c!"w:type", c!"character"), (c!"w:styleId", c!"Red")] [.elem wRPr [] [.elem c!"w:color" [(aVal, c!"FF0000")] []]]) rfl rfl
  refine ⟨.styled (name := c!"Red") (id := c!"Red") (earlier := []) (later := []) rfl rfl rfl (.inl rfl) (by simp) rfl hl,
    by decide +kernel, by decide +kernel⟩

/-- C69 is false of paragraph styles: the formatting which they define for the text of the paragraph is not shown. -/
theorem C69_paragraph_style_false : letI := Uni.ascii
    (getStyle exRedBold.styles c!"paragraph" c!"Bold" []).1.toOption.map (·.map RunProps.bold) = some (some (some true)) ∧
    (parseSpans exRedBold (.elem wP [] [.elem wPPr [] [.elem c!"w:pStyle" [(aVal, c!"Bold")] []], exFormatted []])).toOption.map
      (·.map fun s => (Part.text s).shown) = some [.text ⟨none, none, none, none, none⟩ c!"x"] := by
  let _ := Uni.ascii
  exact ⟨by decide +kernel, by decide +kernel⟩

/-! ### Examples -/

/-- a run in the style `Red`, bold and underlined, and one which is struck through and superscript -/
example : letI := Uni.ascii
    (parseSpans exRedBold (.elem wP [] [
      exFormatted [.elem c!"w:rStyle" [(aVal, c!"Red")] [], .elem c!"w:b" [] [], .elem c!"w:i" [(aVal, c!"0")] [], .elem c!"w:u" [(aVal, c!"single")] []],
      exFormatted [.elem c!"w:strike" [(aVal, c!"1")] [], .elem c!"w:vertAlign" [(aVal, c!"superscript")] []]])).toOption.map
      (·.map fun s => (Part.text s).shown) = some [
        .text ⟨some c!"bold", some c!"normal", some c!"underline", none, some c!"#FF0000"⟩ c!"x",
        .text ⟨none, none, some c!"line-through", some c!"super", none⟩ c!"x"] := by
  let _ := Uni.ascii
  decide +kernel

example : letI := Uni.ascii
    PlainLayer (.elem wRPr [] [.elem c!"w:b" [] [], .elem c!"w:i" [(aVal, c!"0")] [], .elem c!"w:color" [(aVal, c!"FF0000")] []]) := by
  let _ := Uni.ascii
  refine ⟨?_, ?_⟩
  · intro tag ht e v he hv
    simp only [List.mem_cons, List.not_mem_nil, or_false] at ht
    rcases ht with rfl | rfl | rfl
    · cases he; cases hv
    · cases he; cases hv; decide +kernel
    · cases he
  · intro c hc
    cases hc; rfl

/-- a Word file with a table: a cell with a background, and a cell with formatted texts -/
def exColorFile : WordFile where
  document := .ok (.elem c!"w:document" [] [.elem c!"w:body" [] [.elem wTbl [] [exTr [
    exCell [.elem c!"w:shd" [(c!"w:fill", c!"BFBFBF")] []] [exPara "Bits"],
    exCell [] [.elem wP [] [exFormatted [.elem c!"w:rStyle" [(aVal, c!"Red")] []], exFormatted [.elem c!"w:b" [] [], .elem c!"w:u" [(aVal, c!"single")] []]]]]]]])
  numbering := .error .keyError
  header := .ok exHeader
  styles := .ok exRedBold.styles

/-- the hypotheses of C69 -/
example : letI := Uni.ascii
    ∃ doc us, Readable exColorFile c!"nvme" doc c!"NVM Express® Base Specification, Revision 2.0c" us ∧ (∀ p ∈ unitsParts us, p.Fine) ∧
      (unitsParts us).map Part.shown = [
        .cell c!"th" (some c!"#BFBFBF"), .text ⟨none, none, none, none, none⟩ c!"Bits", .cell c!"td" none,
        .text ⟨none, none, none, none, some c!"#FF0000"⟩ c!"x", .text ⟨some c!"bold", none, some c!"underline", none, none⟩ c!"x"] := by
  let _ := Uni.ascii
  obtain ⟨⟨doc, header⟩, h0, h00, h01, h02⟩ : ∃ r, openWord exColorFile = .ok r ∧ r.2 = c!"NVM Express® Base Specification, Revision 2.0c" ∧
      XmlText r.1.root.flat ∧ (parseWord r.1).toOption.map (fun us => ((unitsParts us).all Part.fine, (unitsParts us).map Part.shown)) = some (true, [
        .cell c!"th" (some c!"#BFBFBF"), .text ⟨none, none, none, none, none⟩ c!"Bits", .cell c!"td" none,
        .text ⟨none, none, none, none, some c!"#FF0000"⟩ c!"x", .text ⟨some c!"bold", none, some c!"underline", none, none⟩ c!"x"]) :=
    ⟨_, rfl, by decide +kernel, by decide +kernel, by decide +kernel⟩
  simp only at h00 h01 h02
  subst h00
  obtain ⟨us, h1, h2, h3⟩ : ∃ us, parseWord doc = .ok us ∧ (unitsParts us).all Part.fine = true ∧ (unitsParts us).map Part.shown = [
        .cell c!"th" (some c!"#BFBFBF"), .text ⟨none, none, none, none, none⟩ c!"Bits", .cell c!"td" none,
        .text ⟨none, none, none, none, some c!"#FF0000"⟩ c!"x", .text ⟨some c!"bold", none, some c!"underline", none, none⟩ c!"x"] := by
    cases h : parseWord doc with
    | error e => rw [h] at h02; cases h02
    | ok us =>
      rw [h] at h02
      simp only [Except.toOption, Option.map_some, Option.some.injEq, Prod.mk.injEq] at h02
      exact ⟨us, rfl, h02.1, h02.2⟩
  refine ⟨doc, us, ⟨h0, h01, h1, ?_, ?_, ?_⟩, fun p hp => Part.fine_ok (List.all_eq_true.1 h2 p hp), h3⟩
  · have : (headerTitle c!"NVM Express® Base Specification, Revision 2.0c").all (fun c => isXmlChar c && !(c!"<>&\"\t\n\r").contains c) = true := by
      decide +kernel
    intro c hc
    have := List.all_eq_true.1 this c hc
    simpa only [Bool.and_eq_true, Bool.not_eq_true', List.contains_eq_mem, decide_eq_false_iff_not] using this
  · have : headerRevision c!"NVM Express® Base Specification, Revision 2.0c" = some c!"2.0c" := by decide +kernel
    intro r hr
    rw [this] at hr
    cases hr
    unfold HeadText
    decide +kernel
  · unfold HeadText
    decide +kernel

end Spex
