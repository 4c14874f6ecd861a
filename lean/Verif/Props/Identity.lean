import Verif.Model.Header
import Verif.Lemmas.RegexMem
import Verif.Lemmas.Str
import Verif.Model.Output
import Verif.Props.Stages
/-
C51: title and revision of a document.
-/
set_option autoImplicit false
namespace Spex

/-! ### Specification -/

/-- The first line of `h` mentions a revision after `a`: the word `revision` or `Revision`, then white space, then `w` up to the next white
space. -/
def RevisionAt (h a w : Str) : Prop :=
  '\n' ∉ a ∧ ∃ (x : Char) (sp rest : Str), (x = 'R' ∨ x = 'r') ∧ h = a ++ x :: (c!"evision" ++ sp ++ w ++ rest) ∧
    sp ≠ [] ∧ (∀ c ∈ sp, isSpace c = true) ∧ w ≠ [] ∧ (∀ c ∈ w, isSpace c = false) ∧ (∀ c, rest.head? = some c → isSpace c = true)

/-- `t` is the part of `h` before the first comma, without white space around it -/
def TitleOf (h t : Str) : Prop :=
  ∃ s1 s2 rest, h = s1 ++ t ++ s2 ++ rest ∧ (rest = [] ∨ ∃ r, rest = ',' :: r) ∧ ',' ∉ s1 ++ t ++ s2 ∧
    (∀ c ∈ s1, isSpace c = true) ∧ (∀ c ∈ s2, isSpace c = true) ∧
    (∀ c, t.head? = some c → isSpace c = false) ∧ (∀ c, t.getLast? = some c → isSpace c = false)

/-! ### Proof -/

/-- the first success of an expression after `[..]*`: for the longest piece after which there is any -/
theorem star_flatMap_head {p : Char → Bool} {f : MS → List MS} (g : List (Nat × Str)) (hf : ∀ b r, f ⟨b, r, g⟩ = f ⟨false, r, g⟩)
    (b : Bool) (s : Str) :
    (∀ u, ((starRuns p b s g).flatMap f).head? = some u → ∃ a r, s = a ++ r ∧ (∀ c ∈ a, p c = true) ∧ (f ⟨false, r, g⟩).head? = some u ∧
      ∀ a' r', s = a' ++ r' → (∀ c ∈ a', p c = true) → f ⟨false, r', g⟩ ≠ [] → a'.length ≤ a.length) ∧
    ((starRuns p b s g).flatMap f = [] → ∀ a' r', s = a' ++ r' → (∀ c ∈ a', p c = true) → f ⟨false, r', g⟩ = []) := by
  induction s generalizing b with
  | nil =>
    rw [starRuns]
    constructor
    · intro u hu
      rw [List.flatMap_singleton, hf] at hu
      refine ⟨[], [], rfl, by simp, hu, fun a' r' h _ _ => ?_⟩
      rw [(List.append_eq_nil_iff.1 h.symm).1] <;> exact Nat.le_refl _
    · intro hn a' r' h _
      rw [List.flatMap_singleton, hf] at hn
      rw [(List.append_eq_nil_iff.1 h.symm).2]; exact hn
  | cons c s ih =>
    rw [starRuns]
    by_cases hc : p c = true
    · rw [if_pos hc, List.flatMap_append, List.flatMap_singleton, hf]
      obtain ⟨ih1, ih2⟩ := ih false
      constructor
      · intro u hu
        rw [List.head?_append] at hu
        cases hh : ((starRuns p false s g).flatMap f).head? with
        | some v =>
          rw [hh] at hu
          cases hu
          obtain ⟨a, r, h1, h2, h3, h4⟩ := ih1 u hh
          refine ⟨c :: a, r, by rw [h1]; rfl, ?_, h3, fun a' r' h5 h6 h7 => ?_⟩
          · intro x hx
            rcases List.mem_cons.1 hx with rfl | hx
            · exact hc
            · exact h2 x hx
          · cases a' with
            | nil => simp
            | cons c' a' =>
              rw [List.cons_append, List.cons.injEq] at h5
              have := h4 a' r' h5.2 (fun x hx => h6 x (List.mem_cons_of_mem _ hx)) h7
              simp only [List.length_cons]; omega
        | none =>
          rw [hh] at hu
          have hn := ih2 (List.head?_eq_none_iff.1 hh)
          refine ⟨[], c :: s, rfl, by simp, by simpa using hu, fun a' r' h5 h6 h7 => ?_⟩
          cases a' with
          | nil => simp
          | cons c' a' =>
            rw [List.cons_append, List.cons.injEq] at h5
            exact absurd (hn a' r' h5.2 (fun x hx => h6 x (List.mem_cons_of_mem _ hx))) h7
      · intro hn a' r' h5 h6
        rw [List.append_eq_nil_iff] at hn
        cases a' with
        | nil => rw [List.nil_append] at h5; rw [← h5]; exact hn.2
        | cons c' a' =>
          rw [List.cons_append, List.cons.injEq] at h5
          exact ih2 hn.1 a' r' h5.2 (fun x hx => h6 x (List.mem_cons_of_mem _ hx))
    · rw [if_neg hc, List.flatMap_singleton, hf]
      have key : ∀ a' r', c :: s = a' ++ r' → (∀ c ∈ a', p c = true) → a' = [] ∧ r' = c :: s := by
        intro a' r' h5 h6
        cases a' with
        | nil => exact ⟨rfl, h5.symm⟩
        | cons c' a' =>
          rw [List.cons_append, List.cons.injEq] at h5
          rw [← h5.1] at h6
          exact absurd (h6 c (by simp)) hc
      constructor
      · intro u hu
        exact ⟨[], c :: s, rfl, by simp, hu, fun a' r' h5 h6 _ => by rw [(key a' r' h5 h6).1] <;> exact Nat.le_refl _⟩
      · intro hn a' r' h5 h6
        rw [(key a' r' h5 h6).2]; exact hn

/-- the part of the expression from the word on -/
def revisionTail : Re := .seqs [.cls (fun c => c == 'R' || c == 'r'), .lit c!"evision", .plus isSpace,
  .grp 1 (.plus (fun c => !isSpace c)), .star (fun c => c != '\n')]

theorem revisionTail_flag (b : Bool) (r : Str) (g : List (Nat × Str)) : revisionTail.run ⟨b, r, g⟩ = revisionTail.run ⟨false, r, g⟩ := by
  unfold revisionTail
  simp only [Re.seqs]
  rw [Re.run, Re.run, Re.run, Re.run]

theorem not_space {w : Str} (h : ∀ c ∈ w, isSpace c = false) : ∀ c ∈ w, (!isSpace c) = true := fun c hc => by rw [h c hc]; rfl

theorem revisionTail_head {x : Char} {sp w rest : Str} (hx : x = 'R' ∨ x = 'r') (h1 : sp ≠ []) (h2 : ∀ c ∈ sp, isSpace c = true)
    (h3 : w ≠ []) (h4 : ∀ c ∈ w, isSpace c = false) (h5 : ∀ c, rest.head? = some c → isSpace c = true) (g : List (Nat × Str)) :
    ∃ t, (revisionTail.run ⟨false, x :: (c!"evision" ++ sp ++ w ++ rest), g⟩).head? = some t ∧ t.caps = (1, w) :: g := by
  obtain ⟨c1, sp', rfl⟩ := List.exists_cons_of_ne_nil h1
  obtain ⟨c2, w', rfl⟩ := List.exists_cons_of_ne_nil h3
  have hd1 : (c1 :: sp' ++ (c2 :: w' ++ rest)).dropWhile isSpace = c2 :: w' ++ rest :=
    dropWhile_append_head h2 (fun c hc => by
      have : c = c2 := by simpa using hc.symm
      rw [this]; exact h4 c2 (by simp))
  have hd2 : (c2 :: w' ++ rest).takeWhile (fun c => !isSpace c) = c2 :: w' :=
    takeWhile_append_head (not_space h4) (fun c hc => by rw [h5 c hc]; rfl)
  unfold revisionTail
  simp only [Re.seqs]
  refine ⟨_, run_seq_head (t := ⟨false, c!"evision" ++ (c1 :: sp') ++ (c2 :: w') ++ rest, g⟩) ?_ (run_seq_head
    (t := ⟨false, (c1 :: sp') ++ ((c2 :: w') ++ rest), g⟩) ?_ (run_seq_head (t := ⟨false, c2 :: w' ++ rest, g⟩) ?_
      (run_seq_head (grp_plus_head (c := c2) (s := w' ++ rest) rfl (not_space h4 c2 (by simp))) star_head))), ?_⟩
  · rw [Re.run]
    rcases hx with rfl | rfl <;> rfl
  · rw [run_lit (by decide), if_pos ⟨(c1 :: sp') ++ ((c2 :: w') ++ rest), by simp⟩]
    simp
  · rw [plus_head (c := c1) (s := sp' ++ (c2 :: w' ++ rest)) rfl (h2 c1 (by simp))]
    rw [hd1]
  · simp only [hd2]

theorem revisionTail_some {s : Str} {g : List (Nat × Str)} (h : revisionTail.run ⟨false, s, g⟩ ≠ []) :
    ∃ (x : Char) (sp w rest : Str), (x = 'R' ∨ x = 'r') ∧ s = x :: (c!"evision" ++ sp ++ w ++ rest) ∧
      sp ≠ [] ∧ (∀ c ∈ sp, isSpace c = true) ∧ w ≠ [] ∧ (∀ c ∈ w, isSpace c = false) ∧ (∀ c, rest.head? = some c → isSpace c = true) := by
  obtain ⟨t, ht⟩ := List.exists_mem_of_ne_nil _ h
  unfold revisionTail at ht
  simp only [Re.seqs] at ht
  rw [mem_run_seq] at ht
  obtain ⟨t1, h1, ht⟩ := ht
  rw [mem_run_seq] at ht
  obtain ⟨t2, h2, ht⟩ := ht
  rw [mem_run_seq] at ht
  obtain ⟨t3, h3, ht⟩ := ht
  rw [mem_run_seq] at ht
  obtain ⟨t4, h4, ht⟩ := ht
  rw [mem_run_lit (by decide)] at h2
  rw [mem_run_plus] at h3
  rw [mem_run_grp_plus] at h4
  obtain ⟨sp, s1, s2, s3, -⟩ := h3
  obtain ⟨w, w1, w2, w3, -⟩ := h4
  rw [Re.run] at h1
  cases s with
  | nil => simp at h1
  | cons x s =>
    simp only at h1
    split at h1
    · rename_i hx
      rw [List.mem_singleton] at h1
      subst h1
      have e : s = c!"evision" ++ sp ++ (w ++ t4.rest) := by
        have := h2.1
        simp only at this
        rw [this, s3, w3]; simp
      refine ⟨x, sp, w ++ t4.rest.takeWhile (fun c => !isSpace c), t4.rest.dropWhile (fun c => !isSpace c), by simpa using hx, ?_, s1, s2,
        by simp [w1], ?_, ?_⟩
      · rw [List.append_assoc, List.append_assoc, List.append_assoc, List.takeWhile_append_dropWhile, ← List.append_assoc, ← e]
      · intro c hc
        rcases List.mem_append.1 hc with hc | hc
        · simpa using w2 c hc
        · simpa using List.all_eq_true.1 (List.all_takeWhile (p := fun c => !isSpace c) (l := t4.rest)) c hc
      · intro c hc
        have := List.head?_dropWhile_not (fun c => !isSpace c) t4.rest
        rw [hc] at this
        simpa using this
    · cases h1

theorem revision_run (s : Str) : revisionRe.run ⟨true, s, []⟩ = (starRuns (fun c => c != '\n') true s []).flatMap revisionTail.run := rfl

theorem ne_nl {a : Str} : (∀ c ∈ a, (c != '\n') = true) ↔ '\n' ∉ a := by
  constructor
  · intro h hm; exact absurd (h _ hm) (by decide)
  · intro h c hc
    simp only [bne_iff_ne, ne_eq]
    rintro rfl; exact h hc

/-! ### C51 -/

mutual
/-- the text which stands in `w:t` elements, in the order of the document; `b` says whether the element around is a `w:t` -/
def wordText (b : Bool) : Node → Str
  | .text s => if b then s else []
  | .elem t _ ks => wordTexts (t = wT) ks
def wordTexts (b : Bool) : List Node → Str
  | [] => []
  | k :: ks => wordText b k ++ wordTexts b ks
end

mutual
/-- the `w:t` elements hold nothing but one text, as Word writes them -/
def TextOnly : Node → Prop
  | .text _ => True
  | .elem t _ ks => (t = wT → ks = [] ∨ ∃ s, ks = [.text s]) ∧ TextOnlys ks
def TextOnlys : List Node → Prop
  | [] => True
  | k :: ks => TextOnly k ∧ TextOnlys ks
end

mutual
theorem header_desc (path : List Nat) : (n : Node) → TextOnly n → n.hasTag wT = false →
    (descendants wT path n).flatMap (fun l => (l.node.text?).getD []) = wordText false n
  | .text s, _, _ => by rw [descendants, wordText]; rfl
  | .elem t as ks, h, ht => by
    have ht' : ¬ t = wT := by simpa [Node.hasTag] using ht
    rw [TextOnly] at h
    rw [descendants, wordText, header_desc_kids path 0 ks h.2]
    simp [ht']
theorem header_desc_kids (path : List Nat) (i : Nat) : (ks : List Node) → TextOnlys ks →
    (descendantsKids wT path i ks).flatMap (fun l => (l.node.text?).getD []) = wordTexts false ks
  | [], _ => by rw [descendantsKids, wordTexts]; rfl
  | k :: ks, h => by
    rw [TextOnlys] at h
    rw [descendantsKids, wordTexts, List.flatMap_append, List.flatMap_append, header_desc_kids path (i + 1) ks h.2]
    congr 1
    by_cases hk : k.hasTag wT = true
    · cases k with
      | text s => simp [Node.hasTag] at hk
      | elem t as kk =>
        have ht : t = wT := by simpa [Node.hasTag] using hk
        have h1 := h.1
        rw [TextOnly] at h1
        rcases h1.1 ht with rfl | ⟨s, rfl⟩
        · simp [hk, descendants, descendantsKids, wordText, wordTexts, Node.text?, Node.kids]
        · cases s <;> simp [hk, descendants, descendantsKids, wordText, wordTexts, Node.text?, Node.hasTag, Node.kids, Node.isElem, Node.flat, ht]
    · rw [if_neg hk, List.flatMap_nil, List.nil_append]
      exact header_desc _ k h.1 ((Bool.not_eq_true _).mp hk)
end

/-- C51: the text of the header from which title and revision are read is that of its runs, in order and with nothing between them -/
theorem C51_header_text (root : Node) (h : TextOnly root) (hr : root.hasTag wT = false) : headerText root = wordText false root :=
  header_desc [] root h hr

/-- C51: the revision is the one mentioned last in the first line of the header -/
theorem C51_revision (h w : Str) : headerRevision h = some w ↔
    ∃ a, RevisionAt h a w ∧ ∀ a' w', RevisionAt h a' w' → a'.length ≤ a.length := by
  obtain ⟨hs, hn⟩ := star_flatMap_head (p := fun c => c != '\n') (f := revisionTail.run) [] (fun b r => revisionTail_flag b r []) true h
  rw [← revision_run] at hs hn
  have hmax : ∀ {a r}, (∀ a' r', h = a' ++ r' → (∀ c ∈ a', (c != '\n') = true) → revisionTail.run ⟨false, r', []⟩ ≠ [] →
      a'.length ≤ List.length a) → h = a ++ r → ∀ a' w', RevisionAt h a' w' → a'.length ≤ a.length := by
    rintro a r hm - a' w' ⟨g1, x, sp, rest, g2, g3, g4, g5, g6, g7, g8⟩
    refine hm a' _ g3 (ne_nl.2 g1) (fun he => ?_)
    obtain ⟨t, ht, -⟩ := revisionTail_head g2 g4 g5 g6 g7 g8 []
    rw [he] at ht; cases ht
  have hfirst : ∀ u, (revisionRe.run ⟨true, h, []⟩).head? = some u → ∃ a w, RevisionAt h a w ∧ u.caps = [(1, w)] ∧
      ∀ a' w', RevisionAt h a' w' → a'.length ≤ a.length := by
    intro u hu
    obtain ⟨a, r, h1, h2, h3, h4⟩ := hs u hu
    have hne : revisionTail.run ⟨false, r, []⟩ ≠ [] := by intro he; rw [he] at h3; cases h3
    obtain ⟨x, sp, w, rest, g2, g3, g4, g5, g6, g7, g8⟩ := revisionTail_some hne
    obtain ⟨t, ht, htc⟩ := revisionTail_head g2 g4 g5 g6 g7 g8 []
    rw [← g3, h3] at ht
    cases ht
    exact ⟨a, w, ⟨ne_nl.1 h2, x, sp, rest, g2, by rw [← g3]; exact h1, g4, g5, g6, g7, g8⟩, htc, hmax h4 h1⟩
  constructor
  · intro hr
    unfold headerRevision Re.pmatch at hr
    cases hu : (revisionRe.run ⟨true, h, []⟩).head? with
    | none => rw [hu] at hr; cases hr
    | some u =>
      obtain ⟨a, w', h1, h2, h3⟩ := hfirst u hu
      rw [hu] at hr
      simp only [Option.map_some, Option.bind_some, h2, group] at hr
      cases hr
      exact ⟨a, h1, h3⟩
  · rintro ⟨a, ha, hm⟩
    cases hu : (revisionRe.run ⟨true, h, []⟩).head? with
    | none =>
      exfalso
      obtain ⟨g1, x, sp, rest, g2, g3, g4, g5, g6, g7, g8⟩ := ha
      have := hn (List.head?_eq_none_iff.1 hu) a _ g3 (ne_nl.2 g1)
      obtain ⟨t, ht, -⟩ := revisionTail_head g2 g4 g5 g6 g7 g8 []
      rw [this] at ht; cases ht
    | some u =>
      obtain ⟨a', w', h1, h2, h3⟩ := hfirst u hu
      have hl : a'.length = a.length := Nat.le_antisymm (hm a' w' h1) (h3 a w ha)
      have hw : w = w' := by
        obtain ⟨-, x, sp, rest, -, g3, g4, g5, g6, g7, g8⟩ := ha
        obtain ⟨-, x', sp', rest', -, k3, k4, k5, k6, k7, k8⟩ := h1
        rw [g3] at k3
        have h5 := (List.append_inj k3 hl.symm).2
        rw [List.cons.injEq, List.append_assoc, List.append_assoc, List.append_assoc, List.append_assoc] at h5
        have h6 := List.append_cancel_left h5.2
        have e1 : ∀ {sp w rest : Str}, (∀ c ∈ sp, isSpace c = true) → w ≠ [] → (∀ c ∈ w, isSpace c = false) →
            (∀ c, rest.head? = some c → isSpace c = true) →
            ((sp ++ (w ++ rest)).dropWhile isSpace).takeWhile (fun c => !isSpace c) = w := by
          intro sp w rest p1 p2 p3 p4
          rw [dropWhile_append_head p1, takeWhile_append_head (not_space p3)]
          · intro c hc; rw [p4 c hc]; rfl
          · intro c hc
            obtain ⟨y, w', rfl⟩ := List.exists_cons_of_ne_nil p2
            have : c = y := by simpa using hc.symm
            rw [this]; exact p3 y (by simp)
        rw [← e1 g5 g6 g7 g8, h6, e1 k5 k6 k7 k8]
      unfold headerRevision Re.pmatch
      rw [hu]
      simp [h2, group, hw, List.lookup]

/-- C51: there is no revision only if the first line of the header does not mention one -/
theorem C51_no_revision (h : Str) : headerRevision h = none ↔ ∀ a w, ¬ RevisionAt h a w := by
  constructor
  · intro hn a w ha
    -- of all mentions, the last one
    have : ∃ a w, RevisionAt h a w ∧ ∀ a' w', RevisionAt h a' w' → a'.length ≤ a.length := by
      by_contra hc
      have key : ∀ n, ∃ a w, RevisionAt h a w ∧ n ≤ a.length := by
        intro n
        induction n with
        | zero => exact ⟨a, w, ha, Nat.zero_le _⟩
        | succ n ih =>
          obtain ⟨a1, w1, h1, h2⟩ := ih
          by_contra hc'
          refine hc ⟨a1, w1, h1, fun a' w' h' => ?_⟩
          by_contra hl
          exact hc' ⟨a', w', h', by omega⟩
      obtain ⟨a1, w1, ⟨-, x, sp, rest, -, h1, -⟩, h2⟩ := key (h.length + 1)
      rw [h1] at h2
      simp only [List.length_append, List.length_cons] at h2
      omega
    obtain ⟨a, w, h1, h2⟩ := this
    rw [(C51_revision h w).2 ⟨a, h1, h2⟩] at hn
    cases hn
  · intro hn
    cases hr : headerRevision h with
    | none => rfl
    | some w =>
      obtain ⟨a, ha, -⟩ := (C51_revision h w).1 hr
      exact absurd ha (hn a w)

theorem strip_of {s1 t s2 : Str} (h1 : ∀ c ∈ s1, isSpace c = true) (h2 : ∀ c ∈ s2, isSpace c = true)
    (h3 : ∀ c, t.head? = some c → isSpace c = false) (h4 : ∀ c, t.getLast? = some c → isSpace c = false) :
    strip (s1 ++ t ++ s2) = t := by
  unfold strip stripBy rstripBy lstripBy
  cases t with
  | nil =>
    rw [List.append_nil, dropWhile_all (fun c hc => (List.mem_append.1 hc).elim (h1 c) (h2 c))]
    rfl
  | cons a t =>
    rw [List.append_assoc, dropWhile_append_head h1 (fun c hc => h3 c (by simpa using hc)), List.reverse_append,
      dropWhile_append_head (fun c hc => h2 c (List.mem_reverse.1 hc)) (fun c hc => h4 c (by rw [List.head?_reverse] at hc; exact hc)),
      List.reverse_reverse]

theorem strip_parts (s : Str) : ∃ s1 s2, s = s1 ++ strip s ++ s2 ∧ (∀ c ∈ s1, isSpace c = true) ∧ (∀ c ∈ s2, isSpace c = true) := by
  have hr : ∀ u : Str, u = rstripBy isSpace u ++ (u.reverse.takeWhile isSpace).reverse := by
    intro u
    unfold rstripBy
    rw [← List.reverse_append, List.takeWhile_append_dropWhile, List.reverse_reverse]
  refine ⟨s.takeWhile isSpace, ((lstripBy isSpace s).reverse.takeWhile isSpace).reverse, ?_, ?_, ?_⟩
  · unfold strip stripBy
    rw [List.append_assoc, ← hr, lstripBy, List.takeWhile_append_dropWhile]
  · exact List.all_eq_true.1 List.all_takeWhile
  · intro c hc
    exact List.all_eq_true.1 List.all_takeWhile c (List.mem_reverse.1 hc)

theorem strip_ends (s : Str) : (∀ c, (strip s).head? = some c → isSpace c = false) ∧ (∀ c, (strip s).getLast? = some c → isSpace c = false) := by
  refine ⟨fun c hc => ?_, fun c hc => rstripBy_last hc⟩
  obtain ⟨r, hr⟩ := rstripBy_prefix isSpace (lstripBy isSpace s)
  refine lstripBy_head (s := s) ?_
  rw [← hr, List.head?_append]
  unfold strip stripBy at hc
  rw [hc]; rfl

/-- C51: the title is the header up to the first comma, without white space around it -/
theorem C51_title (h t : Str) : headerTitle h = t ↔ TitleOf h t := by
  unfold headerTitle splitHead
  constructor
  · rintro rfl
    obtain ⟨s1, s2, h1, h2, h3⟩ := strip_parts (h.takeWhile (· != ','))
    obtain ⟨h4, h5⟩ := strip_ends (h.takeWhile (· != ','))
    refine ⟨s1, s2, h.dropWhile (· != ','), ?_, ?_, ?_, h2, h3, h4, h5⟩
    · rw [← h1, List.takeWhile_append_dropWhile]
    · cases hd : h.dropWhile (· != ',') with
      | nil => exact .inl rfl
      | cons c r =>
        have := List.head?_dropWhile_not (· != ',') h
        rw [hd] at this
        simp only [List.head?_cons, bne_eq_false_iff_eq] at this
        rw [this]
        exact .inr ⟨r, rfl⟩
    · rw [← h1]
      intro hm
      exact absurd (List.all_eq_true.1 List.all_takeWhile _ hm) (by decide)
  · rintro ⟨s1, s2, rest, rfl, h1, h2, h3, h4, h5, h6⟩
    rw [takeWhile_append_head]
    · exact strip_of h3 h4 h5 h6
    · intro c hc
      simp only [bne_iff_ne, ne_eq]
      rintro rfl; exact h2 hc
    · intro c hc
      rcases h1 with rfl | ⟨r, rfl⟩
      · cases hc
      · have : c = ',' := by simpa using hc.symm
        rw [this]; rfl

theorem findSome_clean (ns : List Node) (a : Str) : (ns.map Node.clean).findSome? (·.attr? a) = ns.findSome? (·.attr? a) := by
  induction ns with
  | nil => rfl
  | cons n ns ih => rw [List.map_cons, List.findSome?_cons, List.findSome?_cons, attr_clean, ih]

theorem metaAttr_page {version title fname : Str} {revision : Option Str} {body : List Node} {p : Node}
    (hp : p.clean = pageNode version title revision fname body) :
    metaAttr p c!"data-spec" = .ok title ∧ metaAttr p c!"data-revision" = reqAttr revision := by
  have h1 := childs_clean hp (by decide) c!"head"
  have he : ∃ hd, p.childs c!"head" = [hd] ∧ hd.clean = .elem c!"head" [] [
      .elem c!"meta" ([(c!"charset", c!"utf-8"), (c!"data-spec", title)] ++ optAttr c!"data-revision" revision) [],
      .elem c!"meta" [(c!"name", c!"spexVersion"), (c!"content", version)] [],
      .elem c!"title" [] (textKids fname),
      .elem c!"link" [(c!"rel", c!"stylesheet"), (c!"href", fname ++ c!".css")] []] := by
    cases hc : p.childs c!"head" with
    | nil => rw [hc] at h1; cases h1
    | cons hd r =>
      cases r with
      | nil =>
        rw [hc] at h1
        exact ⟨hd, rfl, by simpa [Node.hasTag] using h1⟩
      | cons x y => rw [hc] at h1; simp [Node.hasTag] at h1
  obtain ⟨hd, h2, h3⟩ := he
  have h4 := childs_clean h3 (by decide) c!"meta"
  unfold metaAttr
  simp only [h2, List.flatMap_singleton]
  constructor
  · rw [← findSome_clean, h4]; cases revision <;> rfl
  · rw [← findSome_clean, h4]; cases revision <;> rfl

/-- C51: The page made of a Word document carries the identity to the second stage: it is read as the document with the title and
revision of the header, in lower case. Without a revision in the header the second stage refuses it. -/
theorem C51_identity [Uni] (doc : WordDoc) (hx : XmlText doc.root.flat) (us : List HUnit) (h : parseWord doc = .ok us)
    (header version fname : Str) (h1 : HeadText version) (h2 : HeadText (headerTitle header))
    (h3 : ∀ r, headerRevision header = some r → HeadText r) (h4 : HeadText fname) (t : Str)
    (ht : Laid (renderPage version (headerTitle header) (headerRevision header) fname us).1 t) :
    ∃ p, readXml t = some p ∧ htmlToSpecDoc (.ok p) = match (generalizing := false) headerRevision header with
      | none => .error .runtimeError
      | some r => .ok ⟨p, lower (headerTitle header), lower r⟩ := by
  obtain ⟨p, hr, hp⟩ := page_read h1 h2 h3 h4 (parseWord_ok hx h) ht
  obtain ⟨m1, m2⟩ := metaAttr_page hp
  refine ⟨p, hr, ?_⟩
  unfold htmlToSpecDoc
  simp only [m1, m2]
  cases headerRevision header <;> rfl

/-! ### Examples -/

/-- a header -/
def exHeader : Node := .elem c!"w:hdr" [] [exPara "NVM Express® Base Specification, ", .elem wP [] [.elem wR [] [.elem wT [] [.text c!"Revision 2.0c"]]]]

example : TextOnly exHeader ∧ wordText false exHeader = c!"NVM Express® Base Specification, Revision 2.0c" ∧ exHeader.hasTag wT = false := by
  refine ⟨?_, by decide +kernel, by decide +kernel⟩
  simp [exHeader, exPara, TextOnly, TextOnlys]

example : headerText exHeader = c!"NVM Express® Base Specification, Revision 2.0c" ∧
    headerTitle (headerText exHeader) = c!"NVM Express® Base Specification" ∧
    headerRevision (headerText exHeader) = some c!"2.0c" := by decide +kernel

/-- the last mention counts, and only in the first line -/
example : headerRevision c!"Draft revision 1 of Revision 2.0, ratified\nRevision 3" = some c!"2.0," ∧
    headerRevision c!"A title\nRevision 3" = none ∧ headerRevision c!"Revision\n 3" = some c!"3" := by decide +kernel

end Spex
