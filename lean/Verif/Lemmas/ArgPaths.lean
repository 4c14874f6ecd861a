import Verif.Lemmas.ArgScan
import Verif.Props.Cli
/-
The directories and files which the arguments name.
-/
set_option autoImplicit false
namespace Spex

/-! ### Specification -/

/-- where names lead to, from a directory -/
def placeOf (p : List Str) : List Str → List Str
  | [] => p
  | c :: cs => placeOf (if c = c!".." then p.dropLast else p ++ [c]) cs

/-- the root and the working directory are directories, and nothing is both a directory and a file -/
structure DiskOk (cwd : List Str) (d : Disk) : Prop where
  root : d.dirs [] = true
  cwd : d.dirs cwd = true
  both : ∀ p, d.dirs p = true → d.files (filePath p) = none

/-- `q` is on the way of the path `s` -/
def OnWay (cwd : List Str) (s : Str) (q : List Str) : Prop := ∃ ns, ns <+: pathNames s ∧ q = placeOf (pathBase cwd s) ns

/-- no file is on the way of the path -/
def OutputOk (cwd : List Str) (d : Disk) (s : Str) : Prop := ∀ q, OnWay cwd s q → d.files (filePath q) = none

/-- the directories after the options -/
def DirsAfter (cwd : List Str) (d : Disk) (as : List ArgAct) (q : List Str) : Prop :=
  d.dirs q = true ∨ ∃ s, .output s ∈ as ∧ OnWay cwd s q

/-- the path leads over directories to a file -/
def InputOk (cwd : List Str) (d : Disk) (as : List ArgAct) (s : Str) : Prop :=
  (∀ ns c r, pathNames s = ns ++ c :: r → DirsAfter cwd d as (placeOf (pathBase cwd s) ns)) ∧
    d.files (filePath (placeOf (pathBase cwd s) (pathNames s))) ≠ none

/-! ### Ways -/

theorem placeOf_append (p ns ms : List Str) : placeOf p (ns ++ ms) = placeOf (placeOf p ns) ms := by
  induction ns generalizing p with
  | nil => rfl
  | cons c ns ih => exact ih _

/-- what the following of a path finds -/
theorem walk_spec (d : Disk) (p names : List Str) : match d.walk p names with
    | .found q => q = placeOf p names ∧ ∀ ns c r, names = ns ++ c :: r → d.dirs (placeOf p ns) = true
    | .missing => ∃ ns c r, names = ns ++ c :: r ∧ d.dirs (placeOf p ns) = false ∧ d.files (filePath (placeOf p ns)) = none
    | .notDir => ∃ ns c r, names = ns ++ c :: r ∧ d.dirs (placeOf p ns) = false ∧ d.files (filePath (placeOf p ns)) ≠ none := by
  induction names generalizing p with
  | nil => exact ⟨rfl, by simp⟩
  | cons c cs ih =>
    rw [Disk.walk]
    by_cases h : d.dirs p = true
    · rw [if_pos h]
      have ih := ih (pathStep p c)
      cases hw : d.walk (pathStep p c) cs with
      | found q =>
        rw [hw] at ih
        refine ⟨ih.1, ?_⟩
        intro ns c' r e
        cases ns with
        | nil => exact h
        | cons n ns =>
          simp only [List.cons_append, List.cons.injEq] at e
          rw [← e.1]
          exact ih.2 ns c' r e.2
      | missing =>
        rw [hw] at ih
        obtain ⟨ns, c', r, e, h1, h2⟩ := ih
        exact ⟨c :: ns, c', r, by rw [e]; rfl, h1, h2⟩
      | notDir =>
        rw [hw] at ih
        obtain ⟨ns, c', r, e, h1, h2⟩ := ih
        exact ⟨c :: ns, c', r, by rw [e]; rfl, h1, h2⟩
    · rw [if_neg h]
      have h : d.dirs p = false := by simpa using h
      cases hf : d.files (filePath p) with
      | none => exact ⟨[], c, cs, rfl, h, hf⟩
      | some x => exact ⟨[], c, cs, rfl, h, by rw [show placeOf p [] = p from rfl, hf]; simp⟩

theorem walk_found (d : Disk) (p names : List Str) (h : ∀ ns c r, names = ns ++ c :: r → d.dirs (placeOf p ns) = true) :
    d.walk p names = .found (placeOf p names) := by
  have hw := walk_spec d p names
  cases e : d.walk p names with
  | found q => rw [e] at hw; rw [hw.1]
  | missing =>
    rw [e] at hw
    obtain ⟨ns, c, r, e, h1, -⟩ := hw
    rw [h ns c r e] at h1
    cases h1
  | notDir =>
    rw [e] at hw
    obtain ⟨ns, c, r, e, h1, -⟩ := hw
    rw [h ns c r e] at h1
    cases h1

/-- what is made by the making of a directory and of those above it -/
structure Makes (d d' : Disk) (base names : List Str) (b : Bool) : Prop where
  files : d'.files = d.files
  keeps : ∀ q, d.dirs q = true → d'.dirs q = true
  only : ∀ q, d'.dirs q = true → d.dirs q = true ∨ ∃ ns, ns <+: names ∧ q = placeOf base ns
  both : (∀ p, d.dirs p = true → d.files (filePath p) = none) → ∀ p, d'.dirs p = true → d'.files (filePath p) = none
  made : b = true → ∀ ns, ns <+: names → d'.dirs (placeOf base ns) = true
  not : b = false → ∃ ns, ns <+: names ∧ d.files (filePath (placeOf base ns)) ≠ none

theorem prefix_of_split {names ns r : List Str} {c : Str} (h : names = ns ++ c :: r) : ns <+: names := ⟨c :: r, h.symm⟩

theorem split_of_prefix {names ns : List Str} (h : ns <+: names) : ns = names ∨ ∃ c r, names = ns ++ c :: r := by
  obtain ⟨r, rfl⟩ := h
  cases r with
  | nil => simp
  | cons c r => exact .inr ⟨c, r, rfl⟩

/-- the disk is left as it is -/
theorem makes_same {d : Disk} {base names : List Str} {b : Bool} (h1 : b = true → ∀ ns, ns <+: names → d.dirs (placeOf base ns) = true)
    (h2 : b = false → ∃ ns, ns <+: names ∧ d.files (filePath (placeOf base ns)) ≠ none) : Makes d d base names b :=
  ⟨rfl, fun _ h => h, fun _ h => .inl h, fun h => h, h1, h2⟩

/-- `os.mkdir` where all above is there -/
theorem mkdir_spec (d : Disk) (base names : List Str) (h : ∀ ns c r, names = ns ++ c :: r → d.dirs (placeOf base ns) = true) :
    match d.mkdir base names with
    | .made d' => Makes d d' base names true
    | .failed => Makes d d base names (d.isDir base names)
    | .missing => False := by
  have hall : d.dirs (placeOf base names) = true → ∀ ns, ns <+: names → d.dirs (placeOf base ns) = true := by
    intro hd ns hns
    rcases split_of_prefix hns with rfl | ⟨c, r, e⟩
    · exact hd
    · exact h ns c r e
  rw [Disk.mkdir, walk_found d base names h]
  simp only
  by_cases hp : d.dirs (placeOf base names) = true ∨ (d.files (filePath (placeOf base names))).isSome = true
  · rw [if_pos hp]
    simp only
    rw [Disk.isDir, walk_found d base names h]
    simp only
    refine makes_same hall ?_
    intro hf
    refine ⟨names, List.prefix_refl _, ?_⟩
    rcases hp with hp | hp
    · rw [hf] at hp; cases hp
    · intro e; rw [e] at hp; cases hp
  · rw [if_neg hp]
    simp only
    rw [not_or] at hp
    refine ⟨rfl, ?_, ?_, ?_, ?_, by simp⟩
    · intro q hq; simp [hq]
    · intro q hq
      simp only [Bool.or_eq_true, beq_iff_eq] at hq
      rcases hq with rfl | hq
      · exact .inr ⟨names, List.prefix_refl _, rfl⟩
      · exact .inl hq
    · intro hb p hpd
      simp only [Bool.or_eq_true, beq_iff_eq] at hpd
      rcases hpd with rfl | hpd
      · simpa using hp.2
      · exact hb p hpd
    · intro _ ns hns
      rcases split_of_prefix hns with rfl | ⟨c, r, e⟩
      · simp
      · simp [h ns c r e]

theorem makes_trans {d d1 d2 : Disk} {base names ms : List Str} {b c : Bool} (hm : ms <+: names) (h1 : Makes d d1 base ms b)
    (h2 : Makes d1 d2 base names c) : Makes d d2 base names c := by
  refine ⟨h2.files.trans h1.files, fun q hq => h2.keeps q (h1.keeps q hq), ?_, fun h => h2.both (h1.both h), h2.made, ?_⟩
  · intro q hq
    rcases h2.only q hq with hq | hq
    · rcases h1.only q hq with hq | ⟨ns, hn, rfl⟩
      · exact .inl hq
      · exact .inr ⟨ns, hn.trans hm, rfl⟩
    · exact .inr hq
  · intro hc
    rw [← h1.files]
    exact h2.not hc

theorem mkdirAll_spec (d : Disk) (base cs : List Str) (hb : d.dirs base = true) :
    Makes d (mkdirAll d base cs).1 base cs.reverse (mkdirAll d base cs).2 := by
  induction cs generalizing d with
  | nil =>
    rw [mkdirAll, Disk.isDir, Disk.walk]
    simp only
    refine makes_same ?_ ?_
    · intro _ ns hns
      have : ns = [] := by simpa using hns
      subst this
      exact hb
    · intro h; rw [hb] at h; cases h
  | cons c cs ih =>
    have hpre : cs.reverse <+: (c :: cs).reverse := ⟨[c], by simp⟩
    have hsplit : ∀ ns c' r, (c :: cs).reverse = ns ++ c' :: r → ns <+: cs.reverse := by
      intro ns c' r e
      rw [List.reverse_cons] at e
      have h1 : ns <+: cs.reverse ++ [c] := ⟨c' :: r, e.symm⟩
      rw [List.prefix_concat_iff] at h1
      rcases h1 with rfl | h1
      · exfalso
        have := congrArg List.length e
        simp at this
      · exact h1
    rw [mkdirAll]
    cases hm : d.mkdir base (c :: cs).reverse with
    | made d' =>
      simp only
      by_cases h : ∀ ns c' r, (c :: cs).reverse = ns ++ c' :: r → d.dirs (placeOf base ns) = true
      · have := mkdir_spec d base _ h
        rw [hm] at this
        exact this
      · exfalso
        have hw := walk_spec d base (c :: cs).reverse
        rw [Disk.mkdir] at hm
        cases e : d.walk base (c :: cs).reverse with
        | found q => rw [e] at hw; exact h hw.2
        | missing => rw [e] at hm; cases hm
        | notDir => rw [e] at hm; cases hm
    | failed =>
      simp only
      have hw := walk_spec d base (c :: cs).reverse
      cases e : d.walk base (c :: cs).reverse with
      | found q =>
        rw [e] at hw
        have := mkdir_spec d base _ hw.2
        rw [hm] at this
        exact this
      | missing => rw [Disk.mkdir, e] at hm; cases hm
      | notDir =>
        rw [e] at hw
        obtain ⟨ns, c', r, e', -, h2⟩ := hw
        rw [Disk.isDir, e]
        exact makes_same (by simp) (fun _ => ⟨ns, prefix_of_split e', h2⟩)
    | missing =>
      simp only
      have ih := ih d hb
      cases hrec : mkdirAll d base cs with
      | mk d1 b =>
        rw [hrec] at ih
        cases b with
        | false =>
          simp only
          refine ⟨ih.files, ih.keeps, ?_, ih.both, by simp, ?_⟩
          · intro q hq
            exact (ih.only q hq).imp_right fun ⟨ns, h1, h2⟩ => ⟨ns, h1.trans hpre, h2⟩
          · intro _
            obtain ⟨ns, h1, h2⟩ := ih.not rfl
            exact ⟨ns, h1.trans hpre, h2⟩
        | true =>
          simp only
          have h : ∀ ns c' r, (c :: cs).reverse = ns ++ c' :: r → d1.dirs (placeOf base ns) = true :=
            fun ns c' r e => ih.made rfl ns (hsplit ns c' r e)
          have hs := mkdir_spec d1 base _ h
          cases hm1 : d1.mkdir base (c :: cs).reverse with
          | made d2 => rw [hm1] at hs; exact makes_trans hpre ih hs
          | failed => rw [hm1] at hs; exact makes_trans hpre ih hs
          | missing => rw [hm1] at hs; exact hs.elim

theorem pathBase_dir {cwd : List Str} {d : Disk} (h : DiskOk cwd d) (s : Str) : d.dirs (pathBase cwd s) = true := by
  rw [pathBase]
  split
  · exact h.root
  · exact h.cwd

theorem diskOk_makes {cwd base names : List Str} {d d' : Disk} {b : Bool} (h : DiskOk cwd d) (hm : Makes d d' base names b) : DiskOk cwd d' :=
  ⟨hm.keeps _ h.root, hm.keeps _ h.cwd, hm.both h.both⟩

/-- the argument of `-o` -/
theorem argOutput_spec (cwd : List Str) (d : Disk) (s : Str) (hd : DiskOk cwd d) :
    Makes d (argOutput cwd d s).1 (pathBase cwd s) (pathNames s) (argOutput cwd d s).2.isSome ∧
      ∀ p, (argOutput cwd d s).2 = some p → p = placeOf (pathBase cwd s) (pathNames s) := by
  have key : ∀ d1 b, Makes d d1 (pathBase cwd s) (pathNames s) b →
      Makes d (match (d1, b) with
        | (d, false) => ((d, none) : Disk × Option (List Str))
        | (d, true) => match d.walk (pathBase cwd s) (pathNames s) with
          | .found p => if d.dirs p then (d, some p) else (d, none)
          | _ => (d, none)).1 (pathBase cwd s) (pathNames s) (match (d1, b) with
        | (d, false) => ((d, none) : Disk × Option (List Str))
        | (d, true) => match d.walk (pathBase cwd s) (pathNames s) with
          | .found p => if d.dirs p then (d, some p) else (d, none)
          | _ => (d, none)).2.isSome ∧ ∀ p, (match (d1, b) with
        | (d, false) => ((d, none) : Disk × Option (List Str))
        | (d, true) => match d.walk (pathBase cwd s) (pathNames s) with
          | .found p => if d.dirs p then (d, some p) else (d, none)
          | _ => (d, none)).2 = some p → p = placeOf (pathBase cwd s) (pathNames s) := by
    intro d1 b hm
    cases b with
    | false => exact ⟨hm, by simp⟩
    | true =>
      have h1 := hm.made rfl
      simp only
      rw [walk_found d1 _ _ (fun ns c r e => h1 ns (prefix_of_split e))]
      simp only [h1 _ (List.prefix_refl _), if_true]
      exact ⟨hm, by simp⟩
  rw [argOutput]
  by_cases hex : d.exists (pathBase cwd s) (pathNames s) = true
  · rw [if_pos hex]
    rw [Disk.exists] at hex
    have hw := walk_spec d (pathBase cwd s) (pathNames s)
    cases e : d.walk (pathBase cwd s) (pathNames s) with
    | found p =>
      rw [e] at hw hex
      obtain ⟨rfl, hw⟩ := hw
      simp only
      rw [e]
      simp only
      by_cases hp : d.dirs (placeOf (pathBase cwd s) (pathNames s)) = true
      · rw [if_pos hp]
        refine ⟨makes_same ?_ (by simp), by simp⟩
        intro _ ns hns
        rcases split_of_prefix hns with rfl | ⟨c, r, e⟩
        · exact hp
        · exact hw ns c r e
      · rw [if_neg hp]
        refine ⟨makes_same (by simp) ?_, by simp⟩
        intro _
        refine ⟨_, List.prefix_refl _, ?_⟩
        intro hf
        simp [hp, hf] at hex
    | missing => rw [e] at hex; cases hex
    | notDir => rw [e] at hex; cases hex
  · rw [if_neg hex]
    have hm := mkdirAll_spec d (pathBase cwd s) (pathNames s).reverse (pathBase_dir hd s)
    rw [List.reverse_reverse] at hm
    exact key _ _ hm

theorem output_iff (cwd : List Str) (d : Disk) (s : Str) (hd : DiskOk cwd d) : (argOutput cwd d s).2.isSome = true ↔ OutputOk cwd d s := by
  have hm := (argOutput_spec cwd d s hd).1
  constructor
  · rintro h q ⟨ns, hns, rfl⟩
    rw [← hm.files]
    exact hm.both hd.both _ (hm.made h ns hns)
  · intro h
    cases hc : (argOutput cwd d s).2.isSome with
    | true => rfl
    | false =>
      obtain ⟨ns, hns, hf⟩ := hm.not hc
      exact absurd (h _ ⟨ns, hns, rfl⟩) hf

/-- an input -/
theorem input_iff (cwd : List Str) (d : Disk) (s : Str) (hd : DiskOk cwd d) (f : FPath) :
    argInput cwd d s = some f ↔ InputOk cwd d [] s ∧ f = filePath (placeOf (pathBase cwd s) (pathNames s)) := by
  rw [argInput]
  have hw := walk_spec d (pathBase cwd s) (pathNames s)
  cases e : d.walk (pathBase cwd s) (pathNames s) with
  | found p =>
    rw [e] at hw
    obtain ⟨rfl, hw⟩ := hw
    simp only
    by_cases hp : d.dirs (placeOf (pathBase cwd s) (pathNames s)) = true
    · rw [if_pos hp]
      simp only [reduceCtorEq, false_iff, not_and]
      rintro ⟨-, h⟩
      exact absurd (hd.both _ hp) h
    · rw [if_neg hp]
      cases hf : d.files (filePath (placeOf (pathBase cwd s) (pathNames s))) with
      | none =>
        simp only [Option.isSome_none, Bool.false_eq_true, if_false, reduceCtorEq, false_iff, not_and]
        rintro ⟨-, h⟩
        exact absurd hf h
      | some x =>
        simp only [Option.isSome_some, if_true, Option.some.injEq]
        constructor
        · rintro rfl
          exact ⟨⟨fun ns c r e => .inl (hw ns c r e), by rw [hf]; simp⟩, rfl⟩
        · rintro ⟨-, rfl⟩; rfl
  | missing =>
    rw [e] at hw
    obtain ⟨ns, c, r, e', h1, h2⟩ := hw
    simp only [reduceCtorEq, false_iff, not_and]
    rintro ⟨h, -⟩
    rcases h ns c r e' with h | ⟨s', h, -⟩
    · rw [h1] at h; cases h
    · cases h
  | notDir =>
    rw [e] at hw
    obtain ⟨ns, c, r, e', h1, h2⟩ := hw
    simp only [reduceCtorEq, false_iff, not_and]
    rintro ⟨h, -⟩
    rcases h ns c r e' with h | ⟨s', h, -⟩
    · rw [h1] at h; cases h
    · cases h

/-! ### The actions -/

variable [Uni]

/-- every output directory can be made, every list of codes is known, every input is there when it is looked for -/
structure Convertible (cwd : List Str) (d : Disk) (as : List ArgAct) : Prop where
  outputs : ∀ s, .output s ∈ as → OutputOk cwd d s
  lints : ∀ s, .lint s ∈ as → ∃ cs, Codes s cs
  inputs : ∀ a ss b, as = a ++ .inputs ss :: b → ∀ s ∈ ss, InputOk cwd d a s

/-- the last of some actions -/
def lastOf {α : Type} (f : ArgAct → Option α) (as : List ArgAct) (dflt : α) : α := ((as.filterMap f).getLast?).getD dflt

omit [Uni] in
theorem lastOf_cons {α : Type} (f : ArgAct → Option α) (a : ArgAct) (as : List ArgAct) (dflt : α) :
    lastOf f (a :: as) dflt = lastOf f as ((f a).getD dflt) := by
  unfold lastOf
  cases h : f a with
  | none => rw [List.filterMap_cons_none h]; rfl
  | some x =>
    rw [List.filterMap_cons_some h, List.getLast?_cons]
    cases (as.filterMap f).getLast? <;> rfl

/-- the condition for one action -/
def HeadOk (cwd : List Str) (d : Disk) : ArgAct → Prop
  | .output s => OutputOk cwd d s
  | .lint s => ∃ cs, Codes s cs
  | .inputs ss => ∀ s ∈ ss, InputOk cwd d [] s
  | _ => True

omit [Uni] in
theorem dirsAfter_cons {cwd : List Str} {d d1 : Disk} {a0 : ArgAct} (hd : ∀ q, d1.dirs q = true ↔ DirsAfter cwd d [a0] q)
    (as : List ArgAct) (q : List Str) : DirsAfter cwd d1 as q ↔ DirsAfter cwd d (a0 :: as) q := by
  unfold DirsAfter at hd ⊢
  rw [hd]
  constructor
  · rintro ((h | ⟨s, hs, hq⟩) | ⟨s, hs, hq⟩)
    · exact .inl h
    · exact .inr ⟨s, by simp only [List.mem_singleton] at hs; simp [hs], hq⟩
    · exact .inr ⟨s, List.mem_cons_of_mem _ hs, hq⟩
  · rintro (h | ⟨s, hs, hq⟩)
    · exact .inl (.inl h)
    · rcases List.mem_cons.1 hs with h | h
      · exact .inl (.inr ⟨s, by simp [h], hq⟩)
      · exact .inr ⟨s, h, hq⟩

omit [Uni] in
theorem inputOk_cons {cwd : List Str} {d d1 : Disk} {a0 : ArgAct} (hf : d1.files = d.files)
    (hd : ∀ q, d1.dirs q = true ↔ DirsAfter cwd d [a0] q) (as : List ArgAct) (s : Str) :
    InputOk cwd d1 as s ↔ InputOk cwd d (a0 :: as) s := by
  unfold InputOk
  rw [hf]
  simp only [dirsAfter_cons hd]

theorem convertible_cons {cwd : List Str} {d d1 : Disk} {a0 : ArgAct} (hf : d1.files = d.files)
    (hd : ∀ q, d1.dirs q = true ↔ DirsAfter cwd d [a0] q) (as : List ArgAct) :
    Convertible cwd d (a0 :: as) ↔ HeadOk cwd d a0 ∧ Convertible cwd d1 as := by
  constructor
  · intro h
    constructor
    · cases a0 with
      | output s => exact h.outputs s (by simp)
      | lint s => exact h.lints s (by simp)
      | inputs ss => exact h.inputs [] ss as rfl
      | _ => trivial
    · refine ⟨?_, ?_, ?_⟩
      · intro s hs q hq
        rw [hf]
        exact h.outputs s (List.mem_cons_of_mem _ hs) q hq
      · exact fun s hs => h.lints s (List.mem_cons_of_mem _ hs)
      · rintro a ss b rfl s hs
        exact (inputOk_cons hf hd a s).2 (h.inputs (a0 :: a) ss b rfl s hs)
  · rintro ⟨h0, h⟩
    refine ⟨?_, ?_, ?_⟩
    · intro s hs
      rcases List.mem_cons.1 hs with rfl | hs
      · exact h0
      · intro q hq
        have := h.outputs s hs q hq
        rwa [hf] at this
    · intro s hs
      rcases List.mem_cons.1 hs with rfl | hs
      · exact h0
      · exact h.lints s hs
    · intro a ss b e s hs
      cases a with
      | nil =>
        simp only [List.nil_append, List.cons.injEq] at e
        rw [e.1] at h0
        exact h0 s hs
      | cons a1 a =>
        simp only [List.cons_append, List.cons.injEq] at e
        rw [← e.1]
        exact (inputOk_cons hf hd a s).1 (h.inputs a ss b e.2 s hs)

omit [Uni] in
theorem dirsAfter_none {cwd : List Str} {d : Disk} {a : ArgAct} (h : ∀ s, a ≠ .output s) (q : List Str) :
    d.dirs q = true ↔ DirsAfter cwd d [a] q := by
  constructor
  · exact .inl
  · rintro (h' | ⟨s, hs, -⟩)
    · exact h'
    · simp only [List.mem_singleton] at hs
      exact absurd hs.symm (h s)

omit [Uni] in
theorem dirsAfter_output {cwd : List Str} {d : Disk} {s : Str} (hd : DiskOk cwd d) (h : (argOutput cwd d s).2.isSome = true) (q : List Str) :
    (argOutput cwd d s).1.dirs q = true ↔ DirsAfter cwd d [.output s] q := by
  have hm := (argOutput_spec cwd d s hd).1
  constructor
  · intro hq
    exact (hm.only q hq).imp_right fun hq => ⟨s, by simp, hq⟩
  · rintro (hq | ⟨s', hs, ns, hns, rfl⟩)
    · exact hm.keeps q hq
    · simp only [List.mem_singleton, ArgAct.output.injEq] at hs
      subst hs
      exact hm.made h ns hns

/-- whatever happens: files are as before, directories stay, and those which are new are on the way of an argument of `-o` -/
theorem acts_frame (cwd : List Str) (d : Disk) (r : ArgRec) (as : List ArgAct) (hd : DiskOk cwd d) :
    DiskOk cwd (argActs cwd d r as).1 ∧ (argActs cwd d r as).1.files = d.files ∧
      (∀ q, d.dirs q = true → (argActs cwd d r as).1.dirs q = true) ∧
      ∀ q, (argActs cwd d r as).1.dirs q = true → DirsAfter cwd d as q := by
  have same : DiskOk cwd d ∧ d.files = d.files ∧ (∀ q, d.dirs q = true → d.dirs q = true) ∧
      ∀ q, d.dirs q = true → DirsAfter cwd d as q := ⟨hd, rfl, fun _ h => h, fun _ h => .inl h⟩
  induction as generalizing d r with
  | nil => exact same
  | cons a as ih =>
    have more : ∀ r', DiskOk cwd (argActs cwd d r' as).1 ∧ (argActs cwd d r' as).1.files = d.files ∧
        (∀ q, d.dirs q = true → (argActs cwd d r' as).1.dirs q = true) ∧
        ∀ q, (argActs cwd d r' as).1.dirs q = true → DirsAfter cwd d (a :: as) q := by
      intro r'
      obtain ⟨h1, h2, h3, h4⟩ := ih d r' hd ⟨hd, rfl, fun _ h => h, fun _ h => .inl h⟩
      refine ⟨h1, h2, h3, fun q hq => ?_⟩
      rcases h4 q hq with h | ⟨s, hs, h⟩
      · exact .inl h
      · exact .inr ⟨s, List.mem_cons_of_mem _ hs, h⟩
    cases a with
    | help => rw [argActs]; exact same
    | skip => rw [argActs]; exact more _
    | validate b => rw [argActs]; exact more _
    | verbose b => rw [argActs]; exact more _
    | lint s =>
      rw [argActs]
      cases argLintcode s with
      | error e => exact same
      | ok cs => exact more _
    | inputs ss =>
      rw [argActs]
      cases ss.mapM (argInput cwd d) with
      | none => exact same
      | some ps => exact more _
    | output s =>
      rw [argActs]
      have hm := (argOutput_spec cwd d s hd).1
      have hok := diskOk_makes hd hm
      have hone : ∀ q, (argOutput cwd d s).1.dirs q = true → DirsAfter cwd d (.output s :: as) q := fun q hq =>
        (hm.only q hq).imp_right fun hq => ⟨s, by simp, hq⟩
      cases ho : argOutput cwd d s with
      | mk d1 o =>
        rw [ho] at hm hok hone
        cases o with
        | none => exact ⟨hok, hm.files, hm.keeps, hone⟩
        | some p =>
          obtain ⟨h1, h2, h3, h4⟩ := ih d1 { r with output := some p } hok ⟨hok, rfl, fun _ h => h, fun _ h => .inl h⟩
          refine ⟨h1, h2.trans hm.files, fun q hq => h3 q (hm.keeps q hq), fun q hq => ?_⟩
          rcases h4 q hq with h | ⟨s', hs, h⟩
          · exact hone q h
          · exact .inr ⟨s', List.mem_cons_of_mem _ hs, h⟩

/-- the directory which is named last -/
def outputOf (cwd : List Str) : ArgAct → Option (Option (List Str))
  | .output s => some (some (placeOf (pathBase cwd s) (pathNames s)))
  | _ => none
/-- the codes which are named last -/
def lintOf? : ArgAct → Option Str
  | .lint s => some s
  | _ => none
/-- the word about validation -/
def validateOf? : ArgAct → Option Bool
  | .validate b => some b
  | _ => none
/-- the files of the inputs -/
def inputsOf (cwd : List Str) : ArgAct → Option (List FPath)
  | .inputs ss => some (ss.map fun s => filePath (placeOf (pathBase cwd s) (pathNames s)))
  | _ => none

/-- the ignored codes -/
def ignoreOf : ArgAct → Option (List LintErr)
  | .lint s => (argLintcode s).toOption
  | _ => none

omit [Uni] in
theorem inputs_iff (cwd : List Str) (d : Disk) (hd : DiskOk cwd d) (ss : List Str) :
    ((∀ s ∈ ss, InputOk cwd d [] s) ∧
      ss.mapM (argInput cwd d) = some (ss.map fun s => filePath (placeOf (pathBase cwd s) (pathNames s)))) ∨
    ((¬ ∀ s ∈ ss, InputOk cwd d [] s) ∧ ss.mapM (argInput cwd d) = none) := by
  induction ss with
  | nil => exact .inl ⟨by simp, rfl⟩
  | cons s ss ih =>
    rw [List.mapM_cons]
    cases h : argInput cwd d s with
    | none =>
      right
      refine ⟨fun hall => ?_, rfl⟩
      have := (input_iff cwd d s hd _).2 ⟨hall s (by simp), rfl⟩
      rw [h] at this
      cases this
    | some f =>
      obtain ⟨h1, rfl⟩ := (input_iff cwd d s hd f).1 h
      rcases ih with ⟨h2, h3⟩ | ⟨h2, h3⟩
      · left
        rw [h3]
        exact ⟨List.forall_mem_cons.2 ⟨h1, h2⟩, rfl⟩
      · right
        rw [h3]
        exact ⟨fun hall => h2 fun s hs => hall s (List.mem_cons_of_mem _ hs), rfl⟩

/-- without a word for help: everything can be converted, or the run ends with status 1 -/
theorem acts_result (cwd : List Str) (d : Disk) (r : ArgRec) (as : List ArgAct) (hd : DiskOk cwd d) (hh : .help ∉ as) :
    (Convertible cwd d as ∧ ∃ d' r', argActs cwd d r as = (d', .ok r') ∧ (∀ q, d'.dirs q = true ↔ DirsAfter cwd d as q) ∧
      r'.output = lastOf (outputOf cwd) as r.output ∧ r'.inputs = lastOf (inputsOf cwd) as r.inputs ∧
      r'.skip = (r.skip || decide (.skip ∈ as)) ∧ r'.validate = lastOf validateOf? as r.validate ∧ r'.ignore = lastOf ignoreOf as r.ignore) ∨
    (¬ Convertible cwd d as ∧ (argActs cwd d r as).2 = .error 1) := by
  induction as generalizing d r with
  | nil =>
    left
    refine ⟨⟨by simp, by simp, by simp⟩, d, r, rfl, ?_, rfl, rfl, by simp, rfl, rfl⟩
    intro q
    exact ⟨.inl, fun h => h.elim id fun ⟨s, hs, _⟩ => by cases hs⟩
  | cons a as ih =>
    rw [List.mem_cons, not_or] at hh
    /- the disk stays, the record changes -/
    have same : ∀ r', (∀ s, a ≠ .output s) → HeadOk cwd d a → argActs cwd d r (a :: as) = argActs cwd d r' as →
        r'.output = r.output → r'.inputs = (inputsOf cwd a).getD r.inputs →
        r'.skip = (r.skip || decide (a = .skip)) → r'.validate = (validateOf? a).getD r.validate → r'.ignore = (ignoreOf a).getD r.ignore →
        (Convertible cwd d (a :: as) ∧ ∃ d' r', argActs cwd d r (a :: as) = (d', .ok r') ∧ (∀ q, d'.dirs q = true ↔ DirsAfter cwd d (a :: as) q) ∧
          r'.output = lastOf (outputOf cwd) (a :: as) r.output ∧ r'.inputs = lastOf (inputsOf cwd) (a :: as) r.inputs ∧
          r'.skip = (r.skip || decide (.skip ∈ a :: as)) ∧ r'.validate = lastOf validateOf? (a :: as) r.validate ∧
          r'.ignore = lastOf ignoreOf (a :: as) r.ignore) ∨
        (¬ Convertible cwd d (a :: as) ∧ (argActs cwd d r (a :: as)).2 = .error 1) := by
      intro r' hno hhead he h1 h2 h3 h4 h5
      have hout : outputOf cwd a = none := by
        cases a with
        | output s => exact absurd rfl (hno s)
        | _ => rfl
      have hc := convertible_cons (cwd := cwd) (d := d) (d1 := d) rfl (dirsAfter_none hno) as
      rw [hc, he]
      simp only [lastOf_cons, ← dirsAfter_cons (dirsAfter_none (cwd := cwd) hno), hout, Option.getD_none]
      rcases ih d r' hd hh.2 with ⟨g1, d', r'', g2, g3, g4, g5, g6, g7, g8⟩ | ⟨g1, g2⟩
      · left
        refine ⟨⟨hhead, g1⟩, d', r'', g2, g3, by rw [g4, h1], by rw [g5, h2], ?_, by rw [g7, h4], by rw [g8, h5]⟩
        rw [g6, h3, Bool.or_assoc]
        congr 1
        by_cases ha : a = .skip
        · simp [ha]
        · have ha' : ArgAct.skip ≠ a := fun h => ha h.symm
          simp [ha, ha']
      · right
        exact ⟨fun h => g1 h.2, g2⟩
    have bad : (¬ HeadOk cwd d a) → (argActs cwd d r (a :: as)).2 = .error 1 →
        (¬ Convertible cwd d (a :: as) ∧ (argActs cwd d r (a :: as)).2 = .error 1) := by
      intro hbad he
      refine ⟨fun h => hbad ?_, he⟩
      cases a with
      | output s => exact h.outputs s (by simp)
      | lint s => exact h.lints s (by simp)
      | inputs ss => exact h.inputs [] ss as rfl
      | _ => trivial
    cases a with
    | help => exact absurd rfl hh.1
    | skip => exact same { r with skip := true } (by simp) trivial (by rw [argActs]) rfl rfl (by simp) rfl rfl
    | validate b => exact same { r with validate := b } (by simp) trivial (by rw [argActs]) rfl rfl (by simp) rfl rfl
    | verbose b => exact same { r with verbose := b } (by simp) trivial (by rw [argActs]) rfl rfl (by simp) rfl rfl
    | lint s =>
      cases hl : argLintcode s with
      | error e =>
        right
        refine bad ?_ (by rw [argActs, hl])
        rintro ⟨cs, hcs⟩
        rw [(C53_accepted s cs).2 hcs] at hl
        cases hl
      | ok cs =>
        refine same { r with ignore := cs } (by simp) ⟨cs, (C53_accepted s cs).1 hl⟩ (by rw [argActs, hl]) rfl rfl (by simp) rfl ?_
        simp [ignoreOf, hl, Except.toOption]
    | inputs ss =>
      rcases inputs_iff cwd d hd ss with ⟨h1, h2⟩ | ⟨h1, h2⟩
      · exact same { r with inputs := ss.map fun s => filePath (placeOf (pathBase cwd s) (pathNames s)) } (by simp) h1 (by rw [argActs, h2]) rfl
          rfl (by simp) rfl rfl
      · right
        exact bad h1 (by rw [argActs, h2])
    | output s =>
      have hm := argOutput_spec cwd d s hd
      have hok := diskOk_makes hd hm.1
      have hiff := output_iff cwd d s hd
      have hdirs := dirsAfter_output (s := s) hd
      cases ho : argOutput cwd d s with
      | mk d1 o =>
        rw [ho] at hm hok hiff hdirs
        cases o with
        | none =>
          right
          exact bad (fun h => by have := hiff.2 h; cases this) (by rw [argActs, ho])
        | some p =>
          have hp := hm.2 p rfl
          have hdirs := hdirs rfl
          have he : argActs cwd d r (.output s :: as) = argActs cwd d1 { r with output := some p } as := by rw [argActs, ho]
          rw [convertible_cons hm.1.files hdirs, he]
          simp only [lastOf_cons, ← dirsAfter_cons hdirs]
          rcases ih d1 { r with output := some p } hok hh.2 with ⟨g1, d', r'', g2, g3, g4, g5, g6, g7, g8⟩ | ⟨g1, g2⟩
          · left
            refine ⟨⟨hiff.1 rfl, g1⟩, d', r'', g2, g3, by rw [g4, hp]; rfl, g5, ?_, g7, g8⟩
            rw [g6]
            simp
          · right
            exact ⟨fun h => g1 h.2, g2⟩

end Spex
