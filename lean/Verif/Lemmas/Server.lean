import Verif.Props.Cli
import Verif.Model.Server
/-
Lemmas about the files of parse_spec and about the server.
-/
set_option autoImplicit false
namespace Spex
variable [Uni]

/-! ### parse_spec works inside its output directory -/

omit [Uni] in
theorem Files.set_same (w : Files) (p : FPath) (s : Str) : w.set p s p = some s := if_pos rfl
omit [Uni] in
theorem Files.set_other (w : Files) {p q : FPath} (s : Str) (h : q ≠ p) : w.set p s q = w q := if_neg h

/-- parse_spec changes no file outside its output directory -/
theorem runSpec_frame (t : Tools) (o : Opts) (w : Files) (spec f : FPath) (h : f.dir ≠ o.out) : (runSpec t o w spec).1 f = w f := by
  have hne : ∀ n, f ≠ ⟨o.out, n⟩ := by rintro n rfl; exact h rfl
  have hj : ∀ (w : Files) spec, (runJson t o w spec).1 f = w f := by
    intro w spec
    rw [runJson]
    exact (Files.set_other _ _ (hne _)).trans (Files.set_other _ _ (hne _))
  rw [runSpec]
  split
  · split
    · exact (Files.set_other _ _ (hne _)).trans (Files.set_other _ _ (hne _))
    · rw [hj]; exact (Files.set_other _ _ (hne _)).trans (Files.set_other _ _ (hne _))
  · exact hj _ _

/-- the same names, with the same contents, in two directories -/
def SameDir (d : Str) (w : Files) (d' : Str) (w' : Files) : Prop := ∀ n, w ⟨d, n⟩ = w' ⟨d', n⟩

omit [Uni] in
theorem SameDir.set {d d' : Str} {w w' : Files} (h : SameDir d w d' w') (n s : Str) : SameDir d (w.set ⟨d, n⟩ s) d' (w'.set ⟨d', n⟩ s) := by
  intro m
  by_cases hm : m = n
  · subst hm; rw [Files.set_same, Files.set_same]
  · rw [Files.set_other _ _ (by simpa using hm), Files.set_other _ _ (by simpa using hm)]; exact h m

/-- parse_spec on a file of its output directory: the outcome depends on the files of this directory only -/
theorem runSpec_same (t : Tools) (o o' : Opts) (ho : o.skip = o'.skip ∧ o.ignore = o'.ignore) (w w' : Files) (name : Str)
    (h : SameDir o.out w o'.out w') :
    SameDir o.out (runSpec t o w ⟨o.out, name⟩).1 o'.out (runSpec t o' w' ⟨o'.out, name⟩).1 ∧
    ((∃ n, (runSpec t o w ⟨o.out, name⟩).2 = .ok ⟨o.out, n⟩ ∧ (runSpec t o' w' ⟨o'.out, name⟩).2 = .ok ⟨o'.out, n⟩) ∨
      ∃ e, (runSpec t o w ⟨o.out, name⟩).2 = .error e ∧ (runSpec t o' w' ⟨o'.out, name⟩).2 = .error e) := by
  have hj : ∀ (w w' : Files) name, SameDir o.out w o'.out w' →
      SameDir o.out (runJson t o w ⟨o.out, name⟩).1 o'.out (runJson t o' w' ⟨o'.out, name⟩).1 ∧
      ((∃ n, (runJson t o w ⟨o.out, name⟩).2 = .ok ⟨o.out, n⟩ ∧ (runJson t o' w' ⟨o'.out, name⟩).2 = .ok ⟨o'.out, n⟩) ∨
        ∃ e, (runJson t o w ⟨o.out, name⟩).2 = .error e ∧ (runJson t o' w' ⟨o'.out, name⟩).2 = .error e) := by
    intro w w' name h
    have h1 := h.set (baseName name ++ c!".json") []
    have hr : readHtml t (w.set ⟨o.out, baseName name ++ c!".json"⟩ []) ⟨o.out, name⟩ =
        readHtml t (w'.set ⟨o'.out, baseName name ++ c!".json"⟩ []) ⟨o'.out, name⟩ := by
      rw [readHtml, readHtml, h1 name]
    simp only [runJson]
    rw [hr, ho.1, ho.2]
    refine ⟨h1.set _ _, ?_⟩
    cases (parseSpec o'.ignore o'.skip false none
      (readHtml t (w'.set ⟨o'.out, baseName name ++ c!".json"⟩ []) ⟨o'.out, name⟩)).2.2 with
    | returned => exact .inl ⟨_, rfl, rfl⟩
    | raised e => exact .inr ⟨_, rfl, rfl⟩
    | closed => exact .inr ⟨_, rfl, rfl⟩
  simp only [runSpec]
  by_cases hs : suffix name = c!".docx"
  · rw [if_pos hs, if_pos hs]
    have hc : convertWord t w ⟨o.out, name⟩ = convertWord t w' ⟨o'.out, name⟩ := by
      rw [convertWord, convertWord, h name]
    rw [hc]
    cases convertWord t w' ⟨o'.out, name⟩ with
    | error e => exact ⟨(h.set _ _).set _ _, .inr ⟨e, rfl, rfl⟩⟩
    | ok hc => exact hj _ _ _ ((h.set _ _).set _ _)
  · rw [if_neg hs, if_neg hs]
    exact hj _ _ _ h

/-- a successful run gives the JSON file named after the document -/
theorem runSpec_ok {t : Tools} {o : Opts} {w w' : Files} {spec p : FPath} (h : runSpec t o w spec = (w', .ok p)) :
    p = ⟨o.out, baseName (if suffix spec.name = c!".docx" then baseName spec.name ++ c!".html" else spec.name) ++ c!".json"⟩ ∧
      (w' p).isSome := by
  have hj : ∀ {w w' : Files} {spec p : FPath}, runJson t o w spec = (w', .ok p) →
      p = ⟨o.out, baseName spec.name ++ c!".json"⟩ ∧ (w' p).isSome := by
    intro w w' spec p h
    simp only [runJson, Prod.mk.injEq] at h
    obtain ⟨h1, h2⟩ := h
    split at h2
    · injection h2 with h2
      subst h2
      refine ⟨rfl, ?_⟩
      rw [← h1, Files.set_same]; rfl
    · simp at h2
    · simp at h2
  simp only [runSpec] at h
  split at h
  · next hs =>
    rw [if_pos hs]
    split at h
    · simp at h
    · exact hj h
  · next hs => rw [if_neg hs]; exact hj h

omit [Uni] in
/-- the JSON file and the HTML file of a document have its base name -/
theorem baseName_html {name ext : Str} (h : suffix name = '.' :: ext) : baseName (baseName name ++ c!".html") = baseName name := by
  have hb : baseName name ≠ [] := by
    obtain ⟨stem, h1, rfl⟩ := suffix_inv _ _ h
    rw [baseName, h, if_neg (by simp)]
    simpa using h1
  exact baseName_of _ c!"html" hb (by decide) (by decide)

/-- a successful run gives the JSON file named after the document -/
theorem runSpec_name {t : Tools} {o : Opts} {w w' : Files} {spec p : FPath} (h : runSpec t o w spec = (w', .ok p)) :
    p = ⟨o.out, baseName spec.name ++ c!".json"⟩ ∧ ∃ jt, w' p = some jt := by
  obtain ⟨h1, h2⟩ := runSpec_ok h
  refine ⟨?_, Option.isSome_iff_exists.1 h2⟩
  rw [h1]
  split
  · next hs => rw [baseName_html hs]
  · rfl

/-! ### What a step of the server may do to jobs, directories and the cache -/

omit [Uni] in
theorem job_lt {s : Srv} {j : Nat} {job : Job} (h : s.jobs[j]? = some job) : j < s.jobs.length :=
  (List.getElem?_eq_some_iff.1 h).1

omit [Uni] in
/-- the uploads after one of them has changed its state -/
theorem setJob_jobs {s : Srv} {j : Nat} {job : Job} (h : s.jobs[j]? = some job) (st : JobSt) (i : Nat) :
    (s.setJob j job st).jobs[i]? = if i = j then some { job with st := st } else s.jobs[i]? := by
  change (s.jobs.set j _)[i]? = _
  rw [List.getElem?_set]
  by_cases hij : j = i
  · subst hij; simp [job_lt h]
  · rw [if_neg hij, if_neg (fun e => hij e.symm)]

/-- What holds of the server at all times. `base` are the directories which exist before any upload. -/
structure GInv (cache : Str) (base : List Str) (s : Srv) : Prop where
  cache_base : cache ∈ base
  base_kept : ∀ d ∈ base, d ∈ s.dirs
  jobs_dirs : ∀ (j : Nat) (job : Job), s.jobs[j]? = some job → job.st ≠ .over → job.dir ∈ s.dirs ∧ job.dir ∉ base
  jobs_distinct : ∀ (i j : Nat) (a b : Job), s.jobs[i]? = some a → s.jobs[j]? = some b → a.st ≠ .over → b.st ≠ .over →
    a.dir = b.dir → i = j
  dirs_from : ∀ d ∈ s.dirs, d ∈ base ∨ ∃ (j : Nat) (job : Job), s.jobs[j]? = some job ∧ job.st ≠ .over ∧ job.dir = d
  files_dirs : ∀ f, s.files f ≠ none → f.dir ∈ s.dirs
  cached : ∀ e ∈ s.lookup, e.2.dir = cache ∧ s.files e.2 ≠ none ∧ s.files ⟨cache, withSuffix e.2.name c!".html"⟩ ≠ none

section
omit [Uni]
variable {cache : Str} {base : List Str} {s : Srv}

theorem ginv_mark (g : GInv cache base s) {j : Nat} {job : Job} (hj : s.jobs[j]? = some job) (hl : job.st ≠ .over) (st : JobSt)
    (hst : st ≠ .over) : GInv cache base (s.setJob j job st) := by
  have key : ∀ (i : Nat) (a : Job), (s.setJob j job st).jobs[i]? = some a → a.st ≠ .over →
      ∃ b : Job, s.jobs[i]? = some b ∧ b.st ≠ .over ∧ b.dir = a.dir := by
    intro i a h ha
    rw [setJob_jobs hj] at h
    split at h
    · next hi => subst hi; injection h with h; subst h; exact ⟨job, hj, hl, rfl⟩
    · exact ⟨a, h, ha, rfl⟩
  refine ⟨g.cache_base, g.base_kept, ?_, ?_, ?_, g.files_dirs, g.cached⟩
  · intro i a h ha
    obtain ⟨b, hb, hb2, hb3⟩ := key i a h ha
    rw [← hb3]; exact g.jobs_dirs i b hb hb2
  · intro i i' a a' h h' ha ha' he
    obtain ⟨b, hb, hb2, hb3⟩ := key i a h ha
    obtain ⟨b', hb', hb2', hb3'⟩ := key i' a' h' ha'
    exact g.jobs_distinct i i' b b' hb hb' hb2 hb2' (by rw [hb3, hb3', he])
  · intro d hd
    rcases g.dirs_from d hd with h | ⟨i, a, h1, h2, h3⟩
    · exact .inl h
    · refine .inr ?_
      by_cases hi : i = j
      · subst hi
        rw [hj] at h1; injection h1 with h1; subst h1
        exact ⟨i, { job with st := st }, by rw [setJob_jobs hj, if_pos rfl], hst, h3⟩
      · exact ⟨i, a, by rw [setJob_jobs hj, if_neg hi]; exact h1, h2, h3⟩

theorem ginv_files (g : GInv cache base s) (w : Files) (h1 : ∀ f, w f ≠ none → f.dir ∈ s.dirs)
    (h2 : ∀ f, f.dir = cache → s.files f ≠ none → w f ≠ none) : GInv cache base { s with files := w } :=
  ⟨g.cache_base, g.base_kept, g.jobs_dirs, g.jobs_distinct, g.dirs_from, h1,
    fun e he => ⟨(g.cached e he).1, h2 _ (g.cached e he).1 (g.cached e he).2.1, h2 _ rfl (g.cached e he).2.2⟩⟩

theorem mem_lookupSet {k : Str} {v : FPath} : ∀ {d : List (Str × FPath)} {e : Str × FPath}, e ∈ lookupSet k v d → e = (k, v) ∨ e ∈ d
  | [], e, h => by simp only [lookupSet, List.mem_singleton] at h; exact .inl h
  | (k', v') :: d, e, h => by
    rw [lookupSet] at h
    split at h
    · rcases List.mem_cons.1 h with h | h
      · exact .inl h
      · exact .inr (List.mem_cons_of_mem _ h)
    · rcases List.mem_cons.1 h with h | h
      · exact .inr (h ▸ List.mem_cons_self)
      · rcases mem_lookupSet h with h | h
        · exact .inl h
        · exact .inr (List.mem_cons_of_mem _ h)

theorem ginv_lookup (g : GInv cache base s) (k n : Str) (h1 : s.files ⟨cache, n⟩ ≠ none)
    (h2 : s.files ⟨cache, withSuffix n c!".html"⟩ ≠ none) : GInv cache base { s with lookup := lookupSet k ⟨cache, n⟩ s.lookup } :=
  ⟨g.cache_base, g.base_kept, g.jobs_dirs, g.jobs_distinct, g.dirs_from, g.files_dirs, fun e he => by
    rcases mem_lookupSet he with rfl | he
    · exact ⟨rfl, h1, h2⟩
    · exact g.cached e he⟩

theorem ginv_stop (g : GInv cache base s) {j : Nat} {job : Job} (hj : s.jobs[j]? = some job) (hl : job.st ≠ .over) :
    GInv cache base ((s.cleanup job.dir).setJob j job .over) := by
  have hd := g.jobs_dirs j job hj hl
  have hne : cache ≠ job.dir := fun h => hd.2 (h ▸ g.cache_base)
  have hj' : (s.cleanup job.dir).jobs[j]? = some job := hj
  have key : ∀ (i : Nat) (a : Job), ((s.cleanup job.dir).setJob j job .over).jobs[i]? = some a → a.st ≠ .over → i ≠ j ∧ s.jobs[i]? = some a := by
    intro i a h ha
    rw [setJob_jobs hj'] at h
    split at h
    · injection h with h; subst h; exact absurd rfl ha
    · next hi => exact ⟨hi, h⟩
  have hmem : ∀ d, d ∈ ((s.cleanup job.dir).setJob j job .over).dirs ↔ d ∈ s.dirs ∧ d ≠ job.dir := by
    intro d
    change d ∈ s.dirs.filter _ ↔ _
    rw [List.mem_filter]; simp
  refine ⟨g.cache_base, ?_, ?_, ?_, ?_, ?_, ?_⟩
  · intro d hb
    exact (hmem d).2 ⟨g.base_kept d hb, fun h => hd.2 (h ▸ hb)⟩
  · intro i a h ha
    obtain ⟨hi, h⟩ := key i a h ha
    have := g.jobs_dirs i a h ha
    exact ⟨(hmem _).2 ⟨this.1, fun he => hi (g.jobs_distinct i j a job h hj ha hl he)⟩, this.2⟩
  · intro i i' a a' h h' ha ha' he
    exact g.jobs_distinct i i' a a' (key i a h ha).2 (key i' a' h' ha').2 ha ha' he
  · intro d h
    obtain ⟨h, hne⟩ := (hmem d).1 h
    rcases g.dirs_from d h with h | ⟨i, a, h1, h2, h3⟩
    · exact .inl h
    · refine .inr ⟨i, a, ?_, h2, h3⟩
      rw [setJob_jobs hj', if_neg]
      · exact h1
      · rintro rfl
        rw [hj] at h1; injection h1 with h1; subst h1
        exact hne h3.symm
  · intro f hf
    change (if f.dir = job.dir then none else s.files f) ≠ none at hf
    split at hf
    · exact absurd rfl hf
    · next h => exact (hmem _).2 ⟨g.files_dirs f hf, h⟩
  · intro e he
    have := g.cached e he
    have hf : ∀ f : FPath, f.dir = cache → ((s.cleanup job.dir).setJob j job .over).files f = s.files f := by
      intro f h
      change (if f.dir = job.dir then none else s.files f) = _
      rw [if_neg (by rw [h]; exact hne)]
    exact ⟨this.1, by rw [hf _ this.1]; exact this.2.1, by rw [hf _ rfl]; exact this.2.2⟩

theorem ginv_add (g : GInv cache base s) {dir : Str} (hdir : dir ∉ s.dirs) (p : FPath) (hp : p.dir ∈ dir :: s.dirs) (content hash : Str) :
    GInv cache base { s with files := s.files.set p content, dirs := dir :: s.dirs, jobs := s.jobs ++ [⟨dir, p, hash, .created⟩] } := by
  have key : ∀ i (a : Job), (s.jobs ++ [⟨dir, p, hash, .created⟩])[i]? = some a →
      s.jobs[i]? = some a ∨ (i = s.jobs.length ∧ a = ⟨dir, p, hash, .created⟩) := by
    intro i a h
    rcases Nat.lt_or_ge i s.jobs.length with hi | hi
    · rw [List.getElem?_append_left hi] at h; exact .inl h
    · rw [List.getElem?_append_right hi, List.getElem?_singleton] at h
      split at h
      · next h0 => injection h with h; exact .inr ⟨by omega, h.symm⟩
      · simp at h
  refine ⟨g.cache_base, fun d hd => List.mem_cons_of_mem _ (g.base_kept d hd), ?_, ?_, ?_, ?_, ?_⟩
  · intro i a h ha
    rcases key i a h with h | ⟨-, rfl⟩
    · exact ⟨List.mem_cons_of_mem _ (g.jobs_dirs i a h ha).1, (g.jobs_dirs i a h ha).2⟩
    · exact ⟨List.mem_cons_self, fun h => hdir (g.base_kept _ h)⟩
  · intro i i' a a' h h' ha ha' he
    rcases key i a h with h | ⟨hi, rfl⟩ <;> rcases key i' a' h' with h' | ⟨hi', rfl⟩
    · exact g.jobs_distinct i i' a a' h h' ha ha' he
    · exact absurd ((show a.dir = dir from he) ▸ (g.jobs_dirs i a h ha).1) hdir
    · exact absurd ((show dir = a'.dir from he) ▸ (g.jobs_dirs i' a' h' ha').1) hdir
    · rw [hi, hi']
  · intro d hd
    rcases List.mem_cons.1 hd with rfl | hd
    · exact .inr ⟨s.jobs.length, ⟨d, p, hash, .created⟩, by simp, by simp, rfl⟩
    · rcases g.dirs_from d hd with h | ⟨i, a, h1, h2, h3⟩
      · exact .inl h
      · refine .inr ⟨i, a, ?_, h2, h3⟩
        change (s.jobs ++ _)[i]? = _
        rw [List.getElem?_append_left (job_lt h1)]; exact h1
  · intro f hf
    by_cases hfp : f = p
    · rw [hfp]; exact hp
    · change s.files.set p content f ≠ none at hf
      rw [Files.set_other _ _ hfp] at hf
      exact List.mem_cons_of_mem _ (g.files_dirs f hf)
  · have hs : ∀ f, s.files f ≠ none → s.files.set p content f ≠ none := by
      intro f hf
      by_cases hfp : f = p
      · rw [hfp, Files.set_same]; simp
      · rw [Files.set_other _ _ hfp]; exact hf
    intro e he
    have := g.cached e he
    exact ⟨this.1, hs _ this.2.1, hs _ this.2.2⟩
end

/-- the ways in which parse_spec can end -/
theorem finishJob_cases (env : SrvEnv) (s : Srv) (j : Nat) (job : Job) (w : Files) (r : Except Exn FPath)
    (hr : runSpec env.tools (srvOpts job.dir) s.files job.spec = (w, r)) :
    ((∃ e, r = .error e) ∧
      finishJob env s j job = ((({ s with files := w } : Srv).cleanup job.dir).setJob j job .over, .failed)) ∨
    (∃ n jt, r = .ok ⟨job.dir, n⟩ ∧ n = baseName job.spec.name ++ c!".json" ∧ w ⟨job.dir, n⟩ = some jt ∧
      (((w.set ⟨env.cache, n⟩ jt) ⟨job.dir, withSuffix n c!".html"⟩ = none ∧
        finishJob env s j job = ((({ s with files := w.set ⟨env.cache, n⟩ jt } : Srv).cleanup job.dir).setJob j job .over, .failed)) ∨
      ∃ ht, (w.set ⟨env.cache, n⟩ jt) ⟨job.dir, withSuffix n c!".html"⟩ = some ht ∧
        finishJob env s j job = (({ s with
          files := (w.set ⟨env.cache, n⟩ jt).set ⟨env.cache, withSuffix n c!".html"⟩ ht,
          lookup := lookupSet job.hash ⟨env.cache, n⟩ s.lookup } : Srv).setJob j job .completed,
            .event (jsonToSse (completedEvent job.hash))))) := by
  cases r with
  | error e =>
    refine .inl ⟨⟨e, rfl⟩, ?_⟩
    simp only [finishJob, endJob, hr]
  | ok p =>
    obtain ⟨hp, jt, hjt⟩ := runSpec_name hr
    subst hp
    refine .inr ⟨_, jt, rfl, rfl, hjt, ?_⟩
    have hjt' : w { dir := (srvOpts job.dir).out, name := baseName job.spec.name ++ c!".json" } = some jt := hjt
    simp only [finishJob, endJob, hr, hjt']
    cases hh : (w.set ⟨env.cache, baseName job.spec.name ++ c!".json"⟩ jt) ⟨job.dir, withSuffix (baseName job.spec.name ++ c!".json") c!".html"⟩ with
    | none =>
      refine .inl ⟨rfl, ?_⟩
      have hh' : (w.set ⟨env.cache, baseName job.spec.name ++ c!".json"⟩ jt)
        ⟨(srvOpts job.dir).out, withSuffix (baseName job.spec.name ++ c!".json") c!".html"⟩ = none := hh
      rw [hh']
    | some ht =>
      refine .inr ⟨ht, rfl, ?_⟩
      have hh' : (w.set ⟨env.cache, baseName job.spec.name ++ c!".json"⟩ jt)
        ⟨(srvOpts job.dir).out, withSuffix (baseName job.spec.name ++ c!".json") c!".html"⟩ = some ht := hh
      rw [hh']

theorem ginv_finish (env : SrvEnv) {base : List Str} {s : Srv} (g : GInv env.cache base s) {j : Nat} {job : Job}
    (hj : s.jobs[j]? = some job) (hl : job.st ≠ .over) : GInv env.cache base (finishJob env s j job).1 := by
  have hd := g.jobs_dirs j job hj hl
  have hcd : env.cache ≠ job.dir := fun h => hd.2 (h ▸ g.cache_base)
  have hframe := fun f => runSpec_frame env.tools (srvOpts job.dir) s.files job.spec f
  generalize hr : runSpec env.tools (srvOpts job.dir) s.files job.spec = wr at hframe
  obtain ⟨w, r⟩ := wr
  replace hframe : ∀ f, f.dir ≠ job.dir → w f = s.files f := hframe
  have h1 : ∀ f, w f ≠ none → f.dir ∈ s.dirs := by
    intro f hf
    by_cases h : f.dir = job.dir
    · rw [h]; exact hd.1
    · rw [hframe f h] at hf; exact g.files_dirs f hf
  have h2 : ∀ f, f.dir = env.cache → s.files f ≠ none → w f ≠ none := by
    intro f hf hs
    rw [hframe f (by rw [hf]; exact hcd)]; exact hs
  have hset1 : ∀ (w : Files) n x, (∀ f, w f ≠ none → f.dir ∈ s.dirs) → ∀ f, w.set ⟨env.cache, n⟩ x f ≠ none → f.dir ∈ s.dirs := by
    intro w n x h f hf
    by_cases hfe : f = ⟨env.cache, n⟩
    · rw [hfe]; exact g.base_kept _ g.cache_base
    · rw [Files.set_other _ _ hfe] at hf; exact h f hf
  have hset2 : ∀ (w : Files) n x, (∀ f, f.dir = env.cache → s.files f ≠ none → w f ≠ none) →
      ∀ f, f.dir = env.cache → s.files f ≠ none → w.set ⟨env.cache, n⟩ x f ≠ none := by
    intro w n x h f hf hs
    by_cases hfe : f = ⟨env.cache, n⟩
    · rw [hfe, Files.set_same]; simp
    · rw [Files.set_other _ _ hfe]; exact h f hf hs
  rcases finishJob_cases env s j job w r hr with ⟨-, h⟩ | ⟨n, jt, -, -, -, ⟨-, h⟩ | ⟨ht, -, h⟩⟩
  · rw [h]; exact ginv_stop (ginv_files g w h1 h2) hj hl
  · rw [h]; exact ginv_stop (ginv_files g _ (hset1 _ _ _ h1) (hset2 _ _ _ h2)) hj hl
  · rw [h]
    have g' := ginv_files g _ (hset1 _ (withSuffix n c!".html") ht (hset1 _ n jt h1)) (hset2 _ (withSuffix n c!".html") ht (hset2 _ n jt h2))
    refine ginv_mark (ginv_lookup g' job.hash n ?_ ?_) hj hl _ (by simp)
    · change Files.set _ _ _ _ ≠ none
      by_cases hn : (⟨env.cache, n⟩ : FPath) = ⟨env.cache, withSuffix n c!".html"⟩
      · rw [hn, Files.set_same]; simp
      · rw [Files.set_other _ _ hn, Files.set_same]; simp
    · change Files.set _ _ _ _ ≠ none
      rw [Files.set_same]; simp

theorem ginv_step (env : SrvEnv) {base : List Str} {s : Srv} (g : GInv env.cache base s) (e : SrvEv) :
    GInv env.cache base (srvStep env s e).1 := by
  cases e with
  | post dir doc accept =>
    rw [srvStep]
    unfold postSpec
    split
    · exact g
    · split
      · exact g
      · split
        · exact g
        · next hdir =>
          split
          · exact g
          · split
            · next hp => exact ginv_add g (fun h => hdir (.inl h)) _ hp.1 _ _
            · exact g
  | progress j p =>
    rw [srvStep]
    split
    · exact g
    · next job hj =>
      split
      · next h => exact ginv_mark g hj (by rcases h with h | h <;> rw [h] <;> simp) _ (by simp)
      · exact g
  | finish j =>
    rw [srvStep]
    split
    · exact g
    · next job hj =>
      split
      · next h => exact ginv_finish env g hj (by rcases h with h | h <;> rw [h] <;> simp)
      · exact g
  | resume j =>
    rw [srvStep]
    split
    · exact g
    · next job hj =>
      split
      · next h => exact ginv_stop g hj (by rw [h]; simp)
      · exact g
  | close j =>
    rw [srvStep]
    split
    · exact g
    · next job hj =>
      split
      · next h => exact ginv_mark g hj (by rw [h]; simp) _ (by simp)
      · split
        · next h => exact ginv_stop g hj (by rcases h with h | h <;> rw [h] <;> simp)
        · exact g
  | collect j =>
    rw [srvStep]
    split
    · exact g
    · next job hj =>
      split
      · next h => exact ginv_stop g hj (by rw [h]; simp)
      · exact g
  | getJson hash => rw [srvStep]; repeat' split
                    all_goals exact g
  | getHtml hash => rw [srvStep]; repeat' split
                    all_goals exact g
  | getReport hash => rw [srvStep]; repeat' split
                      all_goals exact g

theorem ginv_run (env : SrvEnv) {base : List Str} {s : Srv} (g : GInv env.cache base s) (h : List SrvEv) :
    GInv env.cache base (srvRun env s h) := by
  induction h generalizing s with
  | nil => exact g
  | cons e es ih => exact ih (ginv_step env g e)

omit [Uni] in
theorem ginv_start (env : SrvEnv) (files : Files) (dirs : List Str) (hf : ∀ f, files f ≠ none → f.dir ∈ dirs) :
    GInv env.cache (env.cache :: dirs) (srvStart env files dirs) :=
  ⟨List.mem_cons_self, fun _ h => h, by simp [srvStart], by simp [srvStart], fun _ h => .inl h,
    fun f h => List.mem_cons_of_mem _ (hf f h), by simp [srvStart]⟩

end Spex
