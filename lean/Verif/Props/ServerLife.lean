import Verif.Model.ServerLife
import Verif.Props.ServerSteps
/-
C98: what a server leaves behind, and what the next one knows of it.
-/
set_option autoImplicit false
namespace Spex
variable [Uni]

/-! ### Specification -/

section
omit [Uni]

/-- the documents sent, by name and content -/
def lifeSent (h : List LifeEv) : List (Str × Str) :=
  h.filterMap fun
    | .ask _ (.other (.post _ (some doc) _)) => some doc
    | _ => none

/-- a file, whether a server runs or not -/
def Life.file : Life → FPath → Option Str
  | .off files _, p => files p
  | .on _ s, p => s.srv.files p

end

/-! ### One server -/

section
omit [Uni]

theorem cleanups_files (jobs : List Job) (s : Srv) (f : FPath) :
    ((jobs.foldl (fun s job => s.cleanup job.dir) s).files f) = if ∃ job ∈ jobs, f.dir = job.dir then none else s.files f := by
  induction jobs generalizing s with
  | nil => simp
  | cons job jobs ih =>
    rw [List.foldl_cons, ih]
    simp only [Srv.cleanup, List.exists_mem_cons_iff]
    by_cases h1 : ∃ j ∈ jobs, f.dir = j.dir
    · rw [if_pos h1, if_pos (.inr h1)]
    · rw [if_neg h1]
      by_cases h2 : f.dir = job.dir
      · rw [if_pos h2, if_pos (.inl h2)]
      · rw [if_neg h2, if_neg (by rintro (h | h); exacts [h2 h, h1 h])]

theorem cleanups_dirs (jobs : List Job) (s : Srv) (d : Str) :
    d ∈ (jobs.foldl (fun s job => s.cleanup job.dir) s).dirs ↔ d ∈ s.dirs ∧ ∀ job ∈ jobs, d ≠ job.dir := by
  induction jobs generalizing s with
  | nil => simp
  | cons job jobs ih =>
    rw [List.foldl_cons, ih]
    simp only [Srv.cleanup, List.mem_filter, List.forall_mem_cons, ne_eq, decide_not, Bool.not_eq_true', decide_eq_false_iff_not]
    tauto

theorem mem_going {jobs : List Job} {d : Str} : (∃ job ∈ jobs.filter (fun job => job.st ≠ .over), d = job.dir) ↔
    ∃ (j : Nat) (job : Job), jobs[j]? = some job ∧ job.st ≠ .over ∧ job.dir = d := by
  constructor
  · rintro ⟨job, h, rfl⟩
    rw [List.mem_filter, decide_eq_true_eq] at h
    obtain ⟨j, hj⟩ := List.mem_iff_getElem?.1 h.1
    exact ⟨j, job, hj, h.2, rfl⟩
  · rintro ⟨j, job, h1, h2, rfl⟩
    exact ⟨job, List.mem_filter.2 ⟨List.mem_of_getElem? h1, by simpa using h2⟩, rfl⟩

theorem shutdown_gone (cache : Str) (s : Srv) (f : FPath)
    (h : f.dir = cache ∨ ∃ (j : Nat) (job : Job), s.jobs[j]? = some job ∧ job.st ≠ .over ∧ job.dir = f.dir) : (shutdown cache s).files f = none := by
  rw [shutdown, Srv.cleanup]
  simp only
  rw [cleanups_files]
  rcases h with h | h
  · rw [if_pos h]
  · rw [if_pos (mem_going.2 h), ite_self]

theorem shutdown_left (cache : Str) (s : Srv) (f : FPath)
    (h : ¬ (f.dir = cache ∨ ∃ (j : Nat) (job : Job), s.jobs[j]? = some job ∧ job.st ≠ .over ∧ job.dir = f.dir)) :
    (shutdown cache s).files f = s.files f := by
  rw [not_or] at h
  rw [shutdown, Srv.cleanup]
  simp only
  rw [cleanups_files, if_neg h.1, if_neg (fun k => h.2 (mem_going.1 k))]

theorem shutdown_dirs (cache : Str) (s : Srv) (d : Str) : d ∈ (shutdown cache s).dirs ↔
    d ∈ s.dirs ∧ d ≠ cache ∧ ¬ ∃ (j : Nat) (job : Job), s.jobs[j]? = some job ∧ job.st ≠ .over ∧ job.dir = d := by
  rw [shutdown, Srv.cleanup, List.mem_filter, decide_eq_true_eq, cleanups_dirs, ← mem_going]
  constructor
  · rintro ⟨⟨h1, h2⟩, h3⟩
    exact ⟨h1, h3, fun ⟨job, hj, he⟩ => h2 job hj he⟩
  · rintro ⟨h1, h2, h3⟩
    exact ⟨⟨h1, fun job hj he => h3 ⟨job, hj, he⟩⟩, h2⟩

end

section
variable {env : StepEnv} {base : List Str} {files0 : Files} {ps : List (Str × Str)} {F : StepSrv} {C : Srv}

/-- a step of the server, whatever it is -/
theorem Sim.step (s : Sim env base files0 ps F C) (e : StepEv) (hp : ∀ x ∈ sentDocs [e], x ∈ ps ∧ PlainName x.1) :
    ∃ C', Sim env base files0 ps (stepSrv env F e).1 C' := by
  by_cases hh : e.proper
  · obtain ⟨cs, -, -, h⟩ := Sim.history [e] hp (fun x hx => by rw [List.mem_singleton.1 hx]; exact hh) s
    exact ⟨_, h⟩
  · refine ⟨C, ?_⟩
    have : (stepSrv env F e).1 = F := by
      cases e with
      | next j => exact absurd trivial hh
      | other e => cases e <;> first | rfl | exact absurd trivial hh
    rw [this]; exact s

/-- the files are in directories which exist -/
theorem Sim.in_dirs (s : Sim env base files0 ps F C) (f : FPath) (hf : F.srv.files f ≠ none) : f.dir ∈ F.srv.dirs := by
  rw [s.dirs]
  by_cases h : ∃ (j : Nat) (job : Job), C.jobs[j]? = some job ∧ (job.st = .running ∨ job.st = .completed) ∧ f.dir = job.dir
  · obtain ⟨j, job, hj, hst, he⟩ := h
    rw [he]
    exact (s.ginv.jobs_dirs j job hj (by rcases hst with h | h <;> rw [h] <;> simp)).1
  · rw [s.files f (fun j job hj hst he => h ⟨j, job, hj, hst, he⟩)] at hf
    exact s.ginv.files_dirs f hf

/-- what was there before the server is as it was -/
theorem Sim.before (s : Sim env base files0 ps F C) (f : FPath) (hb : f.dir ∈ base) (hc : f.dir ≠ env.cache) : F.srv.files f = files0 f := by
  rw [s.files f ?_, s.pinv.outside f hb hc]
  intro j job hj hst he
  exact (s.ginv.jobs_dirs j job hj (by rcases hst with h | h <;> rw [h] <;> simp)).2 (he ▸ hb)

end

/-! ### Any number of servers -/

/-- the files of the beginning are there -/
def Kept (env : StepEnv) (files : Files) (dirs : List Str) (ps : List (Str × Str)) : Life → Prop
  | .off f d => (∀ p, f p ≠ none → p.dir ∈ d) ∧ (∀ x ∈ dirs, x ∈ d) ∧ ∀ p : FPath, p.dir ∈ dirs → f p = files p
  | .on cache s => ∃ f d C, ((∀ p, f p ≠ none → p.dir ∈ d) ∧ (∀ x ∈ dirs, x ∈ d) ∧ ∀ p : FPath, p.dir ∈ dirs → f p = files p) ∧ cache ∉ d ∧
      Sim (env.withCache cache) (cache :: d) f ps s C

/-- only the files of the beginning are there, or those of a server which has found only these -/
def Clean (env : StepEnv) (files : Files) (dirs : List Str) (ps : List (Str × Str)) : Life → Prop
  | .off f d => (∀ p, f p = files p) ∧ ∀ x, x ∈ d ↔ x ∈ dirs
  | .on cache s => ∃ f d C, ((∀ p, f p = files p) ∧ ∀ x, x ∈ d ↔ x ∈ dirs) ∧ cache ∉ d ∧ Sim (env.withCache cache) (cache :: d) f ps s C

section
variable {env : StepEnv} {files : Files} {dirs : List Str} {ps : List (Str × Str)}

omit [Uni] in
theorem lifeSent_ask {n : Nat} {e : StepEv} {x : Str × Str} (h : x ∈ sentDocs [e]) : x ∈ lifeSent [.ask n e] := by
  cases e with
  | next j => simp [sentDocs] at h
  | other e =>
    cases e with
    | post dir doc acc => cases doc <;> simp_all [sentDocs, lifeSent]
    | _ => simp [sentDocs] at h

theorem stopped {cache : Str} {s : StepSrv} {f : Files} {d : List Str} {C : Srv} (hf : ∀ p, f p ≠ none → p.dir ∈ d) (hc : cache ∉ d)
    (h : Sim (env.withCache cache) (cache :: d) f ps s C) :
    (∀ p, (shutdown cache s.srv).files p = f p) ∧ ∀ x, x ∈ (shutdown cache s.srv).dirs ↔ x ∈ d := by
  constructor
  · intro p
    by_cases hp : p.dir ∈ d
    · rw [shutdown_left, h.before p (List.mem_cons_of_mem _ hp) (fun he => hc ((show p.dir = cache from he) ▸ hp))]
      rintro (he | ⟨j, job, hj, hst, he⟩)
      · exact hc (he ▸ hp)
      · rw [h.jobs] at hj
        exact (h.ginv.jobs_dirs j job hj hst).2 (he ▸ List.mem_cons_of_mem _ hp)
    · have h0 : f p = none := by
        by_contra h0; exact hp (hf p h0)
      rw [h0]
      by_cases h1 : s.srv.files p = none
      · by_cases h2 : p.dir = cache ∨ ∃ (j : Nat) (job : Job), s.srv.jobs[j]? = some job ∧ job.st ≠ .over ∧ job.dir = p.dir
        · exact shutdown_gone _ _ _ h2
        · rw [shutdown_left _ _ _ h2, h1]
      · apply shutdown_gone
        have := h.in_dirs p h1
        rw [h.dirs] at this
        rcases h.ginv.dirs_from _ this with h2 | ⟨j, job, hj, hst, he⟩
        · rcases List.mem_cons.1 h2 with h2 | h2
          · exact .inl h2
          · exact absurd h2 hp
        · exact .inr ⟨j, job, by rw [h.jobs]; exact hj, hst, he⟩
  · intro x
    rw [shutdown_dirs, h.dirs, h.jobs]
    constructor
    · rintro ⟨h1, h2, h3⟩
      rcases h.ginv.dirs_from _ h1 with h4 | h4
      · exact (List.mem_cons.1 h4).resolve_left h2
      · exact absurd h4 h3
    · intro hx
      refine ⟨h.ginv.base_kept x (List.mem_cons_of_mem _ hx), fun he => hc (he ▸ hx), ?_⟩
      rintro ⟨j, job, hj, hst, he⟩
      exact (h.ginv.jobs_dirs j job hj hst).2 (he ▸ List.mem_cons_of_mem _ hx)

theorem kept_step {l : Life} (h : Kept env files dirs ps l) (e : LifeEv) (hp : ∀ x ∈ lifeSent [e], x ∈ ps ∧ PlainName x.1) :
    Kept env files dirs ps (lifeStep env l e).1 := by
  cases l with
  | off f d =>
    cases e with
    | start cache =>
      rw [lifeStep]
      by_cases hc : cache ∈ d
      · rw [if_pos hc]; exact h
      · rw [if_neg hc]
        exact ⟨f, d, _, h, hc, sim_start (env.withCache cache) f d h.1 ps⟩
    | ask n e => exact h
    | stop => exact h
    | kill => exact h
  | on cache s =>
    obtain ⟨f, d, C, h0, hc, hs⟩ := h
    cases e with
    | start c => exact ⟨f, d, C, h0, hc, hs⟩
    | ask n e =>
      rw [lifeStep]
      by_cases hn : e.isPost = true ∧ maxContentLength < n
      · rw [if_pos hn]; exact ⟨f, d, C, h0, hc, hs⟩
      · rw [if_neg hn]
        obtain ⟨C', hs'⟩ := hs.step e (fun x hx => hp x (lifeSent_ask hx))
        exact ⟨f, d, C', h0, hc, hs'⟩
    | stop =>
      rw [lifeStep]
      obtain ⟨h1, h2⟩ := stopped h0.1 hc hs
      refine ⟨fun p hp => ?_, fun x hx => (h2 x).2 (h0.2.1 x hx), fun p hp => ?_⟩
      · rw [h1] at hp; exact (h2 _).2 (h0.1 p hp)
      · rw [h1]; exact h0.2.2 p hp
    | kill =>
      rw [lifeStep]
      refine ⟨hs.in_dirs, fun x hx => ?_, fun p hp => ?_⟩
      · rw [hs.dirs]; exact hs.ginv.base_kept x (List.mem_cons_of_mem _ (h0.2.1 x hx))
      · rw [hs.before p (List.mem_cons_of_mem _ (h0.2.1 _ hp)) (fun he => hc ((show p.dir = cache from he) ▸ h0.2.1 _ hp))]
        exact h0.2.2 p hp

theorem clean_step (hf : ∀ p, files p ≠ none → p.dir ∈ dirs) {l : Life} (h : Clean env files dirs ps l) (e : LifeEv) (hk : e ≠ .kill)
    (hp : ∀ x ∈ lifeSent [e], x ∈ ps ∧ PlainName x.1) : Clean env files dirs ps (lifeStep env l e).1 := by
  have hin : ∀ {f : Files} {d : List Str}, ((∀ p, f p = files p) ∧ ∀ x, x ∈ d ↔ x ∈ dirs) → ∀ p, f p ≠ none → p.dir ∈ d := by
    intro f d h p hp
    rw [h.1] at hp
    exact (h.2 _).2 (hf p hp)
  cases l with
  | off f d =>
    cases e with
    | start cache =>
      rw [lifeStep]
      by_cases hc : cache ∈ d
      · rw [if_pos hc]; exact h
      · rw [if_neg hc]
        exact ⟨f, d, _, h, hc, sim_start (env.withCache cache) f d (hin h) ps⟩
    | ask n e => exact h
    | stop => exact h
    | kill => exact h
  | on cache s =>
    obtain ⟨f, d, C, h0, hc, hs⟩ := h
    cases e with
    | start c => exact ⟨f, d, C, h0, hc, hs⟩
    | ask n e =>
      rw [lifeStep]
      by_cases hn : e.isPost = true ∧ maxContentLength < n
      · rw [if_pos hn]; exact ⟨f, d, C, h0, hc, hs⟩
      · rw [if_neg hn]
        obtain ⟨C', hs'⟩ := hs.step e (fun x hx => hp x (lifeSent_ask hx))
        exact ⟨f, d, C', h0, hc, hs'⟩
    | stop =>
      rw [lifeStep]
      obtain ⟨h1, h2⟩ := stopped (hin h0) hc hs
      exact ⟨fun p => by rw [h1, h0.1], fun x => by rw [h2, h0.2]⟩
    | kill => exact absurd rfl hk

end

omit [Uni] in
theorem lifeSent_cons (e : LifeEv) (h : List LifeEv) : lifeSent (e :: h) = lifeSent [e] ++ lifeSent h := by
  rw [lifeSent, lifeSent, lifeSent, ← List.filterMap_append]; rfl

/-- **C98**, for plain file names: **servers leave nothing behind when they are shut down**. Whatever was sent to them and however many uploads
were under way when they were shut down, when none runs, the files and directories are those which were there before the first one. -/
theorem C98_shutdown_partial (env : StepEnv) (files : Files) (dirs : List Str) (hf : ∀ p, files p ≠ none → p.dir ∈ dirs) (h : List LifeEv)
    (plain : ∀ x ∈ lifeSent h, PlainName x.1) (hk : LifeEv.kill ∉ h) (files' : Files) (dirs' : List Str)
    (ho : lifeRun env (.off files dirs) h = .off files' dirs') : (∀ p, files' p = files p) ∧ ∀ d, d ∈ dirs' ↔ d ∈ dirs := by
  have key : ∀ (h : List LifeEv) (ps : List (Str × Str)) (l : Life), (∀ x ∈ lifeSent h, x ∈ ps ∧ PlainName x.1) → LifeEv.kill ∉ h →
      Clean env files dirs ps l → Clean env files dirs ps (lifeRun env l h) := by
    intro h
    induction h with
    | nil => intro ps l _ _ hl; exact hl
    | cons e es ih =>
      intro ps l hp hk hl
      rw [lifeSent_cons] at hp
      rw [List.mem_cons, not_or] at hk
      exact ih ps _ (fun x hx => hp x (List.mem_append_right _ hx)) hk.2
        (clean_step hf hl e (fun he => hk.1 he.symm) (fun x hx => hp x (List.mem_append_left _ hx)))
  have := key h (lifeSent h) (.off files dirs) (fun x hx => ⟨hx, plain x hx⟩) hk ⟨fun _ => rfl, fun _ => Iff.rfl⟩
  rw [ho] at this
  exact this

/-- **C98**, for plain file names: **no server changes a file which was there before**, at any time, also if servers are killed and others are
started after them. -/
theorem C98_kept_partial (env : StepEnv) (files : Files) (dirs : List Str) (hf : ∀ p, files p ≠ none → p.dir ∈ dirs) (h : List LifeEv)
    (plain : ∀ x ∈ lifeSent h, PlainName x.1) (p : FPath) (hd : p.dir ∈ dirs) :
    (lifeRun env (.off files dirs) h).file p = files p := by
  have key : ∀ (h : List LifeEv) (ps : List (Str × Str)) (l : Life), (∀ x ∈ lifeSent h, x ∈ ps ∧ PlainName x.1) →
      Kept env files dirs ps l → Kept env files dirs ps (lifeRun env l h) := by
    intro h
    induction h with
    | nil => intro ps l _ hl; exact hl
    | cons e es ih =>
      intro ps l hp hl
      rw [lifeSent_cons] at hp
      exact ih ps _ (fun x hx => hp x (List.mem_append_right _ hx)) (kept_step hl e (fun x hx => hp x (List.mem_append_left _ hx)))
  have := key h (lifeSent h) (.off files dirs) (fun x hx => ⟨hx, plain x hx⟩) ⟨hf, fun _ h => h, fun _ _ => rfl⟩
  cases hl : lifeRun env (.off files dirs) h with
  | off f d => rw [hl] at this; exact this.2.2 p hd
  | on cache s =>
    rw [hl] at this
    obtain ⟨f, d, C, h0, hc, hs⟩ := this
    show s.srv.files p = files p
    rw [hs.before p (List.mem_cons_of_mem _ (h0.2.1 _ hd)) (fun he => hc ((show p.dir = cache from he) ▸ h0.2.1 _ hd))]
    exact h0.2.2 p hd

/-! ### Reports -/

section
omit [Uni]

theorem lookupGet_set {k k' : Str} (hk : k' ≠ k) (v : FPath) : ∀ d : List (Str × FPath), lookupGet (lookupSet k v d) k' = lookupGet d k'
  | [] => by simp [lookupSet, lookupGet, Ne.symm hk]
  | (a, b) :: d => by
    have ih := lookupGet_set hk v d
    simp only [lookupGet] at ih
    simp only [lookupSet]
    by_cases ha : a = k
    · subst ha
      simp [lookupGet, Ne.symm hk]
    · rw [if_neg ha]
      simp only [lookupGet, List.find?_cons]
      by_cases hb : a = k'
      · simp [hb]
      · simp [hb, ih]

end

/-- a report which is not known is known after a step only if the step says so -/
theorem unknown_step (env : StepEnv) (s : StepSrv) (e : StepEv) (hash : Str) (h : lookupGet s.srv.lookup hash = none)
    (hr : (stepSrv env s e).2 ≠ .event (jsonToSse (completedEvent hash))) : lookupGet (stepSrv env s e).1.srv.lookup hash = none := by
  have hend : ∀ (j : Nat) (job : Job) (w : Files) (r : Except Exn FPath),
      (endJob env.toSrvEnv s.srv j job w r).2 ≠ .event (jsonToSse (completedEvent hash)) →
      lookupGet (endJob env.toSrvEnv s.srv j job w r).1.lookup hash = none := by
    intro j job w r hne
    unfold endJob at hne ⊢
    cases r with
    | error e => exact h
    | ok json =>
      simp only at hne ⊢
      cases hw : w json with
      | none => exact h
      | some jt =>
        rw [hw] at hne
        simp only at hne ⊢
        cases hw' : (w.set ⟨env.cache, json.name⟩ jt) ⟨json.dir, withSuffix json.name c!".html"⟩ with
        | none => exact h
        | some ht =>
          rw [hw'] at hne
          simp only at hne ⊢
          show lookupGet (lookupSet job.hash _ s.srv.lookup) hash = none
          rw [lookupGet_set ?_, h]
          rintro rfl
          exact hne rfl
  cases e with
  | next j =>
    unfold stepSrv at hr ⊢
    simp only at hr ⊢
    cases hj : s.srv.jobs[j]? with
    | none => exact h
    | some job =>
      rw [hj] at hr
      simp only at hr ⊢
      by_cases hst : job.st = .created ∨ job.st = .running
      · rw [if_pos hst] at hr ⊢
        rcases hg : genNext env (srvOpts job.dir) job.spec s.srv.files (s.gens j) with ⟨w, y⟩
        rw [hg] at hr
        cases y with
        | report p g => exact h
        | done r => exact hend j job w r hr
      · rw [if_neg hst]; exact h
  | other e =>
    cases e with
    | post dir doc acc =>
      simp only [stepSrv, srvStep, postSpec]
      repeat' split
      all_goals exact h
    | progress j p => exact h
    | finish j => exact h
    | getJson k => simp only [stepSrv, srvStep]; repeat' split
                   all_goals exact h
    | getHtml k => simp only [stepSrv, srvStep]; repeat' split
                   all_goals exact h
    | getReport k => simp only [stepSrv, srvStep]; repeat' split
                     all_goals exact h
    | resume j => simp only [stepSrv, srvStep]; repeat' split
                  all_goals exact h
    | close j => simp only [stepSrv, srvStep]; repeat' split
                 all_goals exact h
    | collect j => simp only [stepSrv, srvStep]; repeat' split
                   all_goals exact h

/-- this report is not known to the server which runs, if any -/
def Unknown (hash : Str) : Life → Prop
  | .off _ _ => True
  | .on _ s => lookupGet s.srv.lookup hash = none

theorem unknown_life (env : StepEnv) {l : Life} {hash : Str} (h : Unknown hash l) (e : LifeEv)
    (hr : (lifeStep env l e).2 ≠ .event (jsonToSse (completedEvent hash))) : Unknown hash (lifeStep env l e).1 := by
  cases l with
  | off f d =>
    cases e with
    | start cache =>
      rw [lifeStep]
      by_cases hc : cache ∈ d
      · rw [if_pos hc]; trivial
      · rw [if_neg hc]; rfl
    | _ => trivial
  | on cache s =>
    cases e with
    | start c => exact h
    | ask n e =>
      rw [lifeStep] at hr ⊢
      by_cases hn : e.isPost = true ∧ maxContentLength < n
      · rw [if_pos hn]; exact h
      · rw [if_neg hn] at hr ⊢
        exact unknown_step _ s e hash h hr
    | stop => trivial
    | kill => trivial

/-- C98: **a server knows nothing of the reports of the servers before it**. Whatever these have left, from a moment at which no server runs, the
JSON document, the page and the report of a checksum are not served unless this report has been announced as completed since then. -/
theorem C98_forgotten (env : StepEnv) (files : Files) (dirs : List Str) (h : List LifeEv) (hash : Str)
    (hn : ∀ x ∈ lifeTrace env (.off files dirs) h, x.2 ≠ .event (jsonToSse (completedEvent hash))) (size : Nat) (e : SrvEv)
    (he : e = .getJson hash ∨ e = .getHtml hash ∨ e = .getReport hash) :
    (lifeStep env (lifeRun env (.off files dirs) h) (.ask size (.other e))).2 = .nothing ∨
    ∃ n, 400 ≤ n ∧ (lifeStep env (lifeRun env (.off files dirs) h) (.ask size (.other e))).2 = .status n := by
  have key : ∀ (h : List LifeEv) (l : Life), (∀ x ∈ lifeTrace env l h, x.2 ≠ .event (jsonToSse (completedEvent hash))) → Unknown hash l →
      Unknown hash (lifeRun env l h) := by
    intro h
    induction h with
    | nil => intro l _ hl; exact hl
    | cons e es ih =>
      intro l hn hl
      rw [lifeTrace, List.forall_mem_cons] at hn
      exact ih _ hn.2 (unknown_life env hl e hn.1)
  have hu := key h (.off files dirs) hn trivial
  cases hl : lifeRun env (.off files dirs) h with
  | off f d => exact .inl rfl
  | on cache s =>
    rw [hl] at hu
    have hu : lookupGet s.srv.lookup hash = none := hu
    refine .inr ⟨500, by decide, ?_⟩
    rcases he with rfl | rfl | rfl <;> simp [lifeStep, StepEv.isPost, stepSrv, srvStep, hu]

/-- C98: **what is too large is refused**: a running server answers 413 to the uploads of more than 52428800 bytes and to nothing else, and such
an upload changes nothing. -/
theorem C98_too_large (env : StepEnv) (cache : Str) (s : StepSrv) (size : Nat) (e : StepEv) :
    ((lifeStep env (.on cache s) (.ask size e)).2 = .status 413 ↔ (∃ dir doc accept, e = .other (.post dir doc accept)) ∧ 52428800 < size) ∧
    ((lifeStep env (.on cache s) (.ask size e)).2 = .status 413 → (lifeStep env (.on cache s) (.ask size e)).1 = .on cache s) := by
  have hp : e.isPost = true ↔ ∃ dir doc accept, e = .other (.post dir doc accept) := by
    unfold StepEv.isPost
    split <;> simp_all
  have hmax : maxContentLength = 52428800 := rfl
  rw [← hp, ← hmax, lifeStep]
  by_cases h : e.isPost = true ∧ maxContentLength < size
  · rw [if_pos h]
    exact ⟨⟨fun _ => h, fun _ => rfl⟩, fun _ => rfl⟩
  · rw [if_neg h]
    have hne : (stepSrv (env.withCache cache) s e).2 ≠ .status 413 := by
      cases e with
      | next j =>
        simp only [stepSrv, endJob]
        repeat' split
        all_goals simp
      | other e =>
        cases e <;> simp only [stepSrv, srvStep, postSpec] <;> (repeat' split) <;> simp
    exact ⟨⟨fun k => absurd k hne, fun k => absurd k h⟩, fun k => absurd k hne⟩

/-! ### Servers -/

section
omit [Uni]

/-- A server with an upload which is completed and one which is under way when it is shut down; the upload of a document which is too large is
refused. After it another one, which is killed, and a third. -/
def lifeHistory : List LifeEv :=
  [.start c!"/tmp/c1", .ask 100 (.other (.post c!"/tmp/u1" (some (c!"a.html", c!"one")) true)), .ask 0 (.next 0), .ask 0 (.other (.resume 0)),
    .ask 100 (.other (.post c!"/tmp/u2" (some (c!"b.docx", c!"two")) true)), .ask 0 (.next 1),
    .ask 52428801 (.other (.post c!"/tmp/u3" (some (c!"c.docx", c!"three")) true)), .ask 0 (.other (.getHtml c!"one")), .stop,
    .ask 0 (.other (.getHtml c!"one")), .start c!"/tmp/c2", .ask 0 (.other (.getHtml c!"one"))]

/-- the same, and then a killed server -/
def lifeKilled : List LifeEv := lifeHistory ++ [.ask 52428800 (.other (.post c!"/tmp/u1" (some (c!"a.html", c!"one")) true)), .kill, .start c!"/tmp/c3", .stop]

end

/-- what is seen -/
example : letI := Uni.ascii
    (lifeTrace stepEnv (.off srvFiles srvDirs) lifeKilled).map (·.2) =
      [.nothing, .stream 0, .event (jsonToSse (completedEvent c!"one")), .ended, .stream 1,
        .event (jsonToSse (progressEvent ⟨c!"html", 0, 2⟩)), .status 413, .text c!"one", .nothing, .nothing, .nothing, .status 500, .stream 0, .nothing,
        .nothing, .nothing] := by
  decide +kernel

/-- the hypotheses of the theorems above -/
example : (∀ x ∈ lifeSent lifeKilled, PlainName x.1) ∧ (∀ p, srvFiles p ≠ none → p.dir ∈ srvDirs) ∧ LifeEv.kill ∉ lifeHistory.take 9 ∧
    letI := Uni.ascii
    ∃ f d, lifeRun stepEnv (.off srvFiles srvDirs) (lifeHistory.take 9) = .off f d := by
  refine ⟨?_, srvFiles_dirs, by simp [lifeHistory], _, _, rfl⟩
  have h : lifeSent lifeKilled = [(c!"a.html", c!"one"), (c!"b.docx", c!"two"), (c!"c.docx", c!"three"), (c!"a.html", c!"one")] := rfl
  rw [h]
  unfold PlainName
  decide

omit [Uni] in
/-- **C98** is false for a server which is killed: the directories of its uploads and its cache stay, with the documents sent, and no later server
removes them. -/
theorem C98_killed_false : letI := Uni.ascii
    ∃ f d, lifeRun stepEnv (.off srvFiles srvDirs) lifeKilled = .off f d ∧ c!"/tmp/u1" ∈ d ∧ c!"/tmp/u1" ∉ srvDirs ∧
      f ⟨c!"/tmp/u1", c!"a.html"⟩ = some c!"one" := by
  let _ := Uni.ascii
  have h : (match lifeRun stepEnv (.off srvFiles srvDirs) lifeKilled with
      | .off f d => decide (c!"/tmp/u1" ∈ d) && decide (f ⟨c!"/tmp/u1", c!"a.html"⟩ = some c!"one")
      | .on _ _ => false) = true := by decide +kernel
  cases hl : lifeRun stepEnv (.off srvFiles srvDirs) lifeKilled with
  | on c s => rw [hl] at h; cases h
  | off f d =>
    rw [hl] at h
    simp only [Bool.and_eq_true, decide_eq_true_eq] at h
    exact ⟨f, d, rfl, h.1, by decide, h.2⟩

end Spex
