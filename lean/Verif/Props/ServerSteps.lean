import Verif.Lemmas.ServerSteps
import Verif.Props.Server
import Verif.Model.FirstStage
/-
C94: uploads which are worked on at the same time.
-/
set_option autoImplicit false
namespace Spex
variable [Uni]

/-! ### Specification -/

section
omit [Uni]

/-- the documents sent to the server, by name and content -/
def sentDocs (h : List StepEv) : List (Str × Str) :=
  h.filterMap fun
    | .other (.post _ (some doc) _) => some doc
    | _ => none

/-- what is seen of the event stream of upload `j`: events, or that it is cut off -/
def seenOf (j : Nat) (tr : List (StepEv × SrvResp)) : List SrvResp :=
  tr.filterMap fun
    | (.next i, r) => if i = j ∧ r ≠ .nothing then some r else none
    | _ => none

/-- how many times the event stream of upload `j` is read on before it is closed -/
def readsOf (j : Nat) : List StepEv → Nat
  | [] => 0
  | .next i :: es => (if i = j then 1 else 0) + readsOf j es
  | .other (.close i) :: es => if i = j then 0 else readsOf j es
  | .other _ :: es => readsOf j es

end

/-- the reports of the second stage for a page -/
def pageReports (env : StepEnv) (text : Str) : List Progress := (parseSpec [] true true none (env.tools.xml text)).1

/-- The reports of the command for a document which is alone in a directory. A file `x.json` is emptied before it is read. -/
def docReports (env : StepEnv) (name content : Str) : List Progress :=
  if suffix name = c!".docx" then
    env.stage1 (baseName name) content ++ match env.tools.docx (baseName name) content with
      | .error _ => []
      | .ok (page, _) => pageReports env page
  else pageReports env (if name = baseName name ++ c!".json" then [] else content)

/-- The event stream of a document on a server which has nothing else to do: an event for each report, and then that of the completed
report, or the stream is cut off as the JSON model or the page cannot be made. -/
def docStream (env : StepEnv) (name content : Str) : List SrvResp :=
  (docReports env name content).map (fun p => .event (jsonToSse (progressEvent p))) ++
    [if (jsonReport env.tools name content).isSome ∧ (htmlReport env.tools name content).isSome then
      .event (jsonToSse (completedEvent (md5sum env.hasher content chunkBytes))) else .failed]

section
omit [Uni]

/-- The same history for the server which does the work of an upload at once, at the end of its stream. -/
inductive AtOnce : List StepEv → List SrvEv → Prop
  | nil : AtOnce [] []
  | report {h : List StepEv} {cs : List SrvEv} (j : Nat) (p : Progress) : AtOnce h cs → AtOnce (.next j :: h) (.progress j p :: cs)
  | finish {h : List StepEv} {cs : List SrvEv} (j : Nat) : AtOnce h cs → AtOnce (.next j :: h) (.finish j :: cs)
  | other {h : List StepEv} {cs : List SrvEv} (e : SrvEv) : AtOnce h cs → AtOnce (.other e :: h) (e :: cs)

/-- reports and ends of runs are no events of their own here -/
def StepEv.proper : StepEv → Prop
  | .other (.progress _ _) => False
  | .other (.finish _) => False
  | _ => True

end

/-! ### The two servers in step -/

/-- `C` does the work at once, `F` step by step -/
structure Sim (env : StepEnv) (base : List Str) (files0 : Files) (ps : List (Str × Str)) (F : StepSrv) (C : Srv) : Prop where
  ginv : GInv env.cache base C
  pinv : PInv env.toSrvEnv base files0 ps C
  dirs : F.srv.dirs = C.dirs
  lookup : F.srv.lookup = C.lookup
  jobs : F.srv.jobs = C.jobs
  files : ∀ f, (∀ (j : Nat) (job : Job), C.jobs[j]? = some job → job.st = .running ∨ job.st = .completed → f.dir ≠ job.dir) →
    F.srv.files f = C.files f
  fresh : ∀ j, (∀ job : Job, C.jobs[j]? = some job → job.st = .created) → F.gens j = .fresh
  running : ∀ (j : Nat) (job : Job), C.jobs[j]? = some job → job.st = .running → (F.gens j).inDir job.dir ∧
    (genRest env (srvOpts job.dir) job.spec F.srv.files (F.gens j)).2.2 = (runSpec env.tools (srvOpts job.dir) C.files job.spec).2 ∧
    SameDir job.dir (genRest env (srvOpts job.dir) job.spec F.srv.files (F.gens j)).2.1 job.dir
      (runSpec env.tools (srvOpts job.dir) C.files job.spec).1

section
variable {env : StepEnv} {base : List Str} {files0 : Files} {ps : List (Str × Str)} {F : StepSrv} {C : Srv}

/-- the result of a run on files which are the same in its directory -/
theorem runSpec_sameDir (t : Tools) (d name : Str) {w w' : Files} (h : SameDir d w d w') :
    (runSpec t (srvOpts d) w ⟨d, name⟩).2 = (runSpec t (srvOpts d) w' ⟨d, name⟩).2 ∧
    SameDir d (runSpec t (srvOpts d) w ⟨d, name⟩).1 d (runSpec t (srvOpts d) w' ⟨d, name⟩).1 := by
  obtain ⟨h1, h2⟩ := runSpec_same t (srvOpts d) (srvOpts d) ⟨rfl, rfl⟩ w w' name h
  refine ⟨?_, h1⟩
  rcases h2 with ⟨n, h2, h3⟩ | ⟨e, h2, h3⟩
  · exact h2.trans h3.symm
  · exact h2.trans h3.symm

/-- the document of an upload is in its directory -/
theorem Sim.spec (s : Sim env base files0 ps F C) {j : Nat} {job : Job} (hj : C.jobs[j]? = some job)
    (hst : job.st = .created ∨ job.st = .running) : ∃ name, job.spec = ⟨job.dir, name⟩ := by
  obtain ⟨name, content, -, h, -⟩ := s.pinv.jobs j job hj hst
  exact ⟨name, h⟩

/-- an upload which has not begun finds the same files on both servers -/
theorem Sim.created (s : Sim env base files0 ps F C) {j : Nat} {job : Job} (hj : C.jobs[j]? = some job)
    (hst : job.st ≠ .running ∧ job.st ≠ .completed ∧ job.st ≠ .over) : SameDir job.dir F.srv.files job.dir C.files := by
  intro n
  refine s.files _ ?_
  intro i a hi ha he
  have : j = i := s.ginv.jobs_distinct j i job a hj hi hst.2.2 (by rcases ha with h | h <;> rw [h] <;> simp) he
  subst this
  rw [hj] at hi
  injection hi with hi
  subst hi
  rcases ha with h | h
  · exact hst.1 h
  · exact hst.2.1 h

/-- an upload which is worked on will end on both servers in the same way -/
theorem Sim.going (s : Sim env base files0 ps F C) {j : Nat} {job : Job} (hj : C.jobs[j]? = some job)
    (hst : job.st = .created ∨ job.st = .running) : (F.gens j).inDir job.dir ∧
    (genRest env (srvOpts job.dir) job.spec F.srv.files (F.gens j)).2.2 = (runSpec env.tools (srvOpts job.dir) C.files job.spec).2 ∧
    SameDir job.dir (genRest env (srvOpts job.dir) job.spec F.srv.files (F.gens j)).2.1 job.dir
      (runSpec env.tools (srvOpts job.dir) C.files job.spec).1 := by
  rcases hst with h | h
  · have hg : F.gens j = .fresh := s.fresh j (by intro a ha; rw [hj] at ha; injection ha with ha; rw [← ha]; exact h)
    obtain ⟨name, hs⟩ := s.spec hj (.inl h)
    rw [hg, genRest_fresh, hs]
    obtain ⟨h1, h2⟩ := runSpec_sameDir env.tools job.dir name (s.created hj (by rw [h]; simp))
    exact ⟨trivial, h1, h2⟩
  · exact s.running j job hj h

/-- an upload gets another state, and files change at most in its directory and, in the same way, in the cache -/
theorem Sim.change (s : Sim env base files0 ps F C) {j : Nat} {job : Job} (hj : C.jobs[j]? = some job) (hl : job.st ≠ .over) (st : JobSt)
    {F' : StepSrv} {C' : Srv} (g' : GInv env.cache base C') (p' : PInv env.toSrvEnv base files0 ps C')
    (hd : F'.srv.dirs = C'.dirs) (hlook : F'.srv.lookup = C'.lookup) (hjF : F'.srv.jobs = F.srv.jobs.set j { job with st := st })
    (hjC : C'.jobs = C.jobs.set j { job with st := st })
    (hother : ∀ f : FPath, f.dir ≠ job.dir → (F'.srv.files f = F.srv.files f ∧ C'.files f = C.files f) ∨
      (f.dir = env.cache ∧ F'.srv.files f = C'.files f))
    (hown : st ≠ .running → st ≠ .completed → ∀ f : FPath, f.dir = job.dir → F'.srv.files f = C'.files f)
    (hgens : ∀ i, i ≠ j → F'.gens i = F.gens i) (hcr : st ≠ .created)
    (hrun : st = .running → (F'.gens j).inDir job.dir ∧
      (genRest env (srvOpts job.dir) job.spec F'.srv.files (F'.gens j)).2.2 = (runSpec env.tools (srvOpts job.dir) C'.files job.spec).2 ∧
      SameDir job.dir (genRest env (srvOpts job.dir) job.spec F'.srv.files (F'.gens j)).2.1 job.dir
        (runSpec env.tools (srvOpts job.dir) C'.files job.spec).1) : Sim env base files0 ps F' C' := by
  have hlt := job_lt hj
  have key : ∀ i, C'.jobs[i]? = if i = j then some { job with st := st } else C.jobs[i]? := by
    intro i
    rw [hjC, List.getElem?_set]
    by_cases hij : j = i
    · subst hij; simp [hlt]
    · rw [if_neg hij, if_neg (fun e => hij e.symm)]
  refine ⟨g', p', hd, hlook, by rw [hjF, hjC, s.jobs], ?_, ?_, ?_⟩
  · intro f hf
    by_cases hfd : f.dir = job.dir
    · refine hown ?_ ?_ f hfd
      · intro e; exact hf j { job with st := st } (by rw [key, if_pos rfl]) (.inl e) hfd
      · intro e; exact hf j { job with st := st } (by rw [key, if_pos rfl]) (.inr e) hfd
    · rcases hother f hfd with ⟨h1, h2⟩ | ⟨-, h⟩
      · rw [h1, h2]
        refine s.files f ?_
        intro i a ha hst
        by_cases hij : i = j
        · subst hij
          rw [hj] at ha; injection ha with ha; subst ha
          exact hfd
        · exact hf i a (by rw [key, if_neg hij]; exact ha) hst
      · exact h
  · intro i hi
    by_cases hij : i = j
    · subst hij
      exact absurd (hi { job with st := st } (by rw [key, if_pos rfl])) hcr
    · rw [hgens i hij]
      exact s.fresh i (fun a ha => hi a (by rw [key, if_neg hij]; exact ha))
  · intro i a ha hst
    by_cases hij : i = j
    · subst hij
      rw [key, if_pos rfl] at ha
      injection ha with ha
      subst ha
      exact hrun hst
    · rw [key, if_neg hij] at ha
      have hlive : a.st ≠ .over := by rw [hst]; simp
      have hne : a.dir ≠ job.dir := fun he => hij (s.ginv.jobs_distinct i j a job ha hj hlive hl he)
      have hbase := (s.ginv.jobs_dirs i a ha hlive).2
      have hsameF : SameDir a.dir F'.srv.files a.dir F.srv.files := by
        intro n
        rcases hother ⟨a.dir, n⟩ hne with ⟨h, -⟩ | ⟨h, -⟩
        · exact h
        · exact absurd (show a.dir = env.cache from h) (fun e => hbase (e ▸ s.ginv.cache_base))
      have hsameC : SameDir a.dir C'.files a.dir C.files := by
        intro n
        rcases hother ⟨a.dir, n⟩ hne with ⟨-, h⟩ | ⟨h, -⟩
        · exact h
        · exact absurd (show a.dir = env.cache from h) (fun e => hbase (e ▸ s.ginv.cache_base))
      obtain ⟨name, hs⟩ := s.spec ha (.inr hst)
      obtain ⟨k1, k2, k3⟩ := s.running i a ha hst
      rw [hgens i hij]
      obtain ⟨-, m2, m3⟩ := genRest_same env (srvOpts a.dir) a.spec (by rw [hs]; rfl) hsameF (F.gens i) k1
      obtain ⟨n1, n2⟩ := runSpec_sameDir env.tools a.dir name hsameC
      rw [← hs] at n1 n2
      refine ⟨k1, m2.trans (k2.trans n1.symm), fun n => ?_⟩
      exact (m3 n).trans ((k3 n).trans (n2 n).symm)

/-- files of the cache are the same -/
theorem Sim.cache (s : Sim env base files0 ps F C) (n : Str) : F.srv.files ⟨env.cache, n⟩ = C.files ⟨env.cache, n⟩ := by
  refine s.files _ ?_
  intro j job hj hst he
  exact (s.ginv.jobs_dirs j job hj (by rcases hst with h | h <;> rw [h] <;> simp)).2 (he ▸ s.ginv.cache_base)

/-- the end of a run, with the same result on both servers -/
theorem Sim.ends (s : Sim env base files0 ps F C) {j : Nat} {job : Job} (hj : C.jobs[j]? = some job) (hl : job.st ≠ .over) (w w' : Files)
    (hw : ∀ f : FPath, f.dir ≠ job.dir → w f = F.srv.files f) (hw' : ∀ f : FPath, f.dir ≠ job.dir → w' f = C.files f)
    (hs : SameDir job.dir w job.dir w') (r : Except Exn FPath) (hr : ∀ p, r = .ok p → p.dir = job.dir)
    (g' : GInv env.cache base (endJob env.toSrvEnv C j job w' r).1)
    (p' : PInv env.toSrvEnv base files0 ps (endJob env.toSrvEnv C j job w' r).1) :
    (endJob env.toSrvEnv F.srv j job w r).2 = (endJob env.toSrvEnv C j job w' r).2 ∧
    Sim env base files0 ps ⟨(endJob env.toSrvEnv F.srv j job w r).1, F.gens⟩ (endJob env.toSrvEnv C j job w' r).1 := by
  have hcd : env.cache ≠ job.dir := fun h => (s.ginv.jobs_dirs j job hj hl).2 (h ▸ s.ginv.cache_base)
  have hwc : ∀ n, w ⟨env.cache, n⟩ = w' ⟨env.cache, n⟩ := by
    intro n
    rw [hw _ hcd, hw' _ hcd]; exact s.cache n
  have hset : ∀ {a b : Files}, (∀ n, a ⟨env.cache, n⟩ = b ⟨env.cache, n⟩) → ∀ (n t : Str) m,
      a.set ⟨env.cache, n⟩ t ⟨env.cache, m⟩ = b.set ⟨env.cache, n⟩ t ⟨env.cache, m⟩ := by
    intro a b h n t m
    simp only [Files.set]
    rw [h m]
  have hfar : ∀ {a : Files} {b : Files} {n t : Str}, (∀ f : FPath, f.dir ≠ job.dir → f.dir ≠ env.cache → a f = b f) →
      ∀ f : FPath, f.dir ≠ job.dir → f.dir ≠ env.cache → a.set ⟨env.cache, n⟩ t f = b f := by
    intro a b n t h f h1 h2
    rw [Files.set_other _ _ (by rintro rfl; exact h2 rfl)]; exact h f h1 h2
  have hcl : ∀ {a b : Files} {dirs dirs' : List Str} {l l' : List (Str × FPath)} {js js' : List Job} (f : FPath), f.dir ≠ job.dir →
      ((⟨a, dirs, l, js⟩ : Srv).cleanup job.dir).files f = a f := fun f hf => if_neg hf
  have hcl0 : ∀ {a : Files} {dirs : List Str} {l : List (Str × FPath)} {js : List Job} (f : FPath), f.dir = job.dir →
      ((⟨a, dirs, l, js⟩ : Srv).cleanup job.dir).files f = none := fun f hf => if_pos hf
  cases r with
  | error e =>
    refine ⟨rfl, s.change hj hl .over g' p' ?_ s.lookup rfl rfl ?_ ?_ (fun _ _ => rfl) (by simp) (by simp)⟩
    · change F.srv.dirs.filter _ = C.dirs.filter _
      rw [s.dirs]
    · intro f hf
      refine .inl ⟨?_, ?_⟩
      · exact (if_neg hf).trans (hw f hf)
      · exact (if_neg hf).trans (hw' f hf)
    · intro _ _ f hf
      exact (if_pos hf).trans (if_pos hf).symm
  | ok json =>
    obtain ⟨d, n⟩ := json
    have hd : d = job.dir := hr _ rfl
    subst hd
    simp only [endJob] at g' p' ⊢
    rw [hs n]
    cases hn : w' ⟨job.dir, n⟩ with
    | none =>
      rw [hn] at g' p'
      refine ⟨rfl, s.change hj hl .over g' p' ?_ s.lookup rfl rfl ?_ ?_ (fun _ _ => rfl) (by simp) (by simp)⟩
      · change F.srv.dirs.filter _ = C.dirs.filter _
        rw [s.dirs]
      · intro f hf
        exact .inl ⟨(if_neg hf).trans (hw f hf), (if_neg hf).trans (hw' f hf)⟩
      · intro _ _ f hf
        exact (if_pos hf).trans (if_pos hf).symm
    | some jt =>
      rw [hn] at g' p'
      have hh : w.set ⟨env.cache, n⟩ jt ⟨job.dir, withSuffix n c!".html"⟩ = w'.set ⟨env.cache, n⟩ jt ⟨job.dir, withSuffix n c!".html"⟩ := by
        rw [Files.set_other _ _ (by intro h; injection h with h _; exact hcd h.symm),
          Files.set_other _ _ (by intro h; injection h with h _; exact hcd h.symm)]
        exact hs _
      simp only [] at g' p' ⊢
      rw [hh]
      cases hhn : w'.set ⟨env.cache, n⟩ jt ⟨job.dir, withSuffix n c!".html"⟩ with
      | none =>
        rw [hhn] at g' p'
        refine ⟨rfl, s.change hj hl .over g' p' ?_ s.lookup rfl rfl ?_ ?_ (fun _ _ => rfl) (by simp) (by simp)⟩
        · change F.srv.dirs.filter _ = C.dirs.filter _
          rw [s.dirs]
        · intro f hf
          by_cases hfc : f.dir = env.cache
          · refine .inr ⟨hfc, (if_neg hf).trans (Eq.trans ?_ (if_neg hf).symm)⟩
            obtain ⟨d, m⟩ := f
            have hfc : d = env.cache := hfc
            subst hfc
            exact hset hwc n jt m
          · exact .inl ⟨(if_neg hf).trans (hfar (fun f h _ => hw f h) f hf hfc), (if_neg hf).trans (hfar (fun f h _ => hw' f h) f hf hfc)⟩
        · intro _ _ f hf
          exact (if_pos hf).trans (if_pos hf).symm
      | some ht =>
        rw [hhn] at g' p'
        refine ⟨rfl, s.change hj hl .completed g' p' s.dirs ?_ rfl rfl ?_ (by simp) (fun _ _ => rfl) (by simp) (by simp)⟩
        · change lookupSet _ _ _ = lookupSet _ _ _
          rw [s.lookup]
        · intro f hf
          by_cases hfc : f.dir = env.cache
          · refine .inr ⟨hfc, ?_⟩
            obtain ⟨d, m⟩ := f
            have hfc : d = env.cache := hfc
            subst hfc
            exact hset (hset hwc n jt) _ ht m
          · exact .inl ⟨hfar (hfar (fun f h _ => hw f h)) f hf hfc, hfar (hfar (fun f h _ => hw' f h)) f hf hfc⟩

/-- the stream of an upload is read on -/
theorem Sim.next (s : Sim env base files0 ps F C) (j : Nat) : ∃ ce, (ce = .finish j ∨ ∃ p, ce = .progress j p) ∧
    (stepSrv env F (.next j)).2 = (srvStep env.toSrvEnv C ce).2 ∧
    Sim env base files0 ps (stepSrv env F (.next j)).1 (srvStep env.toSrvEnv C ce).1 := by
  simp only [stepSrv]
  rw [s.jobs]
  cases hj : C.jobs[j]? with
  | none => refine ⟨.finish j, .inl rfl, ?_⟩; simp only [srvStep, hj]; exact ⟨trivial, s⟩
  | some job =>
    simp only []
    by_cases hst : job.st = .created ∨ job.st = .running
    · rw [if_pos hst]
      have hl : job.st ≠ .over := by rcases hst with h | h <;> rw [h] <;> simp
      obtain ⟨k1, k2, k3⟩ := s.going hj hst
      have hres := genNext_rest env (srvOpts job.dir) job.spec F.srv.files (F.gens j) k1
      have hfr := fun f => genNext_frame env (srvOpts job.dir) job.spec F.srv.files (F.gens j) k1 f
      generalize genNext env (srvOpts job.dir) job.spec F.srv.files (F.gens j) = wy at hres hfr
      obtain ⟨w, y⟩ := wy
      cases y with
      | report p g =>
        obtain ⟨m1, m2, m3⟩ := hres
        rw [m3] at k2 k3
        have hC : srvStep env.toSrvEnv C (.progress j p) = (C.setJob j job .running, .event (jsonToSse (progressEvent p))) := by
          simp only [srvStep, hj]
          exact if_pos hst
        have g' := ginv_step env.toSrvEnv s.ginv (.progress j p)
        have p' := pinv_step s.ginv s.pinv (.progress j p) (by intro x hx; simp [posted] at hx)
        refine ⟨.progress j p, .inr ⟨p, rfl⟩, ?_⟩
        rw [hC] at g' p' ⊢
        refine ⟨rfl, s.change hj hl .running g' p' s.dirs s.lookup (by rw [s.jobs]; rfl) rfl ?_ (by simp) ?_ (by simp) ?_⟩
        · intro f hf
          exact .inl ⟨hfr f hf, rfl⟩
        · intro i hi
          exact if_neg hi
        · intro _
          change (setGen F.gens j g j).inDir job.dir ∧ (genRest env (srvOpts job.dir) job.spec w (setGen F.gens j g j)).2.2 = _ ∧
            SameDir job.dir (genRest env (srvOpts job.dir) job.spec w (setGen F.gens j g j)).2.1 job.dir _
          rw [show setGen F.gens j g j = g from if_pos rfl]
          exact ⟨m1, k2, k3⟩
      | done r =>
        have hres : genRest env (srvOpts job.dir) job.spec F.srv.files (F.gens j) = ([], w, r) := hres
        rw [hres] at k2 k3
        have hC : srvStep env.toSrvEnv C (.finish j) = finishJob env.toSrvEnv C j job := by
          simp only [srvStep, hj]
          exact if_pos hst
        have g' := ginv_step env.toSrvEnv s.ginv (.finish j)
        have p' := pinv_step s.ginv s.pinv (.finish j) (by intro x hx; simp [posted] at hx)
        have hfr' := fun f => runSpec_frame env.tools (srvOpts job.dir) C.files job.spec f
        have hok : ∀ p, (runSpec env.tools (srvOpts job.dir) C.files job.spec).2 = .ok p → p.dir = job.dir := by
          intro p hp
          rw [(runSpec_name (Prod.ext rfl hp)).1]; rfl
        refine ⟨.finish j, .inl rfl, ?_⟩
        rw [hC] at g' p' ⊢
        simp only [finishJob] at g' p' ⊢
        generalize runSpec env.tools (srvOpts job.dir) C.files job.spec = wr at k2 k3 g' p' hfr' hok
        obtain ⟨w', r'⟩ := wr
        have k2 : r = r' := k2
        subst k2
        exact s.ends hj hl w w' hfr hfr' k3 r hok g' p'
    · rw [if_neg hst]
      refine ⟨.finish j, .inl rfl, ?_⟩
      simp only [srvStep, hj]
      rw [if_neg hst]
      exact ⟨rfl, s⟩

omit [Uni] in
theorem posted_sent (e : SrvEv) : posted [e] = sentDocs [.other e] := by
  cases e with
  | post dir doc acc => cases doc <;> rfl
  | _ => rfl

theorem stepSrv_other (F : StepSrv) {e : SrvEv} (he : (StepEv.other e).proper) :
    stepSrv env F (.other e) = (⟨(srvStep env.toSrvEnv F.srv e).1, F.gens⟩, (srvStep env.toSrvEnv F.srv e).2) := by
  cases e <;> first | rfl | exact absurd he (by simp [StepEv.proper])

/-- an upload is accepted -/
theorem Sim.add (s : Sim env base files0 ps F C) {dir name : Str} (hdir : dir ∉ C.dirs) (content hash : Str) {F' : StepSrv} {C' : Srv}
    (g' : GInv env.cache base C') (p' : PInv env.toSrvEnv base files0 ps C')
    (hF : F' = ⟨⟨F.srv.files.set ⟨dir, name⟩ content, dir :: F.srv.dirs, F.srv.lookup, F.srv.jobs ++ [⟨dir, ⟨dir, name⟩, hash, .created⟩]⟩,
      F.gens⟩)
    (hC : C' = ⟨C.files.set ⟨dir, name⟩ content, dir :: C.dirs, C.lookup, C.jobs ++ [⟨dir, ⟨dir, name⟩, hash, .created⟩]⟩) :
    Sim env base files0 ps F' C' := by
  subst hF
  have hjobs : C'.jobs = C.jobs ++ [⟨dir, ⟨dir, name⟩, hash, .created⟩] := by rw [hC]
  have hfiles : C'.files = C.files.set ⟨dir, name⟩ content := by rw [hC]
  have key : ∀ {i : Nat} {a : Job}, C.jobs[i]? = some a → C'.jobs[i]? = some a := by
    intro i a h
    rw [hjobs, List.getElem?_append_left (job_lt h)]; exact h
  have back : ∀ {i : Nat} {a : Job}, C'.jobs[i]? = some a → a.st ≠ .created → C.jobs[i]? = some a := by
    intro i a h hst
    rw [hjobs] at h
    rcases Nat.lt_or_ge i C.jobs.length with hi | hi
    · rw [List.getElem?_append_left hi] at h; exact h
    · rw [List.getElem?_append_right hi, List.getElem?_singleton] at h
      split at h
      · injection h with h; subst h; exact absurd rfl hst
      · simp at h
  refine ⟨g', p', ?_, ?_, ?_, ?_, ?_, ?_⟩
  · rw [hC]; change dir :: F.srv.dirs = dir :: C.dirs; rw [s.dirs]
  · rw [hC]; exact s.lookup
  · rw [hjobs]; change F.srv.jobs ++ _ = _; rw [s.jobs]
  · intro f hf
    rw [hfiles]
    change F.srv.files.set _ _ _ = _
    by_cases hfd : f = ⟨dir, name⟩
    · rw [hfd, Files.set_same, Files.set_same]
    · rw [Files.set_other _ _ hfd, Files.set_other _ _ hfd]
      exact s.files f (fun j job hj hst => hf j job (key hj) hst)
  · intro i hi
    refine s.fresh i (fun a ha => hi a (key ha))
  · intro i a ha hst
    have ha := back ha (by rw [hst]; simp)
    have hd := (s.ginv.jobs_dirs i a ha (by rw [hst]; simp)).1
    have hne : dir ≠ a.dir := fun h => hdir (h ▸ hd)
    have hsF : SameDir a.dir (F.srv.files.set ⟨dir, name⟩ content) a.dir F.srv.files :=
      fun n => Files.set_other _ _ (by intro h; injection h with h _; exact hne h.symm)
    have hsC : SameDir a.dir C'.files a.dir C.files := by
      rw [hfiles]
      exact fun n => Files.set_other _ _ (by intro h; injection h with h _; exact hne h.symm)
    obtain ⟨nm, hs⟩ := s.spec ha (.inr hst)
    obtain ⟨k1, k2, k3⟩ := s.running i a ha hst
    obtain ⟨-, m2, m3⟩ := genRest_same env (srvOpts a.dir) a.spec (by rw [hs]; rfl) hsF (F.gens i) k1
    obtain ⟨n1, n2⟩ := runSpec_sameDir env.tools a.dir nm hsC
    rw [← hs] at n1 n2
    exact ⟨k1, m2.trans (k2.trans n1.symm), fun n => (m3 n).trans ((k3 n).trans (n2 n).symm)⟩

/-- anything else -/
theorem Sim.other (s : Sim env base files0 ps F C) (e : SrvEv) (he : (StepEv.other e).proper)
    (hp : ∀ x ∈ posted [e], x ∈ ps ∧ PlainName x.1) :
    (stepSrv env F (.other e)).2 = (srvStep env.toSrvEnv C e).2 ∧
    Sim env base files0 ps (stepSrv env F (.other e)).1 (srvStep env.toSrvEnv C e).1 := by
  rw [stepSrv_other F he]
  have g' := ginv_step env.toSrvEnv s.ginv e
  have p' := pinv_step s.ginv s.pinv e hp
  have hstop : ∀ {j : Nat} {job : Job}, C.jobs[j]? = some job → job.st ≠ .over → GInv env.cache base ((C.cleanup job.dir).setJob j job .over) →
      PInv env.toSrvEnv base files0 ps ((C.cleanup job.dir).setJob j job .over) →
      Sim env base files0 ps ⟨(F.srv.cleanup job.dir).setJob j job .over, F.gens⟩ ((C.cleanup job.dir).setJob j job .over) := by
    intro j job hj hl g' p'
    refine s.change hj hl .over g' p' ?_ s.lookup rfl rfl ?_ ?_ (fun _ _ => rfl) (by simp) (by simp)
    · change F.srv.dirs.filter _ = C.dirs.filter _
      rw [s.dirs]
    · intro f hf
      exact .inl ⟨if_neg hf, if_neg hf⟩
    · intro _ _ f hf
      exact (if_pos hf).trans (if_pos hf).symm
  cases e with
  | progress j p => exact absurd he (by simp [StepEv.proper])
  | finish j => exact absurd he (by simp [StepEv.proper])
  | post dir doc accept =>
    simp only [srvStep] at g' p' ⊢
    unfold postSpec at g' p' ⊢
    cases doc with
    | none => exact ⟨rfl, s⟩
    | some doc =>
      obtain ⟨name, content⟩ := doc
      simp only [] at g' p' ⊢
      rw [s.dirs]
      by_cases hacc : accept = false
      · rw [if_pos hacc, if_pos hacc]; exact ⟨rfl, s⟩
      · rw [if_neg hacc, if_neg hacc]
        rw [if_neg hacc] at g' p'
        by_cases hdir : dir ∈ C.dirs ∨ dir ≠ absPath (resolveParts [] (pathParts dir))
        · rw [if_pos hdir, if_pos hdir]; exact ⟨rfl, s⟩
        · rw [if_neg hdir, if_neg hdir]
          rw [if_neg hdir] at g' p'
          rw [not_or, not_not] at hdir
          have hx := hp (name, content) (by simp [posted])
          rw [destination_plain hdir.2 hx.2] at g' p' ⊢
          simp only [] at g' p' ⊢
          split
          · next hq =>
            rw [if_pos hq] at g' p'
            rw [s.jobs]
            refine ⟨rfl, s.add hdir.1 content (md5sum env.hasher content chunkBytes) g' p' ?_ rfl⟩
            rw [s.jobs, s.dirs]
          · exact ⟨rfl, s⟩
  | resume j =>
    simp only [srvStep] at g' p' ⊢
    rw [s.jobs]
    cases hj : C.jobs[j]? with
    | none => exact ⟨rfl, s⟩
    | some job =>
      rw [hj] at g' p'
      simp only [] at g' p' ⊢
      by_cases h : job.st = .completed
      · rw [if_pos h] at g' p' ⊢
        rw [if_pos h]
        exact ⟨rfl, hstop hj (by rw [h]; simp) g' p'⟩
      · rw [if_neg h, if_neg h]; exact ⟨rfl, s⟩
  | close j =>
    simp only [srvStep] at g' p' ⊢
    rw [s.jobs]
    cases hj : C.jobs[j]? with
    | none => exact ⟨rfl, s⟩
    | some job =>
      rw [hj] at g' p'
      simp only [] at g' p' ⊢
      by_cases h : job.st = .created
      · rw [if_pos h] at g' p' ⊢
        rw [if_pos h]
        refine ⟨rfl, s.change hj (by rw [h]; simp) .dropped g' p' s.dirs s.lookup rfl rfl (fun f _ => .inl ⟨rfl, rfl⟩) ?_ (fun _ _ => rfl)
          (by simp) (by simp)⟩
        intro _ _ f hf
        obtain ⟨d, n⟩ := f
        have hf : d = job.dir := hf
        subst hf
        exact s.created hj (by rw [h]; simp) n
      · rw [if_neg h] at g' p' ⊢
        rw [if_neg h]
        by_cases h : job.st = .running ∨ job.st = .completed
        · rw [if_pos h] at g' p' ⊢
          rw [if_pos h]
          exact ⟨rfl, hstop hj (by rcases h with h | h <;> rw [h] <;> simp) g' p'⟩
        · rw [if_neg h, if_neg h]; exact ⟨rfl, s⟩
  | collect j =>
    simp only [srvStep] at g' p' ⊢
    rw [s.jobs]
    cases hj : C.jobs[j]? with
    | none => exact ⟨rfl, s⟩
    | some job =>
      rw [hj] at g' p'
      simp only [] at g' p' ⊢
      by_cases h : job.st = .dropped
      · rw [if_pos h] at g' p' ⊢
        rw [if_pos h]
        exact ⟨rfl, hstop hj (by rw [h]; simp) g' p'⟩
      · rw [if_neg h, if_neg h]; exact ⟨rfl, s⟩
  | getJson hash =>
    simp only [srvStep] at g' p' ⊢
    rw [s.lookup]
    cases hq : lookupGet C.lookup hash with
    | none => exact ⟨rfl, s⟩
    | some q =>
      have hq' : F.srv.files q = C.files q := by
        have := s.cache q.name
        rw [show (⟨env.cache, q.name⟩ : FPath) = q from by rw [← (s.ginv.cached _ (lookupGet_some hq)).1]] at this
        exact this
      simp only []
      rw [hq']
      cases C.files q <;> exact ⟨rfl, s⟩
  | getHtml hash =>
    simp only [srvStep] at g' p' ⊢
    rw [s.lookup]
    cases hq : lookupGet C.lookup hash with
    | none => exact ⟨rfl, s⟩
    | some q =>
      have hq' : F.srv.files ⟨q.dir, withSuffix q.name c!".html"⟩ = C.files ⟨q.dir, withSuffix q.name c!".html"⟩ := by
        rw [show q.dir = env.cache from (s.ginv.cached _ (lookupGet_some hq)).1]; exact s.cache _
      simp only []
      rw [hq']
      cases C.files ⟨q.dir, withSuffix q.name c!".html"⟩ <;> exact ⟨rfl, s⟩
  | getReport hash =>
    simp only [srvStep] at g' p' ⊢
    rw [s.lookup]
    cases hq : lookupGet C.lookup hash with
    | none => exact ⟨rfl, s⟩
    | some q =>
      have hq' : F.srv.files q = C.files q := by
        have := s.cache q.name
        rw [show (⟨env.cache, q.name⟩ : FPath) = q from by rw [← (s.ginv.cached _ (lookupGet_some hq)).1]] at this
        exact this
      simp only []
      rw [hq']
      cases C.files q <;> exact ⟨rfl, s⟩

omit [Uni] in
theorem sentDocs_cons (e : StepEv) (h : List StepEv) : sentDocs (e :: h) = sentDocs [e] ++ sentDocs h := by
  rw [sentDocs, sentDocs, sentDocs, ← List.filterMap_append]; rfl

/-- both servers through a history -/
theorem Sim.history (h : List StepEv) (hp : ∀ x ∈ sentDocs h, x ∈ ps ∧ PlainName x.1) (hh : ∀ e ∈ h, e.proper) :
    ∀ {F : StepSrv} {C : Srv}, Sim env base files0 ps F C → ∃ cs, AtOnce h cs ∧
      (stepTrace env F h).map (·.2) = (srvTrace env.toSrvEnv C cs).map (·.2) ∧
      Sim env base files0 ps (stepRun env F h) (srvRun env.toSrvEnv C cs) := by
  induction h with
  | nil => intro F C s; exact ⟨[], .nil, rfl, s⟩
  | cons e es ih =>
    intro F C s
    rw [sentDocs_cons] at hp
    have hp1 : ∀ x ∈ sentDocs [e], x ∈ ps ∧ PlainName x.1 := fun x hx => hp x (List.mem_append_left _ hx)
    have ih := fun {F C} => ih (fun x hx => hp x (List.mem_append_right _ hx)) (fun e he => hh e (List.mem_cons_of_mem _ he)) (F := F) (C := C)
    cases e with
    | next j =>
      obtain ⟨ce, hce, hr, s'⟩ := s.next j
      obtain ⟨cs, ha, ht, s''⟩ := ih s'
      refine ⟨ce :: cs, ?_, ?_, s''⟩
      · rcases hce with rfl | ⟨p, rfl⟩
        · exact .finish j ha
        · exact .report j p ha
      · simp only [stepTrace, srvTrace, List.map_cons]
        rw [hr, ht]
    | other e =>
      obtain ⟨hr, s'⟩ := s.other e (hh _ List.mem_cons_self) (by rw [posted_sent]; exact hp1)
      obtain ⟨cs, ha, ht, s''⟩ := ih s'
      refine ⟨e :: cs, .other e ha, ?_, s''⟩
      simp only [stepTrace, srvTrace, List.map_cons]
      rw [hr, ht]

end

theorem sim_start (env : StepEnv) (files : Files) (dirs : List Str) (hf : ∀ f, files f ≠ none → f.dir ∈ dirs) (ps : List (Str × Str)) :
    Sim env (env.cache :: dirs) files ps (stepStart env files dirs) (srvStart env.toSrvEnv files dirs) :=
  ⟨ginv_start _ _ _ hf, pinv_start _ _ _ _, rfl, rfl, rfl, fun _ _ => rfl, fun _ _ => rfl, by simp [srvStart]⟩

/-! ### One event stream -/

section
variable {env : StepEnv} {base : List Str} {files0 : Files} {ps : List (Str × Str)} {F : StepSrv} {C : Srv}

/-- the end of a run changes the state of its upload, and files in its directory and in the cache -/
theorem endJob_frame (env : SrvEnv) (s : Srv) (j : Nat) (job : Job) (w : Files) (r : Except Exn FPath) :
    (∃ st, st ≠ .created ∧ st ≠ .running ∧ (endJob env s j job w r).1.jobs = s.jobs.set j { job with st := st }) ∧
    ∀ f : FPath, f.dir ≠ job.dir → f.dir ≠ env.cache → (endJob env s j job w r).1.files f = w f := by
  have hset : ∀ {w : Files} {n t : Str} {f : FPath}, f.dir ≠ env.cache → w.set ⟨env.cache, n⟩ t f = w f :=
    fun h => Files.set_other _ _ (by rintro rfl; exact h rfl)
  unfold endJob
  split
  · exact ⟨⟨.over, by simp, by simp, rfl⟩, fun f h _ => if_neg h⟩
  · split
    · exact ⟨⟨.over, by simp, by simp, rfl⟩, fun f h _ => if_neg h⟩
    · dsimp only
      split
      · exact ⟨⟨.over, by simp, by simp, rfl⟩, fun f h hc => (if_neg h).trans (hset hc)⟩
      · exact ⟨⟨.completed, by simp, by simp, rfl⟩, fun f h hc => (hset hc).trans (hset hc)⟩

/-- what is answered at the end of a run -/
theorem endJob_resp (env : SrvEnv) (s s' : Srv) (j j' : Nat) (job job' : Job) (hd : job'.dir = job.dir) (hh : job'.hash = job.hash)
    (hc : env.cache ≠ job.dir) {w w' : Files} (hs : SameDir job.dir w job.dir w') (r : Except Exn FPath) (hr : ∀ p, r = .ok p → p.dir = job.dir) :
    (endJob env s j job w r).2 = (endJob env s' j' job' w' r).2 ∧ (endJob env s j job w r).2 ≠ .nothing := by
  cases r with
  | error e => exact ⟨rfl, by simp [endJob]⟩
  | ok p =>
    obtain ⟨d, n⟩ := p
    have hp : d = job.dir := hr _ rfl
    subst hp
    simp only [endJob]
    rw [hs n]
    cases w' ⟨job.dir, n⟩ with
    | none => exact ⟨rfl, by simp⟩
    | some jt =>
      have h2 : ∀ (a : Files) m, a.set ⟨env.cache, n⟩ jt ⟨job.dir, m⟩ = a ⟨job.dir, m⟩ :=
        fun a m => Files.set_other _ _ (by intro h; injection h with h _; exact hc h.symm)
      simp only [h2]
      rw [hs]
      cases w' ⟨job.dir, withSuffix n c!".html"⟩ with
      | none => exact ⟨rfl, by simp⟩
      | some ht => simp only []; rw [hh]; exact ⟨rfl, by simp⟩

/-- the stream of an upload which is not worked on -/
def Still (F : StepSrv) (j : Nat) : Prop := ∃ job : Job, F.srv.jobs[j]? = some job ∧ ¬ (job.st = .created ∨ job.st = .running)

omit [Uni] in
theorem still_set {jobs : List Job} {i j : Nat} {a job : Job} (hj : jobs[j]? = some job) (hn : ¬ (job.st = .created ∨ job.st = .running))
    (st : JobSt) (hst : i = j → ¬ (st = .created ∨ st = .running)) :
    ∃ job : Job, (jobs.set i { a with st := st })[j]? = some job ∧ ¬ (job.st = .created ∨ job.st = .running) := by
  rw [List.getElem?_set]
  have hlt := (List.getElem?_eq_some_iff.1 hj).1
  by_cases hij : i = j
  · rw [if_pos hij, if_pos (by rw [hij]; exact hlt)]; exact ⟨_, rfl, hst hij⟩
  · rw [if_neg hij]; exact ⟨job, hj, hn⟩

/-- it stays so, and nothing comes of it -/
theorem still_step {j : Nat} (hs : Still F j) (e : StepEv) (he : e.proper) :
    Still (stepSrv env F e).1 j ∧ (e = .next j → (stepSrv env F e).2 = .nothing) := by
  obtain ⟨job, hj, hn⟩ := hs
  cases e with
  | next i =>
    simp only [stepSrv]
    cases hi : F.srv.jobs[i]? with
    | none => exact ⟨⟨job, hj, hn⟩, fun _ => rfl⟩
    | some a =>
      simp only []
      by_cases hst : a.st = .created ∨ a.st = .running
      · have hij : i ≠ j := by
          rintro rfl
          rw [hj] at hi; injection hi with hi; subst hi; exact hn hst
        refine ⟨?_, fun h => by injection h with h; exact absurd h hij⟩
        rw [if_pos hst]
        generalize genNext env (srvOpts a.dir) a.spec F.srv.files (F.gens i) = wy
        obtain ⟨w, y⟩ := wy
        cases y with
        | report p g => exact still_set hj hn .running (fun h => absurd h hij)
        | done r =>
          obtain ⟨⟨st, -, -, h⟩, -⟩ := endJob_frame env.toSrvEnv F.srv i a w r
          simp only [Still]
          rw [h]
          exact still_set hj hn st (fun h => absurd h hij)
      · rw [if_neg hst]; exact ⟨⟨job, hj, hn⟩, fun _ => rfl⟩
  | other e =>
    refine ⟨?_, by simp⟩
    rw [stepSrv_other F he]
    have hsame : ∀ {s : Srv}, s.jobs = F.srv.jobs → Still ⟨s, F.gens⟩ j := by
      intro s h
      exact ⟨job, by rw [← hj]; exact congrArg (·[j]?) h, hn⟩
    cases e with
    | progress j p => exact absurd he (by simp [StepEv.proper])
    | finish j => exact absurd he (by simp [StepEv.proper])
    | post dir doc accept =>
      rw [srvStep]
      unfold postSpec
      split
      · exact hsame rfl
      · split
        · exact hsame rfl
        · split
          · exact hsame rfl
          · split
            · exact hsame rfl
            · split
              · refine ⟨job, ?_, hn⟩
                change (F.srv.jobs ++ _)[j]? = _
                rw [List.getElem?_append_left (job_lt hj)]; exact hj
              · exact hsame rfl
    | resume i =>
      rw [srvStep]
      split
      · exact hsame rfl
      · split
        · exact still_set hj hn .over (by simp)
        · exact hsame rfl
    | close i =>
      rw [srvStep]
      split
      · exact hsame rfl
      · split
        · exact still_set hj hn .dropped (by simp)
        · split
          · exact still_set hj hn .over (by simp)
          · exact hsame rfl
    | collect i =>
      rw [srvStep]
      split
      · exact hsame rfl
      · split
        · exact still_set hj hn .over (by simp)
        · exact hsame rfl
    | getJson hash => rw [srvStep]; repeat' split
                      all_goals exact hsame rfl
    | getHtml hash => rw [srvStep]; repeat' split
                      all_goals exact hsame rfl
    | getReport hash => rw [srvStep]; repeat' split
                        all_goals exact hsame rfl

/-- what happens to others does not touch an upload which is worked on -/
theorem Sim.frame (s : Sim env base files0 ps F C) {j : Nat} {job : Job} (hj : F.srv.jobs[j]? = some job)
    (hst : job.st = .created ∨ job.st = .running) (e : StepEv) (he : e.proper) (hn : e ≠ .next j) (hc : e ≠ .other (.close j))
    (plain : ∀ x ∈ sentDocs [e], PlainName x.1) :
    (stepSrv env F e).1.srv.jobs[j]? = some job ∧ (stepSrv env F e).1.gens j = F.gens j ∧
    SameDir job.dir (stepSrv env F e).1.srv.files job.dir F.srv.files := by
  have hl : ∀ {a : Job}, a.st = .created ∨ a.st = .running → a.st ≠ .over := by intro a h; rcases h with h | h <;> rw [h] <;> simp
  have hjC : C.jobs[j]? = some job := by rw [← s.jobs]; exact hj
  have hbase := s.ginv.jobs_dirs j job hjC (hl hst)
  have hcd : job.dir ≠ env.cache := fun h => hbase.2 (h ▸ s.ginv.cache_base)
  have far : ∀ {i : Nat} {a : Job}, F.srv.jobs[i]? = some a → a.st ≠ .over → i ≠ j → job.dir ≠ a.dir := by
    intro i a hi ha hij hd
    exact hij (s.ginv.jobs_distinct j i job a hjC (by rw [← s.jobs]; exact hi) (hl hst) ha hd).symm
  have hset : ∀ {i : Nat} {a : Job}, i ≠ j → (F.srv.jobs.set i a)[j]? = some job := by
    intro i a hij
    rw [List.getElem?_set, if_neg hij]; exact hj
  have hself : ∀ {i : Nat} {a : Job}, F.srv.jobs[i]? = some a → ¬ (a.st = .created ∨ a.st = .running) → i ≠ j := by
    rintro i a hi ha rfl
    rw [hj] at hi; injection hi with hi; subst hi; exact ha hst
  cases e with
  | next i =>
    have hij : i ≠ j := fun h => hn (by rw [h])
    simp only [stepSrv]
    cases hi : F.srv.jobs[i]? with
    | none => exact ⟨hj, rfl, fun _ => rfl⟩
    | some a =>
      simp only []
      by_cases ha : a.st = .created ∨ a.st = .running
      · rw [if_pos ha]
        have hd := far hi (hl ha) hij
        have hfr := fun f => genNext_frame env (srvOpts a.dir) a.spec F.srv.files (F.gens i) (s.going (by rw [← s.jobs]; exact hi) ha).1 f
        generalize genNext env (srvOpts a.dir) a.spec F.srv.files (F.gens i) = wy at hfr
        obtain ⟨w, y⟩ := wy
        cases y with
        | report p g => exact ⟨hset hij, if_neg (fun h => hij h.symm), fun n => hfr _ hd⟩
        | done r =>
          obtain ⟨⟨st, -, -, h⟩, h2⟩ := endJob_frame env.toSrvEnv F.srv i a w r
          refine ⟨?_, rfl, fun n => (h2 _ hd hcd).trans (hfr _ hd)⟩
          simp only []
          rw [h]; exact hset hij
      · rw [if_neg ha]; exact ⟨hj, rfl, fun _ => rfl⟩
  | other e =>
    rw [stepSrv_other F he]
    have hstop : ∀ {i : Nat} {a : Job}, F.srv.jobs[i]? = some a → a.st ≠ .over → i ≠ j →
        ((F.srv.cleanup a.dir).setJob i a .over).jobs[j]? = some job ∧ F.gens j = F.gens j ∧
        SameDir job.dir ((F.srv.cleanup a.dir).setJob i a .over).files job.dir F.srv.files :=
      fun hi ha hij => ⟨hset hij, rfl, fun n => if_neg (far hi ha hij)⟩
    have hsame : F.srv.jobs[j]? = some job ∧ F.gens j = F.gens j ∧ SameDir job.dir F.srv.files job.dir F.srv.files := ⟨hj, rfl, fun _ => rfl⟩
    cases e with
    | progress j p => exact absurd he (by simp [StepEv.proper])
    | finish j => exact absurd he (by simp [StepEv.proper])
    | post dir doc accept =>
      rw [srvStep]
      unfold postSpec
      split
      · exact hsame
      · next name content =>
        split
        · exact hsame
        · split
          · exact hsame
          · next hdir =>
            rw [not_or, not_not] at hdir
            rw [destination_plain hdir.2 (plain (name, content) (by simp [sentDocs]))]
            simp only []
            split
            · refine ⟨?_, trivial, fun n => Files.set_other _ _ ?_⟩
              · change (F.srv.jobs ++ _)[j]? = _
                rw [List.getElem?_append_left (job_lt hj)]; exact hj
              · intro h
                injection h with h _
                exact hdir.1 (by rw [s.dirs, ← h]; exact hbase.1)
            · exact ⟨hj, trivial, fun _ => rfl⟩
    | resume i =>
      rw [srvStep]
      split
      · exact hsame
      · next a hi =>
        split
        · next h => exact hstop hi (by rw [h]; simp) (hself hi (by rw [h]; simp))
        · exact hsame
    | close i =>
      have hij : i ≠ j := fun h => hc (by rw [h])
      rw [srvStep]
      split
      · exact hsame
      · next a hi =>
        split
        · exact ⟨hset hij, rfl, fun _ => rfl⟩
        · split
          · next h => exact hstop hi (by rcases h with h | h <;> rw [h] <;> simp) hij
          · exact hsame
    | collect i =>
      rw [srvStep]
      split
      · exact hsame
      · next a hi =>
        split
        · next h => exact hstop hi (by rw [h]; simp) (hself hi (by rw [h]; simp))
        · exact hsame
    | getJson hash => rw [srvStep]; repeat' split
                      all_goals exact hsame
    | getHtml hash => rw [srvStep]; repeat' split
                      all_goals exact hsame
    | getReport hash => rw [srvStep]; repeat' split
                        all_goals exact hsame

/-- what is still to come of the stream of an upload which is worked on -/
def streamLeft (env : StepEnv) (F : StepSrv) (j : Nat) (job : Job) : List SrvResp :=
  (genRest env (srvOpts job.dir) job.spec F.srv.files (F.gens j)).1.map (fun p => .event (jsonToSse (progressEvent p))) ++
    [(endJob env.toSrvEnv F.srv j job (genRest env (srvOpts job.dir) job.spec F.srv.files (F.gens j)).2.1
      (genRest env (srvOpts job.dir) job.spec F.srv.files (F.gens j)).2.2).2]

omit [Uni] in
theorem seenOf_cons (j : Nat) (x : StepEv × SrvResp) (tr : List (StepEv × SrvResp)) : seenOf j (x :: tr) = seenOf j [x] ++ seenOf j tr := by
  rw [seenOf, seenOf, seenOf, ← List.filterMap_append]; rfl

omit [Uni] in
theorem readsOf_other {j : Nat} {e : StepEv} (hn : e ≠ .next j) (hc : e ≠ .other (.close j)) (es : List StepEv) :
    readsOf j (e :: es) = readsOf j es := by
  cases e with
  | next i => rw [readsOf, if_neg (fun h => hn (by rw [h])), Nat.zero_add]
  | other e =>
    cases e with
    | close i => rw [readsOf, if_neg (fun h => hc (by rw [h]))]
    | _ => rfl

omit [Uni] in
theorem seenOf_other {j : Nat} {e : StepEv} (hn : e ≠ .next j) (r : SrvResp) : seenOf j [(e, r)] = [] := by
  cases e with
  | next i => simp only [seenOf, List.filterMap_cons, List.filterMap_nil]; rw [if_neg (fun h => hn (by rw [h.1]))]
  | other e => rfl

/-- nothing is seen of a stream which is over -/
theorem still_seen {j : Nat} (h : List StepEv) (hh : ∀ e ∈ h, e.proper) : ∀ {F : StepSrv}, Still F j → seenOf j (stepTrace env F h) = [] := by
  induction h with
  | nil => intro F _; rfl
  | cons e es ih =>
    intro F hs
    obtain ⟨h1, h2⟩ := still_step (env := env) hs e (hh e List.mem_cons_self)
    rw [stepTrace, seenOf_cons, ih (fun e he => hh e (List.mem_cons_of_mem _ he)) h1, List.append_nil]
    by_cases hn : e = .next j
    · rw [h2 hn, hn]
      simp [seenOf]
    · exact seenOf_other hn _

/-- what is seen of a stream is what is still to come of it, as far as it is read -/
theorem Sim.stream (h : List StepEv) (hp : ∀ x ∈ sentDocs h, x ∈ ps ∧ PlainName x.1) (hh : ∀ e ∈ h, e.proper) (j : Nat) :
    ∀ {F : StepSrv} {C : Srv} {job : Job}, Sim env base files0 ps F C → F.srv.jobs[j]? = some job → job.st = .created ∨ job.st = .running →
      seenOf j (stepTrace env F h) = (streamLeft env F j job).take (readsOf j h) := by
  induction h with
  | nil => intro F C job _ _ _; rfl
  | cons e es ih =>
    intro F C job s hj hst
    rw [sentDocs_cons] at hp
    have hp1 : ∀ x ∈ sentDocs [e], x ∈ ps ∧ PlainName x.1 := fun x hx => hp x (List.mem_append_left _ hx)
    have hh' : ∀ e ∈ es, e.proper := fun e he => hh e (List.mem_cons_of_mem _ he)
    have ih := fun {F C job} => ih (fun x hx => hp x (List.mem_append_right _ hx)) hh' (F := F) (C := C) (job := job)
    have hjC : C.jobs[j]? = some job := by rw [← s.jobs]; exact hj
    have hl : job.st ≠ .over := by rcases hst with h | h <;> rw [h] <;> simp
    have hcd : env.cache ≠ job.dir := fun h => (s.ginv.jobs_dirs j job hjC hl).2 (h ▸ s.ginv.cache_base)
    obtain ⟨k1, k2, k3⟩ := s.going hjC hst
    obtain ⟨nm, hspec⟩ := s.spec hjC hst
    have hok : ∀ p, (genRest env (srvOpts job.dir) job.spec F.srv.files (F.gens j)).2.2 = .ok p → p.dir = job.dir := by
      intro p hp
      rw [k2] at hp
      rw [(runSpec_name (Prod.ext rfl hp)).1]; rfl
    rw [stepTrace, seenOf_cons]
    by_cases hn : e = .next j
    · subst hn
      obtain ⟨ce, -, -, s'⟩ := s.next j
      have hres := genNext_rest env (srvOpts job.dir) job.spec F.srv.files (F.gens j) k1
      have hstep : stepSrv env F (.next j) = match genNext env (srvOpts job.dir) job.spec F.srv.files (F.gens j) with
        | (w, .report p g) =>
          (⟨({ F.srv with files := w } : Srv).setJob j job .running, setGen F.gens j g⟩, .event (jsonToSse (progressEvent p)))
        | (w, .done r) => (⟨(endJob env.toSrvEnv F.srv j job w r).1, F.gens⟩, (endJob env.toSrvEnv F.srv j job w r).2) := by
        simp only [stepSrv, hj]
        rw [if_pos hst]
        rcases genNext env (srvOpts job.dir) job.spec F.srv.files (F.gens j) with ⟨w, _ | _⟩ <;> rfl
      generalize genNext env (srvOpts job.dir) job.spec F.srv.files (F.gens j) = wy at hres hstep
      obtain ⟨w, y⟩ := wy
      rw [show readsOf j (.next j :: es) = readsOf j es + 1 by rw [readsOf, if_pos rfl, Nat.add_comm]]
      cases y with
      | report p g =>
        obtain ⟨m1, m2, m3⟩ := hres
        have hstep : stepSrv env F (.next j) =
          (⟨({ F.srv with files := w } : Srv).setJob j job .running, setGen F.gens j g⟩, .event (jsonToSse (progressEvent p))) := hstep
        have hj' : (stepSrv env F (.next j)).1.srv.jobs[j]? = some { job with st := .running } := by
          rw [hstep]
          change (F.srv.jobs.set j _)[j]? = _
          rw [List.getElem?_set, if_pos rfl, if_pos (job_lt hj)]
        rw [ih s' hj' (.inr rfl), hstep]
        have hgj : setGen F.gens j g j = g := if_pos rfl
        have hleft : streamLeft env F j job = .event (jsonToSse (progressEvent p)) ::
            streamLeft env ⟨({ F.srv with files := w } : Srv).setJob j job .running, setGen F.gens j g⟩ j { job with st := .running } := by
          rw [m3] at hok
          simp only [streamLeft]
          rw [m3, hgj]
          simp only [List.map_cons, List.cons_append]
          congr 3
          exact (endJob_resp env.toSrvEnv _ _ _ _ _ _ rfl rfl hcd (fun _ => rfl) _ hok).1
        rw [hleft, List.take_succ_cons]
        simp [seenOf]
      | done r =>
        have hres : genRest env (srvOpts job.dir) job.spec F.srv.files (F.gens j) = ([], w, r) := hres
        have hstep : stepSrv env F (.next j) =
          (⟨(endJob env.toSrvEnv F.srv j job w r).1, F.gens⟩, (endJob env.toSrvEnv F.srv j job w r).2) := hstep
        rw [hres] at hok
        have hstill : Still (stepSrv env F (.next j)).1 j := by
          rw [hstep]
          obtain ⟨⟨st, h1, h2, h⟩, -⟩ := endJob_frame env.toSrvEnv F.srv j job w r
          refine ⟨{ job with st := st }, ?_, by simp [h1, h2]⟩
          simp only []
          rw [h, List.getElem?_set, if_pos rfl, if_pos (job_lt hj)]
        rw [still_seen es hh' hstill, hstep, List.append_nil]
        simp only [streamLeft]
        rw [hres]
        simp only [List.map_nil, List.nil_append]
        rw [List.take_succ_cons, List.take_nil]
        have := (endJob_resp env.toSrvEnv F.srv F.srv j j job job rfl rfl hcd (fun _ => rfl) r hok (w := w)).2
        simp [seenOf, this]
    · rw [seenOf_other hn, List.nil_append]
      by_cases hc : e = .other (.close j)
      · subst hc
        rw [show readsOf j (.other (.close j) :: es) = 0 from if_pos rfl, List.take_zero]
        refine still_seen es hh' ?_
        have hlt := job_lt hj
        rw [stepSrv_other F (e := .close j) trivial]
        simp only [srvStep, hj]
        by_cases h : job.st = .created
        · rw [if_pos h]
          refine ⟨{ job with st := .dropped }, ?_, by simp⟩
          change (F.srv.jobs.set j _)[j]? = _
          rw [List.getElem?_set, if_pos rfl, if_pos hlt]
        · rw [if_neg h]
          have h : job.st = .running ∨ job.st = .completed := .inl (by rcases hst with h' | h'; exact absurd h' h; exact h')
          rw [if_pos h]
          refine ⟨{ job with st := .over }, ?_, by simp⟩
          change (F.srv.jobs.set j _)[j]? = _
          rw [List.getElem?_set, if_pos rfl, if_pos hlt]
      · rw [readsOf_other hn hc]
        obtain ⟨f1, f2, f3⟩ := s.frame hj hst e (hh e List.mem_cons_self) hn hc (fun x hx => (hp1 x hx).2)
        obtain ⟨cs, -, -, s'⟩ := Sim.history [e] hp1 (by simpa using hh e List.mem_cons_self) s
        have s' : Sim env base files0 ps (stepSrv env F e).1 _ := s'
        rw [ih s' f1 hst]
        congr 1
        simp only [streamLeft]
        rw [f2]
        obtain ⟨m1, m2, m3⟩ := genRest_same env (srvOpts job.dir) job.spec (by rw [hspec]; rfl) f3 (F.gens j) k1
        rw [m1, m2]
        congr 2
        exact (endJob_resp env.toSrvEnv _ _ _ _ _ _ rfl rfl hcd m3 _ hok).1

end

/-! ### The stream of a document alone -/

/-- the files of a directory in which a document is alone -/
def AloneIn (dir name content : Str) (w : Files) : Prop := ∀ n, w ⟨dir, n⟩ = if n = name then some content else none

/-- the reports of a run -/
theorem genRest_reports (env : StepEnv) {dir name content : Str} {w : Files} (h : AloneIn dir name content w) :
    (genRest env (srvOpts dir) ⟨dir, name⟩ w .fresh).1 = docReports env name content := by
  have hw : w ⟨dir, name⟩ = some content := by rw [h name, if_pos rfl]
  rw [genRest, docReports]
  by_cases hd : suffix name = c!".docx"
  · rw [if_pos hd, if_pos hd]
    simp only [convertWord, hw]
    cases env.tools.docx (baseName name) content with
    | error e => simp only [wordRest, List.append_nil]
    | ok hc =>
      obtain ⟨page, css⟩ := hc
      simp only [wordRest, modelRest, pageReports, srvOpts]
      congr 3
      rw [readHtml, Files.set_other, Files.set_other, Files.set_same]
      · intro he
        injection he with _ he
        have := List.append_cancel_left he
        exact absurd this (by decide)
      · intro he
        injection he with _ he
        exact ne_suffix _ _ he
  · rw [if_neg hd, if_neg hd]
    simp only [modelRest, pageReports, srvOpts]
    congr 2
    by_cases hn : name = baseName name ++ c!".json"
    · rw [if_pos hn, readHtml]
      rw [show (w.set ⟨dir, baseName name ++ c!".json"⟩ []) ⟨dir, name⟩ = some [] by rw [← hn, Files.set_same]]
    · rw [if_neg hn, readHtml, Files.set_other _ _ (by simpa using hn), hw]

/-- the whole stream of a document -/
theorem streamLeft_fresh (env : StepEnv) (F : StepSrv) (j : Nat) {dir name content : Str} (h : AloneIn dir name content F.srv.files)
    (hg : F.gens j = .fresh) (hc : env.cache ≠ dir) :
    streamLeft env F j ⟨dir, ⟨dir, name⟩, md5sum env.hasher content chunkBytes, .created⟩ = docStream env name content := by
  simp only [streamLeft, docStream]
  rw [hg, genRest_reports env h, genRest_fresh]
  congr 2
  obtain ⟨h1, h2⟩ := runSpec_same env.tools (srvOpts dir) (srvOpts []) ⟨rfl, rfl⟩ F.srv.files
    (fun f => if f = ⟨[], name⟩ then some content else none) name (by
      intro n
      change F.srv.files ⟨dir, n⟩ = _
      rw [h n]
      by_cases hn : n = name
      · rw [if_pos hn]; exact (if_pos (by rw [hn]; rfl)).symm
      · rw [if_neg hn]; exact (if_neg (fun he => hn (FPath.mk.inj he).2)).symm)
  have e1 : runSpec env.tools (srvOpts []) (fun f => if f = ⟨[], name⟩ then some content else none) ⟨(srvOpts []).out, name⟩ =
    runAlone env.tools name content := rfl
  have e2 : (⟨(srvOpts dir).out, name⟩ : FPath) = ⟨dir, name⟩ := rfl
  rw [e1, e2] at h1 h2
  rcases hra : runAlone env.tools name content with ⟨wa, r'⟩
  rw [hra] at h1 h2
  have hname := fun p w' (h : runSpec env.tools (srvOpts dir) F.srv.files ⟨dir, name⟩ = (w', .ok p)) => (runSpec_name h).2
  generalize runSpec env.tools (srvOpts dir) F.srv.files ⟨dir, name⟩ = rs at h1 h2 hname
  obtain ⟨w, r⟩ := rs
  have same : SameDir dir w [] wa := h1
  rcases h2 with ⟨n, h2, h3⟩ | ⟨e, h2, h3⟩
  · have h2 : r = .ok ⟨dir, n⟩ := h2
    have h3 : r' = .ok ⟨[], n⟩ := h3
    subst h2 h3
    obtain ⟨jt, hjt⟩ := hname _ _ rfl
    have hset : ∀ m, w.set ⟨env.cache, n⟩ jt ⟨dir, m⟩ = w ⟨dir, m⟩ :=
      fun m => Files.set_other _ _ (by intro h; injection h with h _; exact hc h.symm)
    have hjt' : wa ⟨[], n⟩ = some jt := by rw [← same n, hjt]
    have hj : jsonReport env.tools name content = some jt := by rw [jsonReport, hra]; exact hjt'
    have hh : htmlReport env.tools name content = wa ⟨[], withSuffix n c!".html"⟩ := by rw [htmlReport, hra]
    simp only [endJob, hjt, hset, hj, hh]
    rw [same]
    cases wa ⟨[], withSuffix n c!".html"⟩ <;> simp
  · have h2 : r = .error e := h2
    have h3 : r' = .error e := h3
    subst h2 h3
    have hj : jsonReport env.tools name content = none := by rw [jsonReport, hra]
    simp [endJob, hj]

/-! ### C94 -/

/-- **C94**, for plain file names: uploads whose work is done bit by bit, in whatever order their event streams are read, give the same
responses as if the work of each were done at once at the end of its stream, and the same files outside of the directories of the
uploads. -/
theorem C94_same (env : StepEnv) (files : Files) (dirs : List Str) (hf : ∀ f, files f ≠ none → f.dir ∈ dirs) (h : List StepEv)
    (plain : ∀ x ∈ sentDocs h, PlainName x.1) (proper : ∀ e ∈ h, e.proper) :
    ∃ cs, AtOnce h cs ∧
      (stepTrace env (stepStart env files dirs) h).map (·.2) = (srvTrace env.toSrvEnv (srvStart env.toSrvEnv files dirs) cs).map (·.2) ∧
      (stepRun env (stepStart env files dirs) h).srv.dirs = (srvRun env.toSrvEnv (srvStart env.toSrvEnv files dirs) cs).dirs ∧
      (stepRun env (stepStart env files dirs) h).srv.lookup = (srvRun env.toSrvEnv (srvStart env.toSrvEnv files dirs) cs).lookup ∧
      ∀ f : FPath, f.dir ∈ env.cache :: dirs →
        (stepRun env (stepStart env files dirs) h).srv.files f = (srvRun env.toSrvEnv (srvStart env.toSrvEnv files dirs) cs).files f := by
  obtain ⟨cs, ha, ht, s⟩ := Sim.history (ps := sentDocs h) h (fun x hx => ⟨hx, plain x hx⟩) proper (sim_start env files dirs hf _)
  refine ⟨cs, ha, ht, s.dirs, s.lookup, fun f hd => s.files f ?_⟩
  intro j job hj hst he
  exact (s.ginv.jobs_dirs j job hj (by rcases hst with h | h <;> rw [h] <;> simp)).2 (he ▸ hd)

/-- **C94**, for plain file names: whatever happens before and meanwhile, also to other uploads, what is seen of the event stream of an
upload is what is seen of it on a server which has nothing else to do, as far as it is read. -/
theorem C94_stream (env : StepEnv) (files : Files) (dirs : List Str) (hf : ∀ f, files f ≠ none → f.dir ∈ dirs) (h1 h2 : List StepEv)
    (dir name content : Str) (plain : ∀ x ∈ sentDocs (h1 ++ .other (.post dir (some (name, content)) true) :: h2), PlainName x.1)
    (proper : ∀ e ∈ h1 ++ h2, e.proper) (j : Nat)
    (hj : (stepSrv env (stepRun env (stepStart env files dirs) h1) (.other (.post dir (some (name, content)) true))).2 = .stream j) :
    seenOf j (stepTrace env (stepSrv env (stepRun env (stepStart env files dirs) h1) (.other (.post dir (some (name, content)) true))).1 h2) =
      (docStream env name content).take (readsOf j h2) := by
  have hs : sentDocs (h1 ++ .other (.post dir (some (name, content)) true) :: h2) = sentDocs h1 ++ ((name, content) :: sentDocs h2) := by
    rw [sentDocs, List.filterMap_append]; rfl
  generalize hps : sentDocs (h1 ++ .other (.post dir (some (name, content)) true) :: h2) = ps at plain hs
  obtain ⟨cs, -, -, s⟩ := Sim.history (ps := ps) h1
    (fun x hx => by have : x ∈ ps := by rw [hs]; exact List.mem_append_left _ hx
                    exact ⟨this, plain x this⟩)
    (fun e he => proper e (List.mem_append_left _ he)) (sim_start env files dirs hf _)
  generalize stepRun env (stepStart env files dirs) h1 = F at s hj ⊢
  have hx : (name, content) ∈ ps := by rw [hs]; simp
  obtain ⟨-, s'⟩ := s.other (.post dir (some (name, content)) true) trivial (by
    intro x hx'
    simp only [posted, List.mem_singleton] at hx'
    subst hx'
    exact ⟨hx, plain _ hx⟩)
  have hpost : j = F.srv.jobs.length ∧ dir ∉ F.srv.dirs ∧ (stepSrv env F (.other (.post dir (some (name, content)) true))).1 =
      ⟨⟨F.srv.files.set ⟨dir, name⟩ content, dir :: F.srv.dirs, F.srv.lookup,
        F.srv.jobs ++ [⟨dir, ⟨dir, name⟩, md5sum env.hasher content chunkBytes, .created⟩]⟩, F.gens⟩ := by
    rw [stepSrv_other F (e := .post dir (some (name, content)) true) trivial] at hj ⊢
    simp only [srvStep, postSpec] at hj ⊢
    rw [if_neg (by simp)] at hj ⊢
    split at hj
    · simp at hj
    · next hdir =>
      rw [if_neg hdir]
      rw [not_or, not_not] at hdir
      rw [destination_plain hdir.2 (plain _ hx)] at hj ⊢
      simp only [] at hj ⊢
      split at hj
      · next hq =>
        rw [if_pos hq]
        simp only [SrvResp.stream.injEq] at hj
        exact ⟨hj.symm, hdir.1, rfl⟩
      · simp at hj
  obtain ⟨rfl, hdir, hF⟩ := hpost
  rw [hF] at s' ⊢
  rw [Sim.stream (ps := ps) h2 (fun x hx => by have : x ∈ ps := by rw [hs]; exact List.mem_append_right _ (List.mem_cons_of_mem _ hx)
                                               exact ⟨this, plain x this⟩)
    (fun e he => proper e (List.mem_append_right _ he)) F.srv.jobs.length s'
    (job := ⟨dir, ⟨dir, name⟩, md5sum env.hasher content chunkBytes, .created⟩) (by simp) (.inl rfl)]
  rw [streamLeft_fresh]
  · intro n
    change F.srv.files.set _ _ _ = _
    by_cases hn : n = name
    · rw [hn, Files.set_same, if_pos rfl]
    · rw [Files.set_other _ _ (by simpa using hn), if_neg hn]
      by_contra hne
      have hC : ∀ f : FPath, f.dir = dir → F.srv.files f = (srvRun env.toSrvEnv (srvStart env.toSrvEnv files dirs) cs).files f := by
        intro f hfd
        refine s.files f ?_
        intro i a hi hst he
        refine hdir ?_
        rw [s.dirs, ← hfd, he]
        exact (s.ginv.jobs_dirs i a hi (by rcases hst with h | h <;> rw [h] <;> simp)).1
      rw [hC ⟨dir, n⟩ rfl] at hne
      exact hdir (by rw [s.dirs]; exact s.ginv.files_dirs _ hne)
  · refine s.fresh _ ?_
    intro a ha
    rw [← s.jobs, List.getElem?_eq_none (Nat.le_refl _)] at ha
    simp at ha
  · intro he
    refine hdir ?_
    rw [s.dirs, ← he]
    exact s.ginv.base_kept _ s.ginv.cache_base

/-- **C94**, for plain file names and if different documents are never sent under names with the same base name: whatever the history and
the order in which the event streams are read, what is served under a hash is the report made from a document with that hash. -/
theorem C94_served_partial (env : StepEnv) (files : Files) (dirs : List Str) (hf : ∀ f, files f ≠ none → f.dir ∈ dirs) (h : List StepEv)
    (plain : ∀ x ∈ sentDocs h, PlainName x.1) (proper : ∀ e ∈ h, e.proper)
    (distinct : ∀ x ∈ sentDocs h, ∀ y ∈ sentDocs h, baseName x.1 = baseName y.1 → x = y) (hash text : Str) :
    ((stepSrv env (stepRun env (stepStart env files dirs) h) (.other (.getJson hash))).2 = .text text →
      ∃ x ∈ sentDocs h, md5sum env.hasher x.2 chunkBytes = hash ∧ jsonReport env.tools x.1 x.2 = some text) ∧
    ((stepSrv env (stepRun env (stepStart env files dirs) h) (.other (.getHtml hash))).2 = .text text →
      ∃ x ∈ sentDocs h, md5sum env.hasher x.2 chunkBytes = hash ∧ htmlReport env.tools x.1 x.2 = some text) ∧
    ((stepSrv env (stepRun env (stepStart env files dirs) h) (.other (.getReport hash))).2 = .page text →
      ∃ x ∈ sentDocs h, md5sum env.hasher x.2 chunkBytes = hash ∧ jsonReport env.tools x.1 x.2 = some text) := by
  obtain ⟨cs, ha, -, s⟩ := Sim.history (ps := sentDocs h) h (fun x hx => ⟨hx, plain x hx⟩) proper (sim_start env files dirs hf _)
  have hps : posted cs = sentDocs h := by
    clear s plain proper distinct
    induction ha with
    | nil => rfl
    | report j p _ ih => rw [sentDocs_cons]; exact ih
    | finish j _ ih => rw [sentDocs_cons]; exact ih
    | other e _ ih =>
      rw [sentDocs_cons, ← ih, ← posted_sent]
      cases e with
      | post dir doc acc => cases doc <;> rfl
      | _ => rfl
  obtain ⟨k1, k2, k3⟩ := C55_own_report_partial env.toSrvEnv files dirs hf cs (by rw [hps]; exact plain) (by rw [hps]; exact distinct) hash text
  rw [hps] at k1 k2 k3
  have hnone : ∀ {e : SrvEv}, posted [e] = [] → ∀ x ∈ posted [e], x ∈ sentDocs h ∧ PlainName x.1 := by
    intro e he x hx; rw [he] at hx; simp at hx
  rw [(s.other (.getJson hash) trivial (hnone rfl)).1, (s.other (.getHtml hash) trivial (hnone rfl)).1,
    (s.other (.getReport hash) trivial (hnone rfl)).1]
  exact ⟨k1, k2, k3⟩

/-- the server with the first stage as it is in Model/FirstStage -/
def stageEnv (unzip : Str → WordFile) (layout : List Piece → Str) (hasher : Hasher) (cache : Str) : StepEnv where
  tools := stageTools unzip layout
  hasher := hasher
  cache := cache
  stage1 name bytes := (firstStage (unzip bytes) name true).1

/-- **C94**: the reports in the event stream of a Word document are those of both stages of parse_spec for it. -/
theorem C94_reports (unzip : Str → WordFile) (layout : List Piece → Str) (hasher : Hasher) (cache name content : Str)
    (hd : suffix name = c!".docx") : docReports (stageEnv unzip layout hasher cache) name content =
      (parseDocx (unzip content) (baseName name) layout [] true true).1 := by
  rw [docReports, if_pos hd]
  simp only [stageEnv, stageTools, parseDocx, firstStage, pageReports]
  cases openWord (unzip content) with
  | error e => rfl
  | ok r =>
    simp only []
    cases (yieldedTables r.1).2 with
    | error e => simp [Except.map]
    | ok u => rfl

/-! ### A server -/

omit [Uni] in
/-- each Word document has two tables for the first stage -/
def stepEnv : StepEnv := { srvEnv with stage1 := fun _ b => if b = c!"bad" then [⟨c!"html", 0, 2⟩] else [⟨c!"html", 0, 2⟩, ⟨c!"html", 1, 2⟩] }

/-- three uploads at the same time: the first is completed, the second fails, the third is given up -/
def stepHistory : List StepEv :=
  [.other (.post c!"/tmp/u1" (some (c!"a.docx", c!"one")) true), .other (.post c!"/tmp/u2" (some (c!"b.docx", c!"bad")) true), .next 0, .next 1,
    .other (.post c!"/tmp/u3" (some (c!"c.docx", c!"three")) true), .next 0, .next 2, .next 1, .next 0, .next 2, .other (.close 2), .next 2,
    .next 1, .other (.resume 0)]

/-- what is seen of it -/
example : letI := Uni.ascii
    (stepTrace stepEnv (stepStart stepEnv srvFiles srvDirs) stepHistory).map (·.2) =
      [.stream 0, .stream 1, .event (jsonToSse (progressEvent ⟨c!"html", 0, 2⟩)), .event (jsonToSse (progressEvent ⟨c!"html", 0, 2⟩)), .stream 2,
        .event (jsonToSse (progressEvent ⟨c!"html", 1, 2⟩)), .event (jsonToSse (progressEvent ⟨c!"html", 0, 2⟩)), .failed,
        .event (jsonToSse (completedEvent c!"one")), .event (jsonToSse (progressEvent ⟨c!"html", 1, 2⟩)), .ended, .nothing, .nothing, .ended] ∧
    docStream stepEnv c!"b.docx" c!"bad" = [.event (jsonToSse (progressEvent ⟨c!"html", 0, 2⟩)), .failed] ∧
    (stepRun stepEnv (stepStart stepEnv srvFiles srvDirs) stepHistory).srv.dirs = [c!"/tmp/cache", c!"/tmp", c!"/home"] := by
  decide +kernel

/-- the hypotheses of the theorems above -/
example : letI := Uni.ascii
    (∀ x ∈ sentDocs stepHistory, PlainName x.1) ∧ (∀ e ∈ stepHistory, e.proper) ∧
    (∀ x ∈ sentDocs stepHistory, ∀ y ∈ sentDocs stepHistory, baseName x.1 = baseName y.1 → x = y) ∧
    (stepSrv stepEnv (stepRun stepEnv (stepStart stepEnv srvFiles srvDirs) (stepHistory.take 4)) (stepHistory[4])).2 = .stream 2 ∧
    readsOf 2 (stepHistory.drop 5) = 2 ∧
    (stepSrv stepEnv (stepRun stepEnv (stepStart stepEnv srvFiles srvDirs) stepHistory) (.other (.getHtml c!"one"))).2 = .text c!"one" := by
  let _ := Uni.ascii
  refine ⟨?_, ?_, ?_, by decide +kernel, by decide +kernel, by decide +kernel⟩
  · have h : sentDocs stepHistory = [(c!"a.docx", c!"one"), (c!"b.docx", c!"bad"), (c!"c.docx", c!"three")] := rfl
    rw [h]
    unfold PlainName
    decide
  · intro e he
    simp only [stepHistory, List.mem_cons, List.not_mem_nil, or_false] at he
    rcases he with rfl | rfl | rfl | rfl | rfl | rfl | rfl | rfl | rfl | rfl | rfl | rfl | rfl | rfl <;> trivial
  · have h : sentDocs stepHistory = [(c!"a.docx", c!"one"), (c!"b.docx", c!"bad"), (c!"c.docx", c!"three")] := rfl
    rw [h]
    decide

/-- a second upload whose name leads into the directory of the first -/
def stepIntruder : List StepEv :=
  [.other (.post c!"/tmp/u1" (some (c!"a.docx", c!"one")) true), .other (.post c!"/tmp/u2" (some (c!"../u1/a.docx", c!"mine")) true), .next 0, .next 0,
    .next 0]

omit [Uni] in
/-- **C94** is false for other file names: an upload replaces the document of another one which has not begun, so that its event stream
announces, under the hash of its own document, a report made from that of the other upload. -/
theorem C94_elsewhere_false : letI := Uni.ascii
    seenOf 0 (stepTrace stepEnv (stepStart stepEnv srvFiles srvDirs) stepIntruder) = docStream stepEnv c!"a.docx" c!"one" ∧
    (stepSrv stepEnv (stepRun stepEnv (stepStart stepEnv srvFiles srvDirs) stepIntruder) (.other (.getHtml c!"one"))).2 = .text c!"mine" ∧
    htmlReport stepEnv.tools c!"a.docx" c!"one" = some c!"one" := by
  decide +kernel

end Spex
