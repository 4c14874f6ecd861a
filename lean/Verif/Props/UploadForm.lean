import Verif.Model.UploadForm
import Verif.Props.Server
import Mathlib.Data.List.Induction
/-
C73, C74: the answers to an upload, and what the page of the upload form makes of them.
-/
set_option autoImplicit false
namespace Spex
variable [Uni]

/-! ### Specification -/

section
omit [Uni]

/-- an event sent in the stream of upload `j` -/
def sentBy (j : Nat) : SrvEv × SrvResp → Option Str
  | (.progress i _, .event s) => if i = j then some s else none
  | (.finish i, .event s) => if i = j then some s else none
  | _ => none

/-- the events sent in the stream of upload `j`, in order -/
def sent (tr : List (SrvEv × SrvResp)) (j : Nat) : List Str := tr.filterMap (sentBy j)

/-- upload `j` made this progress -/
def reachedBy (j : Nat) : SrvEv × SrvResp → Option Progress
  | (.progress i p, .event _) => if i = j then some p else none
  | _ => none

/-- the progress of upload `j`, in order -/
def reached (tr : List (SrvEv × SrvResp)) (j : Nat) : List Progress := tr.filterMap (reachedBy j)

/-- upload `j` was completed -/
def Finished (tr : List (SrvEv × SrvResp)) (j : Nat) : Prop := ∃ s, (SrvEv.finish j, SrvResp.event s) ∈ tr

/-- a bar which shows `i` of `n` -/
def barAt (i n : Nat) : Bar := ⟨some (.num i), some (.num n)⟩

/-- the first bar: the figures read, and full as soon as the second stage has begun -/
def htmlBar (ps : List Progress) : Bar :=
  match (ps.filter fun p => p.phase = c!"html" ∨ p.phase = c!"json").getLast? with
  | none => barAt 0 100
  | some p => if p.phase = c!"html" then barAt p.index p.total else barAt 100 100

/-- the second bar: the figures worked on in the second stage -/
def jsonBar (ps : List Progress) : Bar :=
  match (ps.filter fun p => p.phase = c!"json").getLast? with
  | none => barAt 0 100
  | some p => barAt p.index p.total

end

/-! ### The events of an upload -/

section
omit [Uni]

theorem sent_snoc (tr : List (SrvEv × SrvResp)) (j : Nat) (x : SrvEv × SrvResp) :
    sent (tr ++ [x]) j = sent tr j ++ (sentBy j x).toList := by
  rw [sent, List.filterMap_append]
  cases h : sentBy j x <;> simp [sent, h]

theorem reached_snoc (tr : List (SrvEv × SrvResp)) (j : Nat) (x : SrvEv × SrvResp) :
    reached (tr ++ [x]) j = reached tr j ++ (reachedBy j x).toList := by
  rw [reached, List.filterMap_append]
  cases h : reachedBy j x <;> simp [reached, h]

theorem finished_snoc (tr : List (SrvEv × SrvResp)) (j : Nat) (x : SrvEv × SrvResp) :
    Finished (tr ++ [x]) j ↔ Finished tr j ∨ ∃ s, x = (SrvEv.finish j, SrvResp.event s) := by
  simp only [Finished, List.mem_append, List.mem_singleton]
  constructor
  · rintro ⟨s, h | h⟩
    · exact .inl ⟨s, h⟩
    · exact .inr ⟨s, h.symm⟩
  · rintro (⟨s, h⟩ | ⟨s, h⟩)
    · exact ⟨s, .inl h⟩
    · exact ⟨s, .inr h.symm⟩

end

/-- what the history tells about the events of the uploads -/
structure EInv (env : SrvEnv) (s : Srv) (tr : List (SrvEv × SrvResp)) : Prop where
  posts : ∀ dir doc accept j, (SrvEv.post dir doc accept, SrvResp.stream j) ∈ tr →
    ∃ (job : Job) (name content : Str), s.jobs[j]? = some job ∧ doc = some (name, content) ∧
      job.hash = md5sum env.hasher content chunkBytes
  events : ∀ (j : Nat) (job : Job), s.jobs[j]? = some job →
    (¬ Finished tr j ∧ job.st ≠ .completed ∧ sent tr j = (reached tr j).map fun p => jsonToSse (progressEvent p)) ∨
    (Finished tr j ∧ (job.st = .completed ∨ job.st = .over) ∧
      sent tr j = ((reached tr j).map fun p => jsonToSse (progressEvent p)) ++ [jsonToSse (completedEvent job.hash)])
  fresh : ∀ j, s.jobs.length ≤ j → sent tr j = [] ∧ reached tr j = [] ∧ ¬ Finished tr j

section
variable {env : SrvEnv} {s : Srv} {tr : List (SrvEv × SrvResp)}

omit [Uni] in
/-- a step after which the uploads are the same but for the state of some, and which sends nothing -/
theorem einv_quiet (t : EInv env s tr) (x : SrvEv × SrvResp) (s' : Srv) (hx : ∀ e, x.2 ≠ .event e) (hs : ∀ j, x.2 ≠ .stream j)
    (hl : s'.jobs.length = s.jobs.length)
    (hj : ∀ (j : Nat) (a : Job), s'.jobs[j]? = some a → ∃ b : Job, s.jobs[j]? = some b ∧ a.hash = b.hash ∧
      (a.st = b.st ∨ a.st ≠ .completed ∧ (b.st = .completed ∨ b.st = .over → a.st = .over))) :
    EInv env s' (tr ++ [x]) := by
  have e1 : ∀ j, sentBy j x = none := by
    intro j
    obtain ⟨e, r⟩ := x
    cases e <;> cases r <;> first | rfl | exact absurd rfl (hx _)
  have e2 : ∀ j, reachedBy j x = none := by
    intro j
    obtain ⟨e, r⟩ := x
    cases e <;> cases r <;> first | rfl | exact absurd rfl (hx _)
  have e3 : ∀ j, Finished (tr ++ [x]) j ↔ Finished tr j := by
    intro j
    rw [finished_snoc]
    constructor
    · rintro (h | ⟨r, rfl⟩)
      · exact h
      · exact absurd rfl (hx _)
    · exact .inl
  refine ⟨?_, ?_, ?_⟩
  · intro dir doc accept j h
    rcases List.mem_append.1 h with h | h
    · obtain ⟨b, name, content, h1, h2, h3⟩ := t.posts dir doc accept j h
      have hlt : j < s'.jobs.length := by
        rw [hl]
        exact (List.getElem?_eq_some_iff.1 h1).1
      obtain ⟨b', k1, k2, -⟩ := hj j _ (List.getElem?_eq_getElem hlt)
      rw [h1] at k1
      injection k1 with k1
      exact ⟨_, name, content, List.getElem?_eq_getElem hlt, h2, by rw [k2, ← k1, h3]⟩
    · rw [List.mem_singleton] at h
      exact absurd (by rw [← h]) (hs j)
  · intro j a ha
    obtain ⟨b, h1, h2, h3⟩ := hj j a ha
    rw [sent_snoc, reached_snoc, e1, e2, e3]
    simp only [Option.toList_none, List.append_nil]
    rcases t.events j b h1 with ⟨k1, k2, k3⟩ | ⟨k1, k2, k3⟩
    · refine .inl ⟨k1, ?_, k3⟩
      rcases h3 with h3 | h3
      · rw [h3]; exact k2
      · exact h3.1
    · refine .inr ⟨k1, ?_, by rw [k3, h2]⟩
      rcases h3 with h3 | h3
      · rw [h3]; exact k2
      · exact .inr (h3.2 k2)
  · intro j h
    rw [sent_snoc, reached_snoc, e1, e2, e3]
    simp only [Option.toList_none, List.append_nil]
    exact t.fresh j (hl ▸ h)

omit [Uni] in
theorem einv_same (t : EInv env s tr) (x : SrvEv × SrvResp) (s' : Srv) (hx : ∀ e, x.2 ≠ .event e) (hs : ∀ j, x.2 ≠ .stream j)
    (hj : s'.jobs = s.jobs) : EInv env s' (tr ++ [x]) :=
  einv_quiet t x s' hx hs (by rw [hj]) fun j a h => ⟨a, by rw [← hj]; exact h, rfl, .inl rfl⟩

omit [Uni] in
/-- the state of one upload changes, and nothing is sent -/
theorem einv_set (t : EInv env s tr) {j : Nat} {job : Job} (hjob : s.jobs[j]? = some job) (x : SrvEv × SrvResp) (st : JobSt) (s' : Srv)
    (hx : ∀ e, x.2 ≠ .event e) (hs : ∀ j, x.2 ≠ .stream j) (hj : s'.jobs = s.jobs.set j { job with st := st })
    (h1 : st ≠ .completed) (h2 : job.st = .completed ∨ job.st = .over → st = .over) : EInv env s' (tr ++ [x]) := by
  refine einv_quiet t x s' hx hs (by rw [hj, List.length_set]) ?_
  intro i a h
  rw [hj] at h
  rw [show s.jobs.set j { job with st := st } = (s.setJob j job st).jobs from rfl, setJob_jobs hjob] at h
  by_cases hi : i = j
  · rw [if_pos hi] at h
    injection h with h
    subst h
    exact ⟨job, hi ▸ hjob, rfl, .inr ⟨h1, h2⟩⟩
  · rw [if_neg hi] at h
    exact ⟨a, h, rfl, .inl rfl⟩

omit [Uni] in
/-- one upload sends an event -/
theorem einv_event (t : EInv env s tr) {j : Nat} {job : Job} (hjob : s.jobs[j]? = some job) (hst : job.st = .created ∨ job.st = .running)
    (e : SrvEv) (ev : Str) (st : JobSt) (s' : Srv) (hj : s'.jobs = s.jobs.set j { job with st := st })
    (h : (∃ p, e = .progress j p ∧ ev = jsonToSse (progressEvent p) ∧ st = .running) ∨
      (e = .finish j ∧ ev = jsonToSse (completedEvent job.hash) ∧ st = .completed)) : EInv env s' (tr ++ [(e, .event ev)]) := by
  have hset : ∀ i, s'.jobs[i]? = if i = j then some { job with st := st } else s.jobs[i]? := by
    intro i
    rw [hj, show s.jobs.set j { job with st := st } = (s.setJob j job st).jobs from rfl, setJob_jobs hjob]
  have hne : ¬ Finished tr j ∧ job.st ≠ .completed ∧ sent tr j = (reached tr j).map fun p => jsonToSse (progressEvent p) := by
    rcases t.events j job hjob with h | ⟨-, h | h, -⟩
    · exact h
    · rcases hst with h' | h' <;> rw [h'] at h <;> simp at h
    · rcases hst with h' | h' <;> rw [h'] at h <;> simp at h
  have hother : ∀ i, i ≠ j → sent (tr ++ [(e, .event ev)]) i = sent tr i ∧ reached (tr ++ [(e, .event ev)]) i = reached tr i ∧
      (Finished (tr ++ [(e, .event ev)]) i ↔ Finished tr i) := by
    intro i hi
    rw [sent_snoc, reached_snoc, finished_snoc]
    have hi' : ¬ j = i := fun h => hi h.symm
    rcases h with ⟨p, rfl, -, -⟩ | ⟨rfl, -, -⟩
    · simp [sentBy, reachedBy, hi']
    · simp [sentBy, reachedBy, hi']
  refine ⟨?_, ?_, ?_⟩
  · intro dir doc accept i hm
    rcases List.mem_append.1 hm with hm | hm
    · obtain ⟨b, name, content, h1, h2, h3⟩ := t.posts dir doc accept i hm
      by_cases hi : i = j
      · subst hi
        rw [hjob] at h1
        injection h1 with h1
        exact ⟨{ job with st := st }, name, content, by rw [hset, if_pos rfl], h2, by rw [← h3, ← h1]⟩
      · exact ⟨b, name, content, by rw [hset, if_neg hi, h1], h2, h3⟩
    · simp at hm
  · intro i a ha
    rw [hset] at ha
    by_cases hi : i = j
    · subst hi
      rw [if_pos rfl] at ha
      injection ha with ha
      subst ha
      rw [sent_snoc, reached_snoc, finished_snoc]
      rcases h with ⟨p, rfl, rfl, rfl⟩ | ⟨rfl, rfl, rfl⟩
      · refine .inl ⟨?_, by simp, ?_⟩
        · rintro (h | ⟨r, h⟩)
          · exact hne.1 h
          · simp at h
        · simp [sentBy, reachedBy, hne.2.2]
      · refine .inr ⟨.inr ⟨_, rfl⟩, .inl rfl, ?_⟩
        simp [sentBy, reachedBy, hne.2.2]
    · rw [if_neg hi] at ha
      obtain ⟨k1, k2, k3⟩ := hother i hi
      rw [k1, k2, k3]
      exact t.events i a ha
  · intro i hi
    rw [hj, List.length_set] at hi
    have hij : i ≠ j := by
      rintro rfl
      have := (List.getElem?_eq_some_iff.1 hjob).1
      omega
    obtain ⟨k1, k2, k3⟩ := hother i hij
    rw [k1, k2, k3]
    exact t.fresh i hi

omit [Uni] in
/-- an upload is accepted -/
theorem einv_add (t : EInv env s tr) (dir name content : Str) (p : FPath) (s' : Srv)
    (hj : s'.jobs = s.jobs ++ [⟨dir, p, md5sum env.hasher content chunkBytes, .created⟩]) :
    EInv env s' (tr ++ [(.post dir (some (name, content)) true, .stream s.jobs.length)]) := by
  have e1 : ∀ j, sent (tr ++ [(.post dir (some (name, content)) true, .stream s.jobs.length)]) j = sent tr j := by
    intro j; rw [sent_snoc]; simp [sentBy]
  have e2 : ∀ j, reached (tr ++ [(.post dir (some (name, content)) true, .stream s.jobs.length)]) j = reached tr j := by
    intro j; rw [reached_snoc]; simp [reachedBy]
  have e3 : ∀ j, Finished (tr ++ [(.post dir (some (name, content)) true, .stream s.jobs.length)]) j ↔ Finished tr j := by
    intro j; rw [finished_snoc]; simp
  refine ⟨?_, ?_, ?_⟩
  · intro d doc accept j hm
    rcases List.mem_append.1 hm with hm | hm
    · obtain ⟨b, n, c, h1, h2, h3⟩ := t.posts d doc accept j hm
      exact ⟨b, n, c, by rw [hj, List.getElem?_append_left (List.getElem?_eq_some_iff.1 h1).1, h1], h2, h3⟩
    · simp only [List.mem_singleton, Prod.mk.injEq, SrvEv.post.injEq, SrvResp.stream.injEq] at hm
      obtain ⟨⟨rfl, rfl, rfl⟩, rfl⟩ := hm
      exact ⟨⟨d, p, md5sum env.hasher content chunkBytes, .created⟩, name, content, by rw [hj]; simp, rfl, rfl⟩
  · intro j a ha
    rw [e1, e2, e3]
    rw [hj] at ha
    by_cases hlt : j < s.jobs.length
    · rw [List.getElem?_append_left hlt] at ha
      exact t.events j a ha
    · obtain ⟨k1, k2, k3⟩ := t.fresh j (Nat.le_of_not_lt hlt)
      rw [List.getElem?_append_right (Nat.le_of_not_lt hlt)] at ha
      have ha := List.mem_of_getElem? ha
      rw [List.mem_singleton] at ha
      subst ha
      exact .inl ⟨k3, by simp, by rw [k1, k2]; rfl⟩
  · intro j h
    rw [e1, e2, e3]
    rw [hj, List.length_append] at h
    exact t.fresh j (by omega)

theorem einv_step (t : EInv env s tr) (e : SrvEv) : EInv env (srvStep env s e).1 (tr ++ [(e, (srvStep env s e).2)]) := by
  cases e with
  | post dir doc accept =>
    rw [srvStep]
    unfold postSpec
    split
    · exact einv_same t _ _ (by simp) (by simp) rfl
    · split
      · exact einv_same t _ _ (by simp) (by simp) rfl
      · next hacc =>
        split
        · exact einv_same t _ _ (by simp) (by simp) rfl
        · split
          · exact einv_same t _ _ (by simp) (by simp) rfl
          · split
            · rw [Bool.not_eq_false] at hacc
              subst hacc
              exact einv_add t _ _ _ _ _ rfl
            · exact einv_same t _ _ (by simp) (by simp) rfl
  | progress j p =>
    rw [srvStep]
    split
    · exact einv_same t _ _ (by simp) (by simp) rfl
    · next job hj =>
      split
      · next h => exact einv_event t hj h _ _ .running _ rfl (.inl ⟨p, rfl, rfl, rfl⟩)
      · exact einv_same t _ _ (by simp) (by simp) rfl
  | finish j =>
    rw [srvStep]
    split
    · exact einv_same t _ _ (by simp) (by simp) rfl
    · next job hj =>
      split
      · next h =>
        have hst : job.st = .completed ∨ job.st = .over → JobSt.over = .over := fun _ => rfl
        generalize hr : runSpec env.tools (srvOpts job.dir) s.files job.spec = wr
        obtain ⟨w, r⟩ := wr
        rcases finishJob_cases env s j job w r hr with ⟨-, h'⟩ | ⟨n, jt, -, -, -, ⟨-, h'⟩ | ⟨ht, -, h'⟩⟩
        · rw [h']; exact einv_set t hj _ .over _ (by simp) (by simp) rfl (by simp) hst
        · rw [h']; exact einv_set t hj _ .over _ (by simp) (by simp) rfl (by simp) hst
        · rw [h']; exact einv_event t hj h _ _ .completed _ rfl (.inr ⟨rfl, rfl, rfl⟩)
      · exact einv_same t _ _ (by simp) (by simp) rfl
  | resume j =>
    rw [srvStep]
    split
    · exact einv_same t _ _ (by simp) (by simp) rfl
    · next job hj =>
      split
      · exact einv_set t hj _ .over _ (by simp) (by simp) rfl (by simp) (fun _ => rfl)
      · exact einv_same t _ _ (by simp) (by simp) rfl
  | close j =>
    rw [srvStep]
    split
    · exact einv_same t _ _ (by simp) (by simp) rfl
    · next job hj =>
      split
      · next h => exact einv_set t hj _ .dropped _ (by simp) (by simp) rfl (by simp) (by simp [h])
      · split
        · exact einv_set t hj _ .over _ (by simp) (by simp) rfl (by simp) (fun _ => rfl)
        · exact einv_same t _ _ (by simp) (by simp) rfl
  | collect j =>
    rw [srvStep]
    split
    · exact einv_same t _ _ (by simp) (by simp) rfl
    · next job hj =>
      split
      · exact einv_set t hj _ .over _ (by simp) (by simp) rfl (by simp) (fun _ => rfl)
      · exact einv_same t _ _ (by simp) (by simp) rfl
  | getJson hash =>
    rw [srvStep]; repeat' split
    all_goals exact einv_same t _ _ (by simp) (by simp) rfl
  | getHtml hash =>
    rw [srvStep]; repeat' split
    all_goals exact einv_same t _ _ (by simp) (by simp) rfl
  | getReport hash =>
    rw [srvStep]; repeat' split
    all_goals exact einv_same t _ _ (by simp) (by simp) rfl

theorem einv_run (t : EInv env s tr) (h : List SrvEv) : EInv env (srvRun env s h) (tr ++ srvTrace env s h) := by
  induction h generalizing s tr with
  | nil => rw [srvTrace, List.append_nil]; exact t
  | cons e es ih =>
    have := ih (einv_step t e)
    rw [List.append_assoc, List.singleton_append] at this
    exact this

theorem einv_history (env : SrvEnv) (files : Files) (dirs : List Str) (h : List SrvEv) :
    EInv env (srvRun env (srvStart env files dirs) h) (srvTrace env (srvStart env files dirs) h) := by
  have : EInv env (srvStart env files dirs) [] :=
    ⟨by simp, by simp [srvStart], fun j _ => ⟨rfl, rfl, by simp [Finished]⟩⟩
  simpa using einv_run this h

end

/-! ### The page -/

section
omit [Uni]

/-- the page after pieces which are made of complete events -/
theorem formChunks_events (chunks : List (List Json)) (f : Form) :
    (chunks.map fun es => es.flatMap jsonToSse).foldl formChunk f = chunks.flatten.foldl formMsg f := by
  induction chunks generalizing f with
  | nil => rfl
  | cons c cs ih =>
    rw [List.map_cons, List.foldl_cons, ih, List.flatten_cons, List.foldl_append, formChunk]
    have := C57_client [c]
    simp only [List.flatMap_cons, List.flatMap_nil, List.append_nil, List.flatten_cons, List.flatten_nil] at this
    rw [this]

/-- pieces made of complete events are the texts of values -/
theorem chunks_values (chunks : List (List Str)) (vs : List Json) (h : chunks.flatten = vs.map jsonToSse) :
    ∃ cs : List (List Json), cs.flatten = vs ∧ chunks.map List.flatten = cs.map fun es => es.flatMap jsonToSse := by
  induction chunks generalizing vs with
  | nil => exact ⟨[], by simpa using h, rfl⟩
  | cons c cs ih =>
    rw [List.flatten_cons] at h
    obtain ⟨a, b, rfl, h1, h2⟩ := List.map_eq_append_iff.1 h.symm
    obtain ⟨ds, k1, k2⟩ := ih b h2.symm
    refine ⟨a :: ds, by rw [List.flatten_cons, k1], ?_⟩
    rw [List.map_cons, List.map_cons, k2, ← h1, List.flatMap_def]

theorem formMsg_progress (f : Form) (p : Progress) : formMsg f (progressEvent p) =
    if p.phase = c!"html" then { f with html := barAt p.index p.total }
    else if p.phase = c!"json" then { f with json := barAt p.index p.total, html := barAt 100 100 } else f := by
  rfl

theorem formMsg_completed (f : Form) (hash : Str) : formMsg f (completedEvent hash) =
    { f with processing := false, json := barAt 100 100, html := barAt 100 100, url := some (.str (c!"/report/" ++ hash)) } := by
  rfl

/-- the page after some progress -/
theorem form_progress (ps : List Progress) : (ps.map progressEvent).foldl formMsg { formStart with processing := true } =
    ⟨true, htmlBar ps, jsonBar ps, none, none⟩ := by
  induction ps using List.reverseRecOn with
  | nil => rfl
  | append_singleton ps p ih =>
    rw [List.map_append, List.foldl_append, ih, List.map_singleton, List.foldl_cons, List.foldl_nil, formMsg_progress]
    unfold htmlBar jsonBar
    rw [List.filter_append, List.filter_append]
    by_cases h1 : p.phase = c!"html"
    · have h2 : p.phase ≠ c!"json" := by rw [h1]; decide
      simp [h1]
    · by_cases h2 : p.phase = c!"json"
      · simp [h2]
      · simp [h1, h2]

theorem formRun_ok (chunks : List Str) (fin : BodyEnd) : formRun 200 chunks fin =
    (if fin = .done then { chunks.foldl formChunk { formStart with processing := true } with
      location := some (chunks.foldl formChunk { formStart with processing := true }).url }
    else chunks.foldl formChunk { formStart with processing := true }) := by
  rfl

end

omit [Uni] in
theorem progress_ne (p : Progress) (hash : Str) : jsonToSse (progressEvent p) ≠ jsonToSse (completedEvent hash) := by
  intro h
  have h1 := C57_client [[progressEvent p]]
  have h2 := C57_client [[completedEvent hash]]
  simp only [List.flatMap_cons, List.flatMap_nil, List.append_nil, List.flatten_cons, List.flatten_nil] at h1 h2
  rw [h, h2] at h1
  simp [progressEvent, completedEvent] at h1

/-- the last event of an upload is that of its completion -/
theorem finish_event {env : SrvEnv} {s : Srv} {h : List SrvEv} {j : Nat} {ev : Str}
    (hm : (SrvEv.finish j, SrvResp.event ev) ∈ srvTrace env s h) : ∃ hash, ev = jsonToSse (completedEvent hash) := by
  induction h generalizing s with
  | nil => simp [srvTrace] at hm
  | cons e es ih =>
    rw [srvTrace, List.mem_cons] at hm
    rcases hm with hm | hm
    · rw [Prod.mk.injEq] at hm
      obtain ⟨rfl, hm⟩ := hm
      rw [srvStep] at hm
      split at hm
      · simp at hm
      · next job hj =>
        split at hm
        · generalize hr : runSpec env.tools (srvOpts job.dir) s.files job.spec = wr at hm
          obtain ⟨w, r⟩ := wr
          rcases finishJob_cases env s j job w r hr with ⟨-, h'⟩ | ⟨n, jt, -, -, -, ⟨-, h'⟩ | ⟨ht, -, h'⟩⟩
          · rw [h'] at hm; simp at hm
          · rw [h'] at hm; simp at hm
          · rw [h'] at hm
            simp only [SrvResp.event.injEq] at hm
            exact ⟨_, hm⟩
        · simp at hm
    · exact ih hm

/-! ### C73 -/

section
variable (env : SrvEnv) (files : Files) (dirs : List Str) (h : List SrvEv)

/-- **C73** Whatever the history: the events sent in the stream of an upload are the progress made, in order, and after it, if the
upload is completed and only then, one which names the page of the report, by the checksum of the document sent. Every standard
reader of event streams gets just these. -/
theorem C73_stream (j : Nat) (dir name content : Str)
    (hj : (SrvEv.post dir (some (name, content)) true, SrvResp.stream j) ∈ srvTrace env (srvStart env files dirs) h) :
    ∃ last : List Json, (sseDecode (sent (srvTrace env (srvStart env files dirs) h) j).flatten).map readJson =
      (((reached (srvTrace env (srvStart env files dirs) h) j).map fun p => Json.obj [(c!"type", .str c!"progress-update"),
        (c!"phase", .str p.phase), (c!"fig_ndx", .num p.index), (c!"num_figs", .num p.total)]) ++ last).map some ∧
      (Finished (srvTrace env (srvStart env files dirs) h) j → last = [.obj [(c!"type", .str c!"report-completed"),
        (c!"url", .str (c!"/report/" ++ md5sum env.hasher content chunkBytes))]]) ∧
      (¬ Finished (srvTrace env (srvStart env files dirs) h) j → last = []) := by
  have t := einv_history env files dirs h
  obtain ⟨job, n, c, h1, h2, h3⟩ := t.posts _ _ _ _ hj
  simp only [Option.some.injEq, Prod.mk.injEq] at h2
  obtain ⟨rfl, rfl⟩ := h2
  rcases t.events j job h1 with ⟨k1, -, k2⟩ | ⟨k1, -, k2⟩
  · refine ⟨[], ?_, fun h => absurd h k1, fun _ => rfl⟩
    rw [k2, List.append_nil]
    have := C57_standard ((reached (srvTrace env (srvStart env files dirs) h) j).map progressEvent)
    rw [List.flatMap_def, List.map_map] at this
    exact this
  · refine ⟨_, ?_, fun _ => rfl, fun h => absurd k1 h⟩
    rw [k2, ← h3]
    have := C57_standard ((reached (srvTrace env (srvStart env files dirs) h) j).map progressEvent ++ [completedEvent job.hash])
    rw [List.flatMap_def, List.map_append, List.map_map] at this
    exact this

/-- **C73**, as long as the pieces of the response which the browser hands to the page are made of complete events: once the upload
is completed, both bars are full, and at the end of the response the browser is led to the report for the checksum of the document
sent, which the server has. Without the condition this is false. -/
theorem C73_report_partial (hf : ∀ f, files f ≠ none → f.dir ∈ dirs) (j : Nat) (dir name content : Str)
    (hj : (SrvEv.post dir (some (name, content)) true, SrvResp.stream j) ∈ srvTrace env (srvStart env files dirs) h)
    (hfin : Finished (srvTrace env (srvStart env files dirs) h) j)
    (chunks : List (List Str)) (hc : chunks.flatten = sent (srvTrace env (srvStart env files dirs) h) j) :
    let page := formRun 200 (chunks.map List.flatten) .done
    page.location = some (some (.str (c!"/report/" ++ md5sum env.hasher content chunkBytes))) ∧
    page.html = barAt 100 100 ∧ page.json = barAt 100 100 ∧
    ∃ text, (srvStep env (srvRun env (srvStart env files dirs) h) (.getReport (md5sum env.hasher content chunkBytes))).2 = .page text := by
  have t := einv_history env files dirs h
  obtain ⟨job, n, c, h1, h2, h3⟩ := t.posts _ _ _ _ hj
  simp only [Option.some.injEq, Prod.mk.injEq] at h2
  obtain ⟨rfl, rfl⟩ := h2
  rcases t.events j job h1 with ⟨k1, -⟩ | ⟨-, -, k2⟩
  · exact absurd hfin k1
  · have hval : chunks.flatten = ((reached (srvTrace env (srvStart env files dirs) h) j).map progressEvent ++
        [completedEvent job.hash]).map jsonToSse := by
      rw [hc, k2, List.map_append, List.map_map]; rfl
    obtain ⟨cs, e1, e2⟩ := chunks_values _ _ hval
    have hcomp : Completed (srvTrace env (srvStart env files dirs) h) (md5sum env.hasher content chunkBytes) := by
      obtain ⟨s, hs⟩ := hfin
      obtain ⟨hash, rfl⟩ := finish_event hs
      have ht : jsonToSse (completedEvent hash) ∈ sent (srvTrace env (srvStart env files dirs) h) j := by
        rw [sent, List.mem_filterMap]
        exact ⟨_, hs, by simp [sentBy]⟩
      rw [k2, List.mem_append, List.mem_map, List.mem_singleton] at ht
      rcases ht with ⟨p, -, hp⟩ | ht
      · exact absurd hp (progress_ne p hash)
      · rw [← h3, ← completedEvent_inj ht]
        exact ⟨j, hs⟩
    obtain ⟨jt, ht, -, -, g3⟩ := C60_available env files dirs hf h _ hcomp
    intro page
    have hp : page = ⟨false, barAt 100 100, barAt 100 100, some (.str (c!"/report/" ++ job.hash)),
        some (some (.str (c!"/report/" ++ job.hash)))⟩ := by
      change formRun 200 (chunks.map List.flatten) .done = _
      rw [formRun_ok, if_pos rfl, e2, formChunks_events, e1, List.foldl_append, form_progress, List.foldl_cons, List.foldl_nil,
        formMsg_completed]
    rw [hp]
    exact ⟨by rw [h3], rfl, rfl, jt, g3⟩

/-- **C73**, under the same condition: as long as the upload is not completed, the page shows just the progress of which it has
read, the first bar being full as soon as the second stage has begun, and the browser is led nowhere. -/
theorem C73_progress_partial (j : Nat) (dir name content : Str)
    (hj : (SrvEv.post dir (some (name, content)) true, SrvResp.stream j) ∈ srvTrace env (srvStart env files dirs) h)
    (hfin : ¬ Finished (srvTrace env (srvStart env files dirs) h) j)
    (chunks : List (List Str)) (hc : chunks.flatten <+: sent (srvTrace env (srvStart env files dirs) h) j) :
    let page := formRun 200 (chunks.map List.flatten) .pending
    let read := (reached (srvTrace env (srvStart env files dirs) h) j).take chunks.flatten.length
    read.length = chunks.flatten.length ∧
    page.processing = true ∧ page.html = htmlBar read ∧ page.json = jsonBar read ∧ page.location = none := by
  have t := einv_history env files dirs h
  obtain ⟨job, n, c, h1, h2, h3⟩ := t.posts _ _ _ _ hj
  rcases t.events j job h1 with ⟨-, -, k2⟩ | ⟨k1, -⟩
  · have hl := hc.length_le
    rw [k2, List.length_map] at hl
    have hval : chunks.flatten = ((((reached (srvTrace env (srvStart env files dirs) h) j).take chunks.flatten.length).map
        progressEvent)).map jsonToSse := by
      conv_lhs => rw [List.prefix_iff_eq_take.1 hc, k2]
      rw [List.map_map, List.map_take]; rfl
    obtain ⟨cs, e1, e2⟩ := chunks_values _ _ hval
    intro page read
    have hp : page = ⟨true, htmlBar read, jsonBar read, none, none⟩ := by
      change formRun 200 (chunks.map List.flatten) .pending = _
      rw [formRun_ok, if_neg (by decide), e2, formChunks_events, e1, form_progress]
    rw [hp]
    exact ⟨by rw [List.length_take]; omega, rfl, rfl, rfl, rfl⟩
  · exact absurd k1 hfin

/-- **C73** is false of uploads which are not completed: when the response ends, for whatever reason, the browser is led to the
address `null`. If the connection breaks instead, or the status is none of success, the user is told nothing: the page is the same as if
nothing had happened. -/
theorem C73_failure_false (j : Nat) (dir name content : Str)
    (hj : (SrvEv.post dir (some (name, content)) true, SrvResp.stream j) ∈ srvTrace env (srvStart env files dirs) h)
    (hfin : ¬ Finished (srvTrace env (srvStart env files dirs) h) j)
    (chunks : List (List Str)) (hc : chunks.flatten = sent (srvTrace env (srvStart env files dirs) h) j) :
    (formRun 200 (chunks.map List.flatten) .done).location = some none ∧
    formRun 200 (chunks.map List.flatten) .broken = formRun 200 (chunks.map List.flatten) .pending ∧
    ∀ status, status < 200 ∨ 299 < status → ∀ body fin, formRun status body fin = ⟨false, barAt 0 100, barAt 0 100, none, none⟩ := by
  have t := einv_history env files dirs h
  obtain ⟨job, n, c, h1, h2, h3⟩ := t.posts _ _ _ _ hj
  rcases t.events j job h1 with ⟨-, -, k2⟩ | ⟨k1, -⟩
  · have hval : chunks.flatten = ((reached (srvTrace env (srvStart env files dirs) h) j).map progressEvent).map jsonToSse := by
      rw [hc, k2, List.map_map]; rfl
    obtain ⟨cs, e1, e2⟩ := chunks_values _ _ hval
    refine ⟨?_, rfl, ?_⟩
    · rw [formRun_ok, if_pos rfl, e2, formChunks_events, e1, form_progress]
    · intro status hs body fin
      rw [formRun, if_neg (by omega)]
      rfl
  · exact absurd k1 hfin

end

/-- The hypotheses: of the uploads of `srvHistory` the first is completed, after progress, and the second fails. -/
example : letI := Uni.ascii
    let tr := srvTrace srvEnv (srvStart srvEnv srvFiles srvDirs) srvHistory
    tr.map (·.2) = SrvResp.stream 0 :: (tr.map (·.2)).tail ∧
    sent tr 0 = [jsonToSse (progressEvent ⟨c!"json", 0, 3⟩), jsonToSse (completedEvent c!"one")] ∧
    sent tr 1 = [jsonToSse (progressEvent ⟨c!"html", 0, 1⟩)] ∧ reached tr 0 = [⟨c!"json", 0, 3⟩] := by
  decide +kernel

omit [Uni] in
/-- **C73** is false if an event is handed to the page in two pieces: then it is lost, and the browser is led to the address `null`
although the upload is completed and the response is whole. -/
theorem C73_split_false : letI := Uni.ascii
    let tr := srvTrace srvEnv (srvStart srvEnv srvFiles srvDirs) srvHistory
    let body := (sent tr 0).flatten
    (sent tr 0).getLast? = some (jsonToSse (completedEvent c!"one")) ∧
    (formRun 200 [body] .done).location = some (some (.str c!"/report/one")) ∧
    (formRun 200 [body.take 100, body.drop 100] .done).location = some none := by
  let _ := Uni.ascii
  refine ⟨by decide +kernel, ?_, ?_⟩
  · have h : ((formRun 200 [(sent (srvTrace srvEnv (srvStart srvEnv srvFiles srvDirs) srvHistory) 0).flatten] .done).location.map
        fun l => l.bind jsonStr) = some (some c!"/report/one") := by decide +kernel
    rw [Option.map_eq_some_iff] at h
    obtain ⟨l, h1, h2⟩ := h
    rw [Option.bind_eq_some_iff] at h2
    obtain ⟨v, rfl, h3⟩ := h2
    rw [h1]
    cases v <;> simp only [jsonStr, reduceCtorEq, Option.some.injEq] at h3
    rw [h3]
  · have h : ((formRun 200 [(sent (srvTrace srvEnv (srvStart srvEnv srvFiles srvDirs) srvHistory) 0).flatten.take 100,
        (sent (srvTrace srvEnv (srvStart srvEnv srvFiles srvDirs) srvHistory) 0).flatten.drop 100] .done).location.map
        Option.isNone) = some true := by decide +kernel
    rw [Option.map_eq_some_iff] at h
    obtain ⟨l, h1, h2⟩ := h
    rw [h1, Option.isNone_iff_eq_none.1 h2]

/-- Progress of both stages: what the bars show. -/
example : (htmlBar [⟨c!"html", 0, 7⟩, ⟨c!"html", 3, 7⟩] = barAt 3 7) ∧ htmlBar [⟨c!"html", 3, 7⟩, ⟨c!"json", 1, 9⟩] = barAt 100 100 ∧
    jsonBar [⟨c!"html", 3, 7⟩, ⟨c!"json", 1, 9⟩] = barAt 1 9 := ⟨rfl, rfl, rfl⟩

/-! ### C74 -/

/-- **C74** What an upload is answered: without a document it is refused with the status 422, by a client which does not accept
events with the status 400; if the document cannot be stored (there is no directory for it, or its path is that of a directory), the status is 500. In all these cases nothing is stored at all.
(`nothing` stands for a directory which `tempfile` cannot have chosen.) Otherwise the
document is stored in a file, no other file is changed, the answer is a new event stream, and no upload is given the stream of another. -/
theorem C74_answer (env : SrvEnv) (s : Srv) (dir : Str) (doc : Option (Str × Str)) (accept : Bool) :
    let (s', r) := srvStep env s (.post dir doc accept)
    (doc = none → r = .status 422) ∧ (doc ≠ none → accept = false → r = .status 400) ∧
    ((∃ j, r = .stream j) ∨ s' = s) ∧
    (∀ j, r = .stream j → s.jobs[j]? = none ∧ (∃ job, s'.jobs[j]? = some job ∧ job.dir = dir ∧ job.st = .created ∧
        s'.files job.spec = doc.map (·.2) ∧ (∀ p, p ≠ job.spec → s'.files p = s.files p) ∧
        job.spec.dir ∈ s'.dirs ∧ job.spec.dir ++ c!"/" ++ job.spec.name ∉ s'.dirs) ∧
      (∀ i, i ≠ j → s'.jobs[i]? = s.jobs[i]?) ∧ s'.lookup = s.lookup ∧ dir ∉ s.dirs ∧ s'.dirs = dir :: s.dirs) ∧
    (doc ≠ none → accept = true → r = .status 500 ∨ (∃ j, r = .stream j) ∨ r = .nothing) := by
  rw [srvStep]
  unfold postSpec
  cases doc with
  | none => simp
  | some d =>
    obtain ⟨name, content⟩ := d
    simp only
    cases accept with
    | false => simp
    | true =>
      rw [if_neg (by simp)]
      split
      · simp
      · next hd =>
        rw [not_or] at hd
        split
        · simp
        · split
          · next hp =>
            refine ⟨by simp, by simp, .inl ⟨_, rfl⟩, ?_, fun _ _ => .inr (.inl ⟨_, rfl⟩)⟩
            rintro j hj
            injection hj with hj
            subst hj
            refine ⟨by simp, ⟨⟨dir, _, md5sum env.hasher content chunkBytes, .created⟩, by simp, rfl, rfl, ?_, ?_, hp.1, ?_⟩, ?_, rfl, hd.1, rfl⟩
            · simp [Files.set]
            · intro q hq
              simp only [Files.set]
              rw [if_neg hq]
            · have := hp.2
              simpa [FPath.full] using this
            intro i hi
            rcases Nat.lt_or_gt_of_ne hi with h | h
            · rw [List.getElem?_append_left h]
            · rw [List.getElem?_append_right (by omega), List.getElem?_eq_none (by simp; omega), List.getElem?_eq_none (by omega)]
          · simp

/-- Uploads answered in each of these ways. -/
example : letI := Uni.ascii
    ([.post c!"/tmp/u1" none true, .post c!"/tmp/u1" (some (c!"a.docx", c!"one")) false,
      .post c!"/tmp/u1" (some (c!"x/a.docx", c!"one")) true, .post c!"/tmp/u1" (some (c!"a.docx", c!"one")) true].map fun e =>
        (srvStep srvEnv (srvStart srvEnv srvFiles srvDirs) e).2) = [.status 422, .status 400, .status 500, .stream 0] := by
  decide +kernel

end Spex
