import Verif.Lemmas.Server
import Verif.Props.Events
import Verif.Model.Ascii
/-
C55, C56, C59, C60: uploads, their event streams and the cache of reports.
-/
set_option autoImplicit false
namespace Spex
variable [Uni]

/-! ### Specification -/

/-- what was asked of the server and what was seen, in order -/
def srvTrace (env : SrvEnv) : Srv → List SrvEv → List (SrvEv × SrvResp)
  | _, [] => []
  | s, e :: es => (e, (srvStep env s e).2) :: srvTrace env (srvStep env s e).1 es

omit [Uni] in
/-- this happens to the event stream of upload `j` -/
def SrvEv.about (j : Nat) : SrvEv → Prop
  | .progress i _ => i = j
  | .finish i => i = j
  | .resume i => i = j
  | .close i => i = j
  | .collect i => i = j
  | _ => False

/-- upload `j` was accepted, and works in the directory `dir` -/
def Opened (tr : List (SrvEv × SrvResp)) (j : Nat) (dir : Str) : Prop := ∃ doc, (SrvEv.post dir (some doc) true, SrvResp.stream j) ∈ tr

/-- the event stream of upload `j` has ended, whether in success, with an exception, or as the client has gone -/
def Ended (tr : List (SrvEv × SrvResp)) (j : Nat) : Prop := ∃ x ∈ tr, x.1.about j ∧ (x.2 = .ended ∨ x.2 = .failed)

/-- nothing was ever read from the event stream of upload `j`: neither an event nor an exception -/
def NeverRead (tr : List (SrvEv × SrvResp)) (j : Nat) : Prop := ∀ x ∈ tr, x.1.about j → x.2 ≠ .failed ∧ ∀ s, x.2 ≠ .event s

/-- some upload was completed, and its report announced under this hash -/
def Completed (tr : List (SrvEv × SrvResp)) (hash : Str) : Prop :=
  ∃ j, (SrvEv.finish j, SrvResp.event (jsonToSse (completedEvent hash))) ∈ tr

/-- the documents sent to the server, by name and content -/
def posted : List SrvEv → List (Str × Str)
  | [] => []
  | .post _ (some doc) _ :: es => doc :: posted es
  | _ :: es => posted es

/-- the command, run on a document which is alone in a directory, with `--skip-figure-on-error` and the output in the same directory -/
def runAlone (t : Tools) (name content : Str) : Files × Except Exn FPath :=
  runSpec t ⟨[], true, [], false⟩ (fun f => if f = ⟨[], name⟩ then some content else none) ⟨[], name⟩

/-- the JSON text made of a document -/
def jsonReport (t : Tools) (name content : Str) : Option Str :=
  match runAlone t name content with
  | (w, .ok p) => w p
  | _ => none

/-- the HTML text made of a document: the file next to the JSON file, with another suffix -/
def htmlReport (t : Tools) (name content : Str) : Option Str :=
  match runAlone t name content with
  | (w, .ok p) => w ⟨p.dir, withSuffix p.name c!".html"⟩
  | _ => none

omit [Uni] in
/-- the name of a file in a directory -/
def PlainName (name : Str) : Prop := name ≠ [] ∧ '/' ∉ name ∧ name ≠ c!"." ∧ name ≠ c!".."

/-! ### The history of the event streams -/

omit [Uni] in
theorem lookupGet_some {d : List (Str × FPath)} {k : Str} {p : FPath} (h : lookupGet d k = some p) : (k, p) ∈ d := by
  rw [lookupGet, Option.map_eq_some_iff] at h
  obtain ⟨e, he, rfl⟩ := h
  have := List.find?_some he
  simp only [decide_eq_true_eq] at this
  rw [← this]; exact List.mem_of_find?_eq_some he

omit [Uni] in
theorem lookupGet_none {d : List (Str × FPath)} {k : Str} (h : lookupGet d k = none) (p : FPath) : (k, p) ∉ d := by
  rw [lookupGet, Option.map_eq_none_iff, List.find?_eq_none] at h
  intro hm; exact h _ hm (by simp)

omit [Uni] in
theorem lookupSet_self (k : Str) (v : FPath) : ∀ d, (k, v) ∈ lookupSet k v d
  | [] => by simp [lookupSet]
  | (k', v') :: d => by
    rw [lookupSet]
    split
    · exact List.mem_cons_self
    · exact List.mem_cons_of_mem _ (lookupSet_self k v d)

omit [Uni] in
theorem lookupSet_keeps (k : Str) (v : FPath) {k0 : Str} : ∀ {d : List (Str × FPath)}, (∃ p, (k0, p) ∈ d) → ∃ p, (k0, p) ∈ lookupSet k v d
  | [], ⟨p, h⟩ => by simp at h
  | (k', v') :: d, ⟨p, h⟩ => by
    rw [lookupSet]
    by_cases hk : k' = k
    · rw [if_pos hk]
      rcases List.mem_cons.1 h with h | h
      · injection h with h1 h2
        exact ⟨v, by rw [h1, hk]; exact List.mem_cons_self⟩
      · exact ⟨p, List.mem_cons_of_mem _ h⟩
    · rw [if_neg hk]
      rcases List.mem_cons.1 h with h | h
      · exact ⟨p, h ▸ List.mem_cons_self⟩
      · obtain ⟨q, hq⟩ := lookupSet_keeps k v ⟨p, h⟩
        exact ⟨q, List.mem_cons_of_mem _ hq⟩

/-- what the history tells about the uploads -/
structure TInv (s : Srv) (tr : List (SrvEv × SrvResp)) : Prop where
  opened : ∀ (j : Nat) (job : Job), s.jobs[j]? = some job → Opened tr j job.dir
  ended : ∀ (j : Nat) (job : Job), s.jobs[j]? = some job → Ended tr j → job.st = .over ∨ job.st = .dropped
  unread : ∀ (j : Nat) (job : Job), s.jobs[j]? = some job → job.st = .created ∨ job.st = .dropped → NeverRead tr j
  known : ∀ x ∈ tr, ∀ j : Nat, x.1.about j → x.2 ≠ .nothing → j < s.jobs.length
  keys : ∀ hash, Completed tr hash ↔ ∃ p, (hash, p) ∈ s.lookup

section
omit [Uni]
variable {s : Srv} {tr : List (SrvEv × SrvResp)}

theorem completed_snoc (x : SrvEv × SrvResp) (hash : Str) :
    Completed (tr ++ [x]) hash ↔ Completed tr hash ∨ ∃ j, x = (SrvEv.finish j, SrvResp.event (jsonToSse (completedEvent hash))) := by
  constructor
  · rintro ⟨j, h⟩
    rcases List.mem_append.1 h with h | h
    · exact .inl ⟨j, h⟩
    · exact .inr ⟨j, (List.mem_singleton.1 h).symm⟩
  · rintro (⟨j, h⟩ | ⟨j, rfl⟩)
    · exact ⟨j, List.mem_append_left _ h⟩
    · exact ⟨j, by simp⟩

/-- a step which concerns no upload, or does nothing -/
theorem tinv_same (t : TInv s tr) (x : SrvEv × SrvResp) (s' : Srv) (h : (∀ j, ¬ x.1.about j) ∨ x.2 = .nothing)
    (hj : s'.jobs = s.jobs) (hl : s'.lookup = s.lookup) : TInv s' (tr ++ [x]) := by
  refine ⟨?_, ?_, ?_, ?_, ?_⟩
  · intro j job hjob
    rw [hj] at hjob
    obtain ⟨doc, h⟩ := t.opened j job hjob
    exact ⟨doc, List.mem_append_left _ h⟩
  · rintro j job hjob ⟨y, hy, ha, hr⟩
    rw [hj] at hjob
    rcases List.mem_append.1 hy with hy | hy
    · exact t.ended j job hjob ⟨y, hy, ha, hr⟩
    · rw [List.mem_singleton] at hy
      subst hy
      rcases h with h | h
      · exact absurd ha (h j)
      · rw [h] at hr; simp at hr
  · intro j job hjob hst y hy ha
    rw [hj] at hjob
    rcases List.mem_append.1 hy with hy | hy
    · exact t.unread j job hjob hst y hy ha
    · rw [List.mem_singleton] at hy
      subst hy
      rcases h with h | h
      · exact absurd ha (h j)
      · rw [h]; simp
  · intro y hy j ha hn
    rw [hj]
    rcases List.mem_append.1 hy with hy | hy
    · exact t.known y hy j ha hn
    · rw [List.mem_singleton] at hy
      subst hy
      rcases h with h | h
      · exact absurd ha (h j)
      · exact absurd h hn
  · intro hash
    rw [completed_snoc, hl, ← t.keys]
    constructor
    · rintro (h' | ⟨j, rfl⟩)
      · exact h'
      · rcases h with h | h
        · exact absurd rfl (h j)
        · simp at h
    · exact .inl

/-- an upload is accepted -/
theorem tinv_add (t : TInv s tr) (dir : Str) (doc : Str × Str) (p : FPath) (hash : Str) (s' : Srv)
    (hj : s'.jobs = s.jobs ++ [⟨dir, p, hash, .created⟩]) (hl : s'.lookup = s.lookup) :
    TInv s' (tr ++ [(.post dir (some doc) true, .stream s.jobs.length)]) := by
  have key : ∀ (i : Nat) (a : Job), s'.jobs[i]? = some a →
      s.jobs[i]? = some a ∨ (i = s.jobs.length ∧ a = ⟨dir, p, hash, .created⟩) := by
    intro i a h
    rw [hj] at h
    rcases Nat.lt_or_ge i s.jobs.length with hi | hi
    · rw [List.getElem?_append_left hi] at h; exact .inl h
    · rw [List.getElem?_append_right hi, List.getElem?_singleton] at h
      split at h
      · injection h with h; exact .inr ⟨by omega, h.symm⟩
      · simp at h
  have hno : ∀ y ∈ tr ++ [(SrvEv.post dir (some doc) true, SrvResp.stream s.jobs.length)], ∀ j, y.1.about j → y ∈ tr := by
    intro y hy j ha
    rcases List.mem_append.1 hy with hy | hy
    · exact hy
    · rw [List.mem_singleton] at hy; subst hy; exact absurd ha id
  refine ⟨?_, ?_, ?_, ?_, ?_⟩
  · intro j job hjob
    rcases key j job hjob with h | ⟨rfl, rfl⟩
    · obtain ⟨d, h⟩ := t.opened j job h
      exact ⟨d, List.mem_append_left _ h⟩
    · exact ⟨doc, by simp⟩
  · rintro j job hjob ⟨y, hy, ha, hr⟩
    have hy := hno y hy j ha
    rcases key j job hjob with h | ⟨rfl, rfl⟩
    · exact t.ended j job h ⟨y, hy, ha, hr⟩
    · exact absurd (t.known y hy _ ha (by rcases hr with h | h <;> rw [h] <;> simp)) (Nat.lt_irrefl _)
  · intro j job hjob hst y hy ha
    have hy := hno y hy j ha
    rcases key j job hjob with h | ⟨rfl, rfl⟩
    · exact t.unread j job h hst y hy ha
    · exact ⟨fun hr => absurd (t.known y hy _ ha (by rw [hr]; simp)) (Nat.lt_irrefl _),
        fun r hr => absurd (t.known y hy _ ha (by rw [hr]; simp)) (Nat.lt_irrefl _)⟩
  · intro y hy j ha hn
    rw [hj, List.length_append]
    exact Nat.lt_add_right _ (t.known y (hno y hy j ha) j ha hn)
  · intro h
    rw [completed_snoc, hl, ← t.keys]
    constructor
    · rintro (h' | ⟨j, h'⟩)
      · exact h'
      · simp at h'
    · exact .inl

/-- the stream of an upload is read or closed -/
theorem tinv_set (t : TInv s tr) {j : Nat} {job : Job} (hjob : s.jobs[j]? = some job) (e : SrvEv) (r : SrvResp) (st : JobSt) (s' : Srv)
    (ha : ∀ i, e.about i ↔ i = j) (hj : s'.jobs = s.jobs.set j { job with st := st })
    (h1 : r = .ended ∨ r = .failed → st = .over ∨ st = .dropped) (h2 : job.st = .over ∨ job.st = .dropped → st = .over ∨ st = .dropped)
    (h3 : st = .created ∨ st = .dropped → (job.st = .created ∨ job.st = .dropped) ∧ r ≠ .failed ∧ ∀ x, r ≠ .event x)
    (hk : ∀ hash, Completed (tr ++ [(e, r)]) hash ↔ ∃ p, (hash, p) ∈ s'.lookup) : TInv s' (tr ++ [(e, r)]) := by
  have hlt := job_lt hjob
  have key : ∀ (i : Nat) (a : Job), s'.jobs[i]? = some a → (i ≠ j ∧ s.jobs[i]? = some a) ∨ (i = j ∧ a = { job with st := st }) := by
    intro i a h
    rw [hj, List.getElem?_set] at h
    by_cases hi : j = i
    · subst hi; rw [if_pos rfl, if_pos hlt] at h; injection h with h; exact .inr ⟨rfl, h.symm⟩
    · rw [if_neg hi] at h; exact .inl ⟨fun h => hi h.symm, h⟩
  have hsplit : ∀ y ∈ tr ++ [(e, r)], y ∈ tr ∨ y = (e, r) := by
    intro y hy
    rcases List.mem_append.1 hy with hy | hy
    · exact .inl hy
    · exact .inr (List.mem_singleton.1 hy)
  refine ⟨?_, ?_, ?_, ?_, hk⟩
  · intro i a h
    rcases key i a h with ⟨-, h⟩ | ⟨rfl, rfl⟩
    · obtain ⟨d, h⟩ := t.opened i a h; exact ⟨d, List.mem_append_left _ h⟩
    · obtain ⟨d, h⟩ := t.opened i job hjob; exact ⟨d, List.mem_append_left _ h⟩
  · rintro i a h ⟨y, hy, hya, hr⟩
    rcases key i a h with ⟨hi, h⟩ | ⟨rfl, rfl⟩
    · rcases hsplit y hy with hy | rfl
      · exact t.ended i a h ⟨y, hy, hya, hr⟩
      · exact absurd ((ha i).1 hya) hi
    · rcases hsplit y hy with hy | rfl
      · exact h2 (t.ended i job hjob ⟨y, hy, hya, hr⟩)
      · exact h1 hr
  · intro i a h hst y hy hya
    rcases key i a h with ⟨hi, h⟩ | ⟨rfl, rfl⟩
    · rcases hsplit y hy with hy | rfl
      · exact t.unread i a h hst y hy hya
      · exact absurd ((ha i).1 hya) hi
    · rcases hsplit y hy with hy | rfl
      · exact t.unread i job hjob (h3 hst).1 y hy hya
      · exact (h3 hst).2
  · intro y hy i hya hn
    rw [hj, List.length_set]
    rcases hsplit y hy with hy | rfl
    · exact t.known y hy i hya hn
    · rw [(ha i).1 hya]; exact hlt

theorem keys_same (t : TInv s tr) (e : SrvEv) (r : SrvResp) (h : ∀ j, e ≠ .finish j) (s' : Srv) (hl : s'.lookup = s.lookup) (hash : Str) :
    Completed (tr ++ [(e, r)]) hash ↔ ∃ p, (hash, p) ∈ s'.lookup := by
  rw [completed_snoc, hl, ← t.keys]
  constructor
  · rintro (h' | ⟨j, h'⟩)
    · exact h'
    · injection h' with h' _; exact absurd h' (h j)
  · exact .inl

/-- the completion event tells the hash -/
theorem completedEvent_inj {a b : Str} (h : jsonToSse (completedEvent a) = jsonToSse (completedEvent b)) : a = b := by
  have h' : (List.flatMap jsonToSse [completedEvent a]) = List.flatMap jsonToSse [completedEvent b] := by simpa using h
  have h1 := C57_client [[completedEvent a]]
  have h2 := C57_client [[completedEvent b]]
  simp only [List.flatMap_cons, List.flatMap_nil, List.append_nil, List.flatten_cons, List.flatten_nil] at h1 h2
  rw [h, h2] at h1
  injection h1 with h1 _
  simp only [completedEvent, Json.obj.injEq, List.cons.injEq, Prod.mk.injEq, Json.str.injEq, and_true, true_and, reportUrl] at h1
  exact (List.append_cancel_left h1).symm
end

theorem tinv_step (env : SrvEnv) {s : Srv} {tr : List (SrvEv × SrvResp)} (t : TInv s tr) (e : SrvEv) :
    TInv (srvStep env s e).1 (tr ++ [(e, (srvStep env s e).2)]) := by
  cases e with
  | post dir doc accept =>
    rw [srvStep]
    unfold postSpec
    split
    · exact tinv_same t _ _ (.inl fun _ h => h) rfl rfl
    · split
      · exact tinv_same t _ _ (.inl fun _ h => h) rfl rfl
      · next hacc =>
        split
        · exact tinv_same t _ _ (.inl fun _ h => h) rfl rfl
        · split
          · exact tinv_same t _ _ (.inl fun _ h => h) rfl rfl
          · split
            · rw [Bool.not_eq_false] at hacc
              subst hacc
              exact tinv_add t _ _ _ _ _ rfl rfl
            · exact tinv_same t _ _ (.inl fun _ h => h) rfl rfl
  | progress j p =>
    rw [srvStep]
    split
    · exact tinv_same t _ _ (.inr rfl) rfl rfl
    · next job hj =>
      split
      · next h =>
        exact tinv_set t hj _ _ .running _ (fun i => eq_comm) rfl (by simp) (by rcases h with h | h <;> rw [h] <;> simp) (by simp)
          (keys_same t _ _ (by simp) _ rfl)
      · exact tinv_same t _ _ (.inr rfl) rfl rfl
  | finish j =>
    rw [srvStep]
    split
    · exact tinv_same t _ _ (.inr rfl) rfl rfl
    · next job hj =>
      split
      · next h =>
        have hst : ¬ (job.st = .over ∨ job.st = .dropped) := by rcases h with h | h <;> rw [h] <;> simp
        have hfail : ∀ s' : Srv, s'.jobs = s.jobs.set j { job with st := .over } → s'.lookup = s.lookup →
            TInv s' (tr ++ [(.finish j, .failed)]) := by
          intro s' h1 h2
          refine tinv_set t hj _ _ .over _ (fun i => eq_comm) h1 (by simp) (by simp) (by simp) ?_
          intro hash
          rw [completed_snoc, h2, ← t.keys]
          constructor
          · rintro (h' | ⟨j, h'⟩)
            · exact h'
            · simp at h'
          · exact .inl
        generalize hr : runSpec env.tools (srvOpts job.dir) s.files job.spec = wr
        obtain ⟨w, r⟩ := wr
        rcases finishJob_cases env s j job w r hr with ⟨-, h⟩ | ⟨n, jt, -, -, -, ⟨-, h⟩ | ⟨ht, -, h⟩⟩
        · rw [h]; exact hfail _ rfl rfl
        · rw [h]; exact hfail _ rfl rfl
        · rw [h]
          refine tinv_set t hj _ _ .completed _ (fun i => eq_comm) rfl (by simp) (fun h => absurd h hst) (by simp) ?_
          intro hash
          rw [completed_snoc, t.keys]
          change _ ↔ ∃ p, (hash, p) ∈ lookupSet job.hash ⟨env.cache, n⟩ s.lookup
          constructor
          · rintro (h' | ⟨i, h'⟩)
            · exact lookupSet_keeps _ _ h'
            · simp only [Prod.mk.injEq, SrvResp.event.injEq] at h'
              rw [← completedEvent_inj h'.2]
              exact ⟨_, lookupSet_self _ _ _⟩
          · rintro ⟨p, hp⟩
            rcases mem_lookupSet hp with hp | hp
            · injection hp with hp _
              rw [hp]; exact .inr ⟨j, rfl⟩
            · exact .inl ⟨p, hp⟩
      · exact tinv_same t _ _ (.inr rfl) rfl rfl
  | resume j =>
    rw [srvStep]
    split
    · exact tinv_same t _ _ (.inr rfl) rfl rfl
    · next job hj =>
      split
      · exact tinv_set t hj _ _ .over _ (fun i => eq_comm) rfl (by simp) (by simp) (by simp) (keys_same t _ _ (by simp) _ rfl)
      · exact tinv_same t _ _ (.inr rfl) rfl rfl
  | close j =>
    rw [srvStep]
    split
    · exact tinv_same t _ _ (.inr rfl) rfl rfl
    · next job hj =>
      split
      · next h =>
        exact tinv_set t hj _ _ .dropped _ (fun i => eq_comm) rfl (by simp) (by simp) (by simp [h]) (keys_same t _ _ (by simp) _ rfl)
      · split
        · exact tinv_set t hj _ _ .over _ (fun i => eq_comm) rfl (by simp) (by simp) (by simp) (keys_same t _ _ (by simp) _ rfl)
        · exact tinv_same t _ _ (.inr rfl) rfl rfl
  | collect j =>
    rw [srvStep]
    split
    · exact tinv_same t _ _ (.inr rfl) rfl rfl
    · next job hj =>
      split
      · exact tinv_set t hj _ _ .over _ (fun i => eq_comm) rfl (by simp) (by simp) (by simp) (keys_same t _ _ (by simp) _ rfl)
      · exact tinv_same t _ _ (.inr rfl) rfl rfl
  | getJson hash =>
    rw [srvStep]; repeat' split
    all_goals exact tinv_same t _ _ (.inl fun _ h => h) rfl rfl
  | getHtml hash =>
    rw [srvStep]; repeat' split
    all_goals exact tinv_same t _ _ (.inl fun _ h => h) rfl rfl
  | getReport hash =>
    rw [srvStep]; repeat' split
    all_goals exact tinv_same t _ _ (.inl fun _ h => h) rfl rfl

theorem tinv_run (env : SrvEnv) {s : Srv} {tr : List (SrvEv × SrvResp)} (t : TInv s tr) (h : List SrvEv) :
    TInv (srvRun env s h) (tr ++ srvTrace env s h) := by
  induction h generalizing s tr with
  | nil => rw [srvTrace, List.append_nil]; exact t
  | cons e es ih =>
    have := ih (tinv_step env t e)
    rw [List.append_assoc, List.singleton_append] at this
    exact this

omit [Uni] in
theorem tinv_start (env : SrvEnv) (files : Files) (dirs : List Str) : TInv (srvStart env files dirs) [] :=
  ⟨by simp [srvStart], by simp [srvStart], by simp [srvStart], by simp, fun hash => by simp [srvStart, Completed]⟩

/-! ### C60 -/

/-- **C60** At any time, whatever has been asked of the server: every directory beyond those which existed at its start is that of
an upload whose event stream has not ended, or of one of whose stream nothing was ever read. So once the stream of an upload has
ended, in success, in error or as the client has gone, nothing of it remains; all files are in existing directories. -/
theorem C60_removed (env : SrvEnv) (files : Files) (dirs : List Str) (hf : ∀ f, files f ≠ none → f.dir ∈ dirs) (h : List SrvEv) :
    (∀ d ∈ (srvRun env (srvStart env files dirs) h).dirs, d = env.cache ∨ d ∈ dirs ∨
      ∃ j, Opened (srvTrace env (srvStart env files dirs) h) j d ∧
        (¬ Ended (srvTrace env (srvStart env files dirs) h) j ∨ NeverRead (srvTrace env (srvStart env files dirs) h) j)) ∧
    ∀ f, (srvRun env (srvStart env files dirs) h).files f ≠ none → f.dir ∈ (srvRun env (srvStart env files dirs) h).dirs := by
  have g := ginv_run env (ginv_start env files dirs hf) h
  have t := tinv_run env (tinv_start env files dirs) h
  rw [List.nil_append] at t
  refine ⟨?_, g.files_dirs⟩
  intro d hd
  rcases g.dirs_from d hd with h | ⟨j, job, h1, h2, rfl⟩
  · rcases List.mem_cons.1 h with h | h
    · exact .inl h
    · exact .inr (.inl h)
  · refine .inr (.inr ⟨j, t.opened j job h1, ?_⟩)
    by_cases he : Ended (srvTrace env (srvStart env files dirs) h) j
    · rcases t.ended j job h1 he with h' | h'
      · exact absurd h' h2
      · exact .inr (t.unread j job h1 (.inr h'))
    · exact .inl he

/-- **C60** The report of a completed upload remains available, whatever is asked of the server afterwards. -/
theorem C60_available (env : SrvEnv) (files : Files) (dirs : List Str) (hf : ∀ f, files f ≠ none → f.dir ∈ dirs) (h : List SrvEv)
    (hash : Str) (hc : Completed (srvTrace env (srvStart env files dirs) h) hash) :
    ∃ jt ht, (srvStep env (srvRun env (srvStart env files dirs) h) (.getJson hash)).2 = .text jt ∧
      (srvStep env (srvRun env (srvStart env files dirs) h) (.getHtml hash)).2 = .text ht ∧
      (srvStep env (srvRun env (srvStart env files dirs) h) (.getReport hash)).2 = .page jt := by
  have g := ginv_run env (ginv_start env files dirs hf) h
  have t := tinv_run env (tinv_start env files dirs) h
  rw [List.nil_append] at t
  obtain ⟨p, hp⟩ := (t.keys hash).1 hc
  cases hq : lookupGet (srvRun env (srvStart env files dirs) h).lookup hash with
  | none => exact absurd hp (lookupGet_none hq p)
  | some q =>
    obtain ⟨h1, h2, h3⟩ := g.cached _ (lookupGet_some hq)
    obtain ⟨jt, hjt⟩ := Option.ne_none_iff_exists'.1 h2
    obtain ⟨ht, hht⟩ := Option.ne_none_iff_exists'.1 h3
    have h1 : q.dir = env.cache := h1
    refine ⟨jt, ht, ?_, ?_, ?_⟩
    · simp only [srvStep, hq]; rw [show (srvRun env (srvStart env files dirs) h).files q = some jt from hjt]
    · simp only [srvStep, hq, h1]
      rw [show (srvRun env (srvStart env files dirs) h).files ⟨env.cache, withSuffix q.name c!".html"⟩ = some ht from hht]
    · simp only [srvStep, hq]; rw [show (srvRun env (srvStart env files dirs) h).files q = some jt from hjt]

/-! ### C56 -/

/-- **C56**, what holds of it: nothing is ever served under the hash of a report which was never completed. That the answer has the
status 404 is false. -/
theorem C56_not_served_partial (env : SrvEnv) (files : Files) (dirs : List Str) (h : List SrvEv) (hash : Str)
    (hc : ¬ Completed (srvTrace env (srvStart env files dirs) h) hash) (e : SrvEv)
    (he : e = .getJson hash ∨ e = .getHtml hash ∨ e = .getReport hash) :
    ∃ n, 400 ≤ n ∧ (srvStep env (srvRun env (srvStart env files dirs) h) e).2 = .status n := by
  have t := tinv_run env (tinv_start env files dirs) h
  rw [List.nil_append] at t
  have hq : lookupGet (srvRun env (srvStart env files dirs) h).lookup hash = none := by
    cases hq : lookupGet (srvRun env (srvStart env files dirs) h).lookup hash with
    | none => rfl
    | some q => exact absurd ((t.keys hash).2 ⟨q, lookupGet_some hq⟩) hc
  rcases he with rfl | rfl | rfl <;> exact ⟨500, by decide, by simp only [srvStep, hq]⟩

/-- **C56** is false: whatever the history, the answer for the hash of a report which was never completed is that of an exception
(500), and not 404: `Path(None)` precedes the check. -/
theorem C56_unknown_false (env : SrvEnv) (files : Files) (dirs : List Str) (h : List SrvEv) (hash : Str)
    (hc : ¬ Completed (srvTrace env (srvStart env files dirs) h) hash) :
    (srvStep env (srvRun env (srvStart env files dirs) h) (.getReport hash)).2 = .status 500 := by
  have t := tinv_run env (tinv_start env files dirs) h
  rw [List.nil_append] at t
  cases hq : lookupGet (srvRun env (srvStart env files dirs) h).lookup hash with
  | none => simp only [srvStep, hq]
  | some q => exact absurd ((t.keys hash).2 ⟨q, lookupGet_some hq⟩) hc

/-! ### Uploads with plain file names -/

section
omit [Uni]

theorem resolveParts_append (acc a b : List Str) : resolveParts acc (a ++ b) = resolveParts (resolveParts acc a) b := by
  induction a generalizing acc with
  | nil => rfl
  | cons p ps ih => rw [List.cons_append, resolveParts, resolveParts]; split <;> exact ih _

/-- a plain name stays in the directory -/
theorem destination_plain {dir name : Str} (hd : dir = absPath (resolveParts [] (pathParts dir))) (hn : PlainName name) :
    destination dir name = some ⟨dir, name⟩ := by
  obtain ⟨h1, h2, h3, h4⟩ := hn
  have hh : name.head? ≠ some '/' := by
    cases name with
    | nil => simp
    | cons c s =>
      simp only [List.mem_cons, not_or] at h2
      simp only [List.head?_cons, ne_eq, Option.some.injEq]
      exact fun e => h2.1 e.symm
  have hp : pathParts name = [name] := by
    rw [pathParts, splitOn_plain '/' name h2]
    have : (name ≠ [] && name ≠ c!".") = true := by
      rw [Bool.and_eq_true, decide_eq_true_eq, decide_eq_true_eq]; exact ⟨h1, h3⟩
    rw [List.filter_cons]
    simp only [ne_eq, decide_not, Bool.and_eq_true, Bool.not_eq_eq_eq_not, Bool.not_true, decide_eq_false_iff_not, List.filter_nil]
    rw [if_pos ⟨h1, h3⟩]
  simp only [destination]
  rw [if_neg hh, hp, List.getLast?_concat, List.dropLast_concat, ← hd]
  exact if_neg h4

theorem ne_suffix (a b : Str) : a ++ c!".html" ≠ b ++ c!".json" := by
  intro h
  have := congrArg List.reverse h
  simp only [List.reverse_append] at this
  injection this with h _
  exact absurd h (by decide)

theorem withSuffix_json {b : Str} (hb : b ≠ []) : withSuffix (b ++ c!".json") c!".html" = b ++ c!".html" := by
  have hs : suffix (b ++ c!".json") = c!".json" := suffix_of b c!"json" hb (by decide) (by decide)
  rw [withSuffix, hs]
  simp

theorem baseName_nil {name : Str} (h : baseName name = []) : suffix name = [] := by
  by_contra hs
  cases hx : suffix name with
  | nil => exact hs hx
  | cons c ext =>
    have hc : c = '.' := by
      rw [suffix] at hx
      split at hx
      · split at hx
        · simp at hx
        · injection hx with h _; exact h.symm
      · simp at hx
    subst hc
    obtain ⟨stem, h1, h2⟩ := suffix_inv _ _ hx
    rw [baseName, hx, if_neg (by simp), h2] at h
    simp at h
    exact h1 h
end

/-- the JSON and the HTML file of a document are named after it, if there are both -/
theorem runAlone_base {t : Tools} {name content : Str} {w : Files} {p : FPath} (h : runAlone t name content = (w, .ok p))
    (hh : w ⟨[], withSuffix p.name c!".html"⟩ ≠ none) : baseName name ≠ [] := by
  intro hb
  have hp := (runSpec_name h).1
  have hs := baseName_nil hb
  rw [runAlone, runSpec, if_neg (by rw [hs]; simp), runJson] at h
  injection h with h _
  rw [hp, ← h] at hh
  simp only [hb] at hh
  have e : withSuffix ([] ++ c!".json") c!".html" = c!".json.html" := by decide
  rw [e, Files.set_other _ _ (by simp), Files.set_other _ _ (by simp)] at hh
  split at hh
  · next he =>
    injection he with _ he
    rw [← he] at hs
    exact absurd hs (by decide)
  · exact hh rfl

/-- What holds at all times if all documents sent have plain names; `ps` are these documents. -/
structure PInv (env : SrvEnv) (base : List Str) (files0 : Files) (ps : List (Str × Str)) (s : Srv) : Prop where
  jobs : ∀ (j : Nat) (job : Job), s.jobs[j]? = some job → job.st = .created ∨ job.st = .running →
    ∃ name content, (name, content) ∈ ps ∧ job.spec = ⟨job.dir, name⟩ ∧ job.hash = md5sum env.hasher content chunkBytes ∧
      ∀ n, s.files ⟨job.dir, n⟩ = if n = name then some content else none
  cached : ∀ e ∈ s.lookup, ∃ name content, (name, content) ∈ ps ∧ e.1 = md5sum env.hasher content chunkBytes ∧ baseName name ≠ [] ∧
    e.2 = ⟨env.cache, baseName name ++ c!".json"⟩ ∧
    (∃ name' content' jt, (name', content') ∈ ps ∧ baseName name' = baseName name ∧
      jsonReport env.tools name' content' = some jt ∧ s.files ⟨env.cache, baseName name ++ c!".json"⟩ = some jt) ∧
    ∃ name' content' ht, (name', content') ∈ ps ∧ baseName name' = baseName name ∧
      htmlReport env.tools name' content' = some ht ∧ s.files ⟨env.cache, baseName name ++ c!".html"⟩ = some ht
  outside : ∀ f : FPath, f.dir ∈ base → f.dir ≠ env.cache → s.files f = files0 f

section
variable {env : SrvEnv} {base : List Str} {files0 : Files} {ps : List (Str × Str)} {s : Srv}

/-- an upload changes its state, and files change only in the directory of this upload -/
theorem pinv_stop (g : GInv env.cache base s) (p : PInv env base files0 ps s) {j : Nat} {job : Job} (hj : s.jobs[j]? = some job)
    (hl : job.st ≠ .over) (st : JobSt) (hst : st = .created ∨ st = .running → job.st = .created ∨ job.st = .running) (s' : Srv)
    (hjobs : s'.jobs = s.jobs.set j { job with st := st }) (hlook : s'.lookup = s.lookup)
    (hfiles : ∀ f, (f.dir ≠ job.dir ∨ st = .created ∨ st = .running) → s'.files f = s.files f) : PInv env base files0 ps s' := by
  have hd := g.jobs_dirs j job hj hl
  have hcd : env.cache ≠ job.dir := fun h => hd.2 (h ▸ g.cache_base)
  have hlt := job_lt hj
  refine ⟨?_, ?_, ?_⟩
  · intro i a h ha
    rw [hjobs, List.getElem?_set] at h
    by_cases hi : j = i
    · subst hi
      rw [if_pos rfl, if_pos hlt] at h
      injection h with h
      subst h
      obtain ⟨name, content, h1, h2, h3, h4⟩ := p.jobs j job hj (hst ha)
      exact ⟨name, content, h1, h2, h3, fun n => by rw [hfiles _ (.inr ha)]; exact h4 n⟩
    · rw [if_neg hi] at h
      obtain ⟨name, content, h1, h2, h3, h4⟩ := p.jobs i a h ha
      refine ⟨name, content, h1, h2, h3, fun n => ?_⟩
      rw [hfiles _ (.inl ?_)]
      · exact h4 n
      · intro he
        exact hi (g.jobs_distinct j i job a hj h hl (by rcases ha with h | h <;> rw [h] <;> simp) he.symm)
  · intro e he
    rw [hlook] at he
    have hfc : ∀ n, s'.files ⟨env.cache, n⟩ = s.files ⟨env.cache, n⟩ := fun n => hfiles _ (.inl hcd)
    simp only [hfc]
    exact p.cached e he
  · intro f hf hc
    rw [hfiles f (.inl (fun h => hd.2 (h ▸ hf)))]
    exact p.outside f hf hc
/-- the JSON text of a document is written to the cache -/
theorem pinv_json (g : GInv env.cache base s) (p : PInv env base files0 ps s) {name content jt : Str} (hm : (name, content) ∈ ps)
    (hr : jsonReport env.tools name content = some jt) :
    PInv env base files0 ps { s with files := s.files.set ⟨env.cache, baseName name ++ c!".json"⟩ jt } := by
  refine ⟨?_, ?_, ?_⟩
  · intro i a h ha
    obtain ⟨n, c, h1, h2, h3, h4⟩ := p.jobs i a h ha
    refine ⟨n, c, h1, h2, h3, fun m => ?_⟩
    change Files.set _ _ _ _ = _
    rw [Files.set_other]
    · exact h4 m
    · intro he
      injection he with he _
      have := (g.jobs_dirs i a h (by rcases ha with h | h <;> rw [h] <;> simp)).2
      exact this (he ▸ g.cache_base)
  · intro e he
    obtain ⟨n, c, h1, h2, h3, h4, h5, n', c', ht, h6, h7, h8, h9⟩ := p.cached e he
    refine ⟨n, c, h1, h2, h3, h4, ?_, n', c', ht, h6, h7, h8, ?_⟩
    · by_cases hb : baseName n = baseName name
      · exact ⟨name, content, jt, hm, hb.symm, hr, by rw [hb]; exact Files.set_same _ _ _⟩
      · obtain ⟨n1, c1, jt1, k1, k2, k3, k4⟩ := h5
        refine ⟨n1, c1, jt1, k1, k2, k3, ?_⟩
        change Files.set _ _ _ _ = _
        rw [Files.set_other]
        · exact k4
        · intro he
          injection he with _ he
          exact hb (List.append_cancel_right he)
    · change Files.set _ _ _ _ = _
      rw [Files.set_other]
      · exact h9
      · intro he
        injection he with _ he
        exact ne_suffix _ _ he
  · intro f hf hc
    change Files.set _ _ _ _ = _
    rw [Files.set_other]
    · exact p.outside f hf hc
    · rintro rfl; exact hc rfl

/-- the HTML text of a document is written to the cache -/
theorem pinv_html (g : GInv env.cache base s) (p : PInv env base files0 ps s) {name content ht : Str} (hm : (name, content) ∈ ps)
    (hr : htmlReport env.tools name content = some ht) :
    PInv env base files0 ps { s with files := s.files.set ⟨env.cache, baseName name ++ c!".html"⟩ ht } := by
  refine ⟨?_, ?_, ?_⟩
  · intro i a h ha
    obtain ⟨n, c, h1, h2, h3, h4⟩ := p.jobs i a h ha
    refine ⟨n, c, h1, h2, h3, fun m => ?_⟩
    change Files.set _ _ _ _ = _
    rw [Files.set_other]
    · exact h4 m
    · intro he
      injection he with he _
      have := (g.jobs_dirs i a h (by rcases ha with h | h <;> rw [h] <;> simp)).2
      exact this (he ▸ g.cache_base)
  · intro e he
    obtain ⟨n, c, h1, h2, h3, h4, ⟨n', c', jt, h6, h7, h8, h9⟩, h5⟩ := p.cached e he
    refine ⟨n, c, h1, h2, h3, h4, ⟨n', c', jt, h6, h7, h8, ?_⟩, ?_⟩
    · change Files.set _ _ _ _ = _
      rw [Files.set_other]
      · exact h9
      · intro he
        injection he with _ he
        exact ne_suffix _ _ he.symm
    · by_cases hb : baseName n = baseName name
      · exact ⟨name, content, ht, hm, hb.symm, hr, by rw [hb]; exact Files.set_same _ _ _⟩
      · obtain ⟨n1, c1, jt1, k1, k2, k3, k4⟩ := h5
        refine ⟨n1, c1, jt1, k1, k2, k3, ?_⟩
        change Files.set _ _ _ _ = _
        rw [Files.set_other]
        · exact k4
        · intro he
          injection he with _ he
          exact hb (List.append_cancel_right he)
  · intro f hf hc
    change Files.set _ _ _ _ = _
    rw [Files.set_other]
    · exact p.outside f hf hc
    · rintro rfl; exact hc rfl

/-- a report is entered -/
theorem pinv_lookup (p : PInv env base files0 ps s) {name content jt ht : Str} (hm : (name, content) ∈ ps) (hb : baseName name ≠ [])
    (hj : jsonReport env.tools name content = some jt) (hh : htmlReport env.tools name content = some ht)
    (hfj : s.files ⟨env.cache, baseName name ++ c!".json"⟩ = some jt) (hfh : s.files ⟨env.cache, baseName name ++ c!".html"⟩ = some ht) :
    PInv env base files0 ps { s with
      lookup := lookupSet (md5sum env.hasher content chunkBytes) ⟨env.cache, baseName name ++ c!".json"⟩ s.lookup } := by
  refine ⟨p.jobs, ?_, p.outside⟩
  intro e he
  rcases mem_lookupSet he with rfl | he
  · exact ⟨name, content, hm, rfl, hb, rfl, ⟨name, content, jt, hm, rfl, hj, hfj⟩, name, content, ht, hm, rfl, hh, hfh⟩
  · exact p.cached e he

/-- an upload is accepted -/
theorem pinv_add (g : GInv env.cache base s) (p : PInv env base files0 ps s) {dir name content : Str} (hdir : dir ∉ s.dirs)
    (hm : (name, content) ∈ ps) (s' : Srv) (hf : s'.files = s.files.set ⟨dir, name⟩ content)
    (hj : s'.jobs = s.jobs ++ [⟨dir, ⟨dir, name⟩, md5sum env.hasher content chunkBytes, .created⟩]) (hl : s'.lookup = s.lookup) :
    PInv env base files0 ps s' := by
  have hbase : ∀ f : FPath, f.dir ∈ base → s'.files f = s.files f := by
    intro f h
    rw [hf, Files.set_other]
    rintro rfl
    exact hdir (g.base_kept _ h)
  refine ⟨?_, ?_, ?_⟩
  · intro i a h ha
    rw [hj] at h
    rcases Nat.lt_or_ge i s.jobs.length with hi | hi
    · rw [List.getElem?_append_left hi] at h
      obtain ⟨n, c, h1, h2, h3, h4⟩ := p.jobs i a h ha
      refine ⟨n, c, h1, h2, h3, fun m => ?_⟩
      rw [hf, Files.set_other]
      · exact h4 m
      · intro he
        injection he with he _
        exact hdir (he ▸ (g.jobs_dirs i a h (by rcases ha with h | h <;> rw [h] <;> simp)).1)
    · rw [List.getElem?_append_right hi, List.getElem?_singleton] at h
      split at h
      · injection h with h
        subst h
        refine ⟨name, content, hm, rfl, rfl, fun n => ?_⟩
        rw [hf]
        by_cases hn : n = name
        · rw [hn, Files.set_same, if_pos rfl]
        · rw [Files.set_other _ _ (by simpa using hn), if_neg hn]
          by_contra hne
          exact hdir (g.files_dirs _ hne)
      · simp at h
  · intro e he
    rw [hl] at he
    have hfc : ∀ n, s'.files ⟨env.cache, n⟩ = s.files ⟨env.cache, n⟩ := fun n => hbase _ g.cache_base
    simp only [hfc]
    exact p.cached e he
  · intro f h hc
    rw [hbase f h]; exact p.outside f h hc

/-- parse_spec ends -/
theorem pinv_finish (g : GInv env.cache base s) (p : PInv env base files0 ps s) {j : Nat} {job : Job} (hj : s.jobs[j]? = some job)
    (hst : job.st = .created ∨ job.st = .running) : PInv env base files0 ps (finishJob env s j job).1 := by
  have hl : job.st ≠ .over := by rcases hst with h | h <;> rw [h] <;> simp
  have hd := g.jobs_dirs j job hj hl
  have hcd : env.cache ≠ job.dir := fun h => hd.2 (h ▸ g.cache_base)
  obtain ⟨name, content, hm, hspec, hhash, hfiles⟩ := p.jobs j job hj hst
  have hframe := fun f => runSpec_frame env.tools (srvOpts job.dir) s.files job.spec f
  have hsame := runSpec_same env.tools (srvOpts job.dir) (srvOpts []) ⟨rfl, rfl⟩ s.files
    (fun f => if f = ⟨[], name⟩ then some content else none) name (by
      intro n
      change s.files ⟨job.dir, n⟩ = _
      rw [hfiles n]
      by_cases hn : n = name
      · rw [if_pos hn]; exact (if_pos (by rw [hn]; rfl)).symm
      · rw [if_neg hn]; exact (if_neg (fun he => hn (FPath.mk.inj he).2)).symm)
  have hspec' : job.spec = ⟨(srvOpts job.dir).out, name⟩ := hspec
  rw [hspec'] at hframe
  change SameDir job.dir _ [] (runAlone env.tools name content).1 ∧ _ at hsame
  have hname : job.spec.name = name := by rw [hspec]
  generalize hr : runSpec env.tools (srvOpts job.dir) s.files job.spec = wr
  rw [hspec'] at hr
  rw [hr] at hsame hframe
  rw [← hspec'] at hr
  obtain ⟨w, r⟩ := wr
  replace hframe : ∀ f, f.dir ≠ job.dir → w f = s.files f := hframe
  generalize hra : runAlone env.tools name content = war at hsame
  have hra' : runSpec env.tools (srvOpts []) (fun f => if f = ⟨[], name⟩ then some content else none) ⟨(srvOpts []).out, name⟩ = war := hra
  rw [hra'] at hsame
  obtain ⟨wa, ra⟩ := war
  obtain ⟨hsame, hres⟩ := hsame
  have hclean : ∀ (w : Files) f, f.dir ≠ job.dir → ((({ s with files := w } : Srv).cleanup job.dir).setJob j job .over).files f = w f := by
    intro w f hf
    exact if_neg hf
  rcases finishJob_cases env s j job w r hr with ⟨-, h⟩ | ⟨n, jt, hok, hn, hwj, hrest⟩
  · rw [h]
    refine pinv_stop g p hj hl .over (by simp) _ rfl rfl ?_
    rintro f (hf | hf | hf)
    · rw [hclean _ _ hf]; exact hframe f hf
    · simp at hf
    · simp at hf
  · rw [hname] at hn
    have hoka : ra = .ok ⟨[], n⟩ := by
      rcases hres with ⟨m, h1, h2⟩ | ⟨e, h1, -⟩
      · have h1 : r = .ok ⟨job.dir, m⟩ := h1
        rw [hok] at h1
        injection h1 with h1
        injection h1 with _ h1
        rw [h1]; exact h2
      · have h1 : r = .error e := h1
        rw [hok] at h1; simp at h1
    have hjr : jsonReport env.tools name content = some jt := by
      rw [jsonReport, hra, hoka]
      exact (hsame n).symm.trans hwj
    have p1 := pinv_json g p hm hjr
    have g1 := ginv_files g (s.files.set ⟨env.cache, baseName name ++ c!".json"⟩ jt)
      (by
        intro f hf
        by_cases hfe : f = ⟨env.cache, baseName name ++ c!".json"⟩
        · rw [hfe]; exact g.base_kept _ g.cache_base
        · rw [Files.set_other _ _ hfe] at hf; exact g.files_dirs f hf)
      (by
        intro f hf hs
        by_cases hfe : f = ⟨env.cache, baseName name ++ c!".json"⟩
        · rw [hfe, Files.set_same]; simp
        · rw [Files.set_other _ _ hfe]; exact hs)
    have hw1 : ∀ f, f.dir ≠ job.dir → w.set ⟨env.cache, n⟩ jt f = s.files.set ⟨env.cache, baseName name ++ c!".json"⟩ jt f := by
      intro f hf
      rw [hn]
      by_cases hfe : f = ⟨env.cache, baseName name ++ c!".json"⟩
      · rw [hfe, Files.set_same, Files.set_same]
      · rw [Files.set_other _ _ hfe, Files.set_other _ _ hfe]; exact hframe f hf
    rcases hrest with ⟨-, h⟩ | ⟨ht, hwh, h⟩
    · rw [h]
      refine pinv_stop g1 p1 hj hl .over (by simp) _ rfl rfl ?_
      rintro f (hf | hf | hf)
      · rw [hclean _ _ hf]; exact hw1 f hf
      · simp at hf
      · simp at hf
    · rw [h]
      rw [Files.set_other _ _ (by intro he; injection he with he _; exact hcd he.symm)] at hwh
      have hhr : htmlReport env.tools name content = some ht := by
        rw [htmlReport, hra, hoka]
        exact (hsame _).symm.trans hwh
      have hb : baseName name ≠ [] := by
        refine runAlone_base (hra.trans (by rw [hoka])) ?_
        have : wa ⟨[], withSuffix n c!".html"⟩ = some ht := (hsame (withSuffix n c!".html")).symm.trans hwh
        rw [this]; simp
      have hws : withSuffix n c!".html" = baseName name ++ c!".html" := by rw [hn, withSuffix_json hb]
      have p2 := pinv_html g1 p1 hm hhr
      have p3 := pinv_lookup p2 hm hb hjr hhr
        (by
          change Files.set (Files.set _ _ _) _ _ _ = _
          rw [Files.set_other _ _ (by intro he; injection he with _ he; exact ne_suffix _ _ he.symm), Files.set_same])
        (Files.set_same _ _ _)
      have g2 := ginv_files g1 ((s.files.set ⟨env.cache, baseName name ++ c!".json"⟩ jt).set ⟨env.cache, baseName name ++ c!".html"⟩ ht)
        (by
          intro f hf
          by_cases hfe : f = ⟨env.cache, baseName name ++ c!".html"⟩
          · rw [hfe]; exact g.base_kept _ g.cache_base
          · rw [Files.set_other _ _ hfe] at hf; exact g1.files_dirs f hf)
        (by
          intro f hf hs
          by_cases hfe : f = ⟨env.cache, baseName name ++ c!".html"⟩
          · rw [hfe, Files.set_same]; simp
          · rw [Files.set_other _ _ hfe]; exact hs)
      have g3 := ginv_lookup g2 (md5sum env.hasher content chunkBytes) (baseName name ++ c!".json")
        (by
          change Files.set (Files.set _ _ _) _ _ _ ≠ _
          rw [Files.set_other _ _ (by intro he; injection he with _ he; exact ne_suffix _ _ he.symm), Files.set_same]; simp)
        (by
          rw [withSuffix_json hb]
          change Files.set (Files.set _ _ _) _ _ _ ≠ _
          rw [Files.set_same]; simp)
      refine pinv_stop g3 p3 hj hl .completed (by simp) _ rfl ?_ ?_
      · change lookupSet _ _ _ = lookupSet _ _ _
        rw [hhash, hn]
      · rintro f (hf | hf | hf)
        · change (w.set _ jt).set _ ht f = Files.set _ _ _ f
          rw [hws]
          by_cases hfe : f = ⟨env.cache, baseName name ++ c!".html"⟩
          · rw [hfe, Files.set_same, Files.set_same]
          · rw [Files.set_other _ _ hfe, Files.set_other _ _ hfe]; exact hw1 f hf
        · simp at hf
        · simp at hf

theorem pinv_step (g : GInv env.cache base s) (p : PInv env base files0 ps s) (e : SrvEv)
    (he : ∀ x ∈ posted [e], x ∈ ps ∧ PlainName x.1) : PInv env base files0 ps (srvStep env s e).1 := by
  have hmark : ∀ {j : Nat} {job : Job}, s.jobs[j]? = some job → job.st ≠ .over → ∀ st,
      (st = .created ∨ st = .running → job.st = .created ∨ job.st = .running) → PInv env base files0 ps (s.setJob j job st) :=
    fun hj hl st h => pinv_stop g p hj hl st h _ rfl rfl (fun _ _ => rfl)
  have hstop : ∀ {j : Nat} {job : Job}, s.jobs[j]? = some job → job.st ≠ .over →
      PInv env base files0 ps ((s.cleanup job.dir).setJob j job .over) :=
    fun hj hl => pinv_stop g p hj hl .over (by simp) _ rfl rfl (by
      rintro f (hf | hf | hf)
      · exact if_neg hf
      · simp at hf
      · simp at hf)
  cases e with
  | post dir doc accept =>
    rw [srvStep]
    unfold postSpec
    split
    · exact p
    · next name content =>
      split
      · exact p
      · split
        · exact p
        · next hdir =>
          rw [not_or, not_not] at hdir
          have hx := he (name, content) (by simp [posted])
          rw [destination_plain hdir.2 hx.2]
          simp only []
          split
          · exact pinv_add g p hdir.1 hx.1 _ rfl rfl rfl
          · exact p
  | progress j pr =>
    rw [srvStep]
    split
    · exact p
    · next job hj =>
      split
      · next h => exact hmark hj (by rcases h with h | h <;> rw [h] <;> simp) _ (fun _ => h)
      · exact p
  | finish j =>
    rw [srvStep]
    split
    · exact p
    · next job hj =>
      split
      · next h => exact pinv_finish g p hj h
      · exact p
  | resume j =>
    rw [srvStep]
    split
    · exact p
    · next job hj =>
      split
      · next h => exact hstop hj (by rw [h]; simp)
      · exact p
  | close j =>
    rw [srvStep]
    split
    · exact p
    · next job hj =>
      split
      · next h => exact hmark hj (by rw [h]; simp) _ (by simp)
      · split
        · next h => exact hstop hj (by rcases h with h | h <;> rw [h] <;> simp)
        · exact p
  | collect j =>
    rw [srvStep]
    split
    · exact p
    · next job hj =>
      split
      · next h => exact hstop hj (by rw [h]; simp)
      · exact p
  | getJson hash => rw [srvStep]; repeat' split
                    all_goals exact p
  | getHtml hash => rw [srvStep]; repeat' split
                    all_goals exact p
  | getReport hash => rw [srvStep]; repeat' split
                      all_goals exact p

theorem pinv_run (g : GInv env.cache base s) (p : PInv env base files0 ps s) (h : List SrvEv)
    (hp : ∀ x ∈ posted h, x ∈ ps ∧ PlainName x.1) : PInv env base files0 ps (srvRun env s h) := by
  induction h generalizing s with
  | nil => exact p
  | cons e es ih =>
    have hsub : ∀ x, x ∈ posted [e] ∨ x ∈ posted es → x ∈ posted (e :: es) := by
      intro x hx
      cases e with
      | post dir doc accept => cases doc <;> simp [posted] at hx ⊢ <;> exact hx
      | _ => simpa [posted] using hx
    exact ih (ginv_step env g e) (pinv_step g p e (fun x hx => hp x (hsub x (.inl hx)))) (fun x hx => hp x (hsub x (.inr hx)))
end

theorem pinv_start (env : SrvEnv) (files : Files) (dirs : List Str) (ps : List (Str × Str)) :
    PInv env (env.cache :: dirs) files ps (srvStart env files dirs) :=
  ⟨by simp [srvStart], by simp [srvStart], fun _ _ _ => rfl⟩

/-! ### A server -/

omit [Uni] in
/-- a Word document is converted to a page of the same text, unless it is bad; a page is a specification titled with its text -/
def srvTools : Tools where
  docx _ b := if b = c!"bad" then .error .runtimeError else .ok (b, c!"css")
  xml s := .ok (.elem c!"html" []
    [.elem c!"head" [] [.elem c!"meta" [(c!"data-spec", s), (c!"data-revision", c!"1.0")] []], .elem c!"body" [] []])

omit [Uni] in
/-- the checksum is the content -/
def srvEnv : SrvEnv := ⟨srvTools, ⟨Str, [], fun st s => st ++ s, id⟩, c!"/tmp/cache"⟩

omit [Uni] in
def srvFiles : Files := fun f => if f = ⟨c!"/home", c!"x.html"⟩ then some c!"precious" else none

omit [Uni] in
def srvDirs : List Str := [c!"/tmp", c!"/home"]

omit [Uni] in
theorem srvFiles_dirs : ∀ f, srvFiles f ≠ none → f.dir ∈ srvDirs := by
  intro f hf
  rw [srvFiles] at hf
  split at hf
  · next h => rw [h]; decide
  · exact absurd rfl hf

/-- two uploads at the same time, with different names; the first is completed, the second fails; a third is given up -/
def srvHistory : List SrvEv :=
  [.post c!"/tmp/u1" (some (c!"a.docx", c!"one")) true, .post c!"/tmp/u2" (some (c!"b.docx", c!"bad")) true,
    .progress 0 ⟨c!"json", 0, 3⟩, .progress 1 ⟨c!"html", 0, 1⟩, .finish 0, .finish 1, .resume 0,
    .post c!"/tmp/u3" (some (c!"c.html", c!"three")) true, .progress 2 ⟨c!"json", 0, 1⟩, .close 2,
    .post c!"/tmp/u4" (some (c!"d.html", c!"four")) true, .close 3]

/-- What is seen of this history: the directories of the three uploads are gone, only that of the fourth, of which nothing was
read, awaits its finalizer. -/
example : letI := Uni.ascii
    (srvRun srvEnv (srvStart srvEnv srvFiles srvDirs) srvHistory).dirs = [c!"/tmp/u4", c!"/tmp/cache", c!"/tmp", c!"/home"] ∧
    (srvTrace srvEnv (srvStart srvEnv srvFiles srvDirs) srvHistory).map (·.2) =
      [.stream 0, .stream 1, .event (jsonToSse (progressEvent ⟨c!"json", 0, 3⟩)), .event (jsonToSse (progressEvent ⟨c!"html", 0, 1⟩)),
        .event (jsonToSse (completedEvent c!"one")), .failed, .ended, .stream 2, .event (jsonToSse (progressEvent ⟨c!"json", 0, 1⟩)),
        .ended, .stream 3, .ended] ∧
    (srvStep srvEnv (srvRun srvEnv (srvStart srvEnv srvFiles srvDirs) srvHistory) (.getHtml c!"one")).2 = .text c!"one" ∧
    (srvStep srvEnv (srvRun srvEnv (srvStart srvEnv srvFiles srvDirs) srvHistory) (.getReport c!"bad")).2 = .status 500 := by
  decide +kernel

/-- Its report is available. -/
example : letI := Uni.ascii
    Completed (srvTrace srvEnv (srvStart srvEnv srvFiles srvDirs) srvHistory) c!"one" := by
  let _ := Uni.ascii
  refine ⟨0, ?_⟩
  have : (srvTrace srvEnv (srvStart srvEnv srvFiles srvDirs) srvHistory)[4]? =
      some (SrvEv.finish 0, SrvResp.event (jsonToSse (completedEvent c!"one"))) := by rfl
  exact List.mem_of_getElem? this

/-! ### C55 -/

/-- **C55**, what holds of it if file names are plain: whatever the history, what is served under a hash was made from a document
sent to the server under the same base name as some document with that hash. -/
theorem C55_same_name_partial (env : SrvEnv) (files : Files) (dirs : List Str) (hf : ∀ f, files f ≠ none → f.dir ∈ dirs)
    (h : List SrvEv) (plain : ∀ x ∈ posted h, PlainName x.1) (hash text : Str) :
    ((srvStep env (srvRun env (srvStart env files dirs) h) (.getJson hash)).2 = .text text →
      ∃ x ∈ posted h, md5sum env.hasher x.2 chunkBytes = hash ∧
        ∃ y ∈ posted h, baseName y.1 = baseName x.1 ∧ jsonReport env.tools y.1 y.2 = some text) ∧
    ((srvStep env (srvRun env (srvStart env files dirs) h) (.getHtml hash)).2 = .text text →
      ∃ x ∈ posted h, md5sum env.hasher x.2 chunkBytes = hash ∧
        ∃ y ∈ posted h, baseName y.1 = baseName x.1 ∧ htmlReport env.tools y.1 y.2 = some text) ∧
    ((srvStep env (srvRun env (srvStart env files dirs) h) (.getReport hash)).2 = .page text →
      ∃ x ∈ posted h, md5sum env.hasher x.2 chunkBytes = hash ∧
        ∃ y ∈ posted h, baseName y.1 = baseName x.1 ∧ jsonReport env.tools y.1 y.2 = some text) := by
  have p := pinv_run (ginv_start env files dirs hf) (pinv_start env files dirs (posted h)) h (fun x hx => ⟨hx, plain x hx⟩)
  generalize srvRun env (srvStart env files dirs) h = s at p
  cases hq : lookupGet s.lookup hash with
  | none => simp [srvStep, hq]
  | some q =>
    obtain ⟨n, c, h1, h2, h3, h4, ⟨n1, c1, jt, k1, k2, k3, k4⟩, n2, c2, ht, m1, m2, m3, m4⟩ := p.cached _ (lookupGet_some hq)
    have h4 : q = ⟨env.cache, baseName n ++ c!".json"⟩ := h4
    subst h4
    simp only [srvStep, hq, k4, withSuffix_json h3, m4, SrvResp.text.injEq, SrvResp.page.injEq]
    refine ⟨?_, ?_, ?_⟩
    · rintro rfl; exact ⟨(n, c), h1, h2.symm, (n1, c1), k1, k2, k3⟩
    · rintro rfl; exact ⟨(n, c), h1, h2.symm, (n2, c2), m1, m2, m3⟩
    · rintro rfl; exact ⟨(n, c), h1, h2.symm, (n1, c1), k1, k2, k3⟩

/-- **C55**, under the condition that different documents are never sent under names with the same base name: whatever the
history, what is served under a hash is the report made from a document with that hash. Without the condition this is false. -/
theorem C55_own_report_partial (env : SrvEnv) (files : Files) (dirs : List Str) (hf : ∀ f, files f ≠ none → f.dir ∈ dirs)
    (h : List SrvEv) (plain : ∀ x ∈ posted h, PlainName x.1)
    (distinct : ∀ x ∈ posted h, ∀ y ∈ posted h, baseName x.1 = baseName y.1 → x = y) (hash text : Str) :
    ((srvStep env (srvRun env (srvStart env files dirs) h) (.getJson hash)).2 = .text text →
      ∃ x ∈ posted h, md5sum env.hasher x.2 chunkBytes = hash ∧ jsonReport env.tools x.1 x.2 = some text) ∧
    ((srvStep env (srvRun env (srvStart env files dirs) h) (.getHtml hash)).2 = .text text →
      ∃ x ∈ posted h, md5sum env.hasher x.2 chunkBytes = hash ∧ htmlReport env.tools x.1 x.2 = some text) ∧
    ((srvStep env (srvRun env (srvStart env files dirs) h) (.getReport hash)).2 = .page text →
      ∃ x ∈ posted h, md5sum env.hasher x.2 chunkBytes = hash ∧ jsonReport env.tools x.1 x.2 = some text) := by
  obtain ⟨h1, h2, h3⟩ := C55_same_name_partial env files dirs hf h plain hash text
  refine ⟨fun k => ?_, fun k => ?_, fun k => ?_⟩
  · obtain ⟨x, hx, hh, y, hy, hb, hr⟩ := h1 k
    exact ⟨x, hx, hh, by rw [distinct x hx y hy hb.symm]; exact hr⟩
  · obtain ⟨x, hx, hh, y, hy, hb, hr⟩ := h2 k
    exact ⟨x, hx, hh, by rw [distinct x hx y hy hb.symm]; exact hr⟩
  · obtain ⟨x, hx, hh, y, hy, hb, hr⟩ := h3 k
    exact ⟨x, hx, hh, by rw [distinct x hx y hy hb.symm]; exact hr⟩

/-- the hypotheses of `C55_own_report_partial` -/
example : (∀ x ∈ posted srvHistory, PlainName x.1) ∧
    (∀ x ∈ posted srvHistory, ∀ y ∈ posted srvHistory, baseName x.1 = baseName y.1 → x = y) := by
  have h : posted srvHistory = [(c!"a.docx", c!"one"), (c!"b.docx", c!"bad"), (c!"c.html", c!"three"), (c!"d.html", c!"four")] := rfl
  rw [h]
  refine ⟨?_, by decide⟩
  unfold PlainName
  decide

/-- two versions of a document, one after the other, under the same name -/
def srvVersions : List SrvEv :=
  [.post c!"/tmp/u1" (some (c!"spec.docx", c!"draft")) true, .finish 0, .resume 0,
    .post c!"/tmp/u2" (some (c!"spec.docx", c!"final")) true, .finish 1, .resume 1]

omit [Uni] in
/-- **C55** is false: after another version of a document has been sent under the same file name, the server serves under the hash
of the first version a report which was made from no document with that hash. -/
theorem C55_same_file_name_false : letI := Uni.ascii
    ∃ text, (srvStep srvEnv (srvRun srvEnv (srvStart srvEnv srvFiles srvDirs) srvVersions) (.getJson c!"draft")).2 = .text text ∧
      Completed (srvTrace srvEnv (srvStart srvEnv srvFiles srvDirs) srvVersions) c!"draft" ∧
      (∃ x ∈ posted srvVersions, md5sum srvEnv.hasher x.2 chunkBytes = c!"draft") ∧
      ∀ x ∈ posted srvVersions, md5sum srvEnv.hasher x.2 chunkBytes = c!"draft" → jsonReport srvEnv.tools x.1 x.2 ≠ some text := by
  let _ := Uni.ascii
  have h : posted srvVersions = [(c!"spec.docx", c!"draft"), (c!"spec.docx", c!"final")] := rfl
  obtain ⟨t, ht⟩ : ∃ t, jsonReport srvEnv.tools c!"spec.docx" c!"final" = some t := by
    have : (jsonReport srvEnv.tools c!"spec.docx" c!"final").isSome = true := by decide +kernel
    exact Option.isSome_iff_exists.1 this
  have e1 : (match (srvStep srvEnv (srvRun srvEnv (srvStart srvEnv srvFiles srvDirs) srvVersions) (.getJson c!"draft")).2 with
      | .text t => some t | _ => none) = jsonReport srvEnv.tools c!"spec.docx" c!"final" := by decide +kernel
  have e2 : jsonReport srvEnv.tools c!"spec.docx" c!"draft" ≠ jsonReport srvEnv.tools c!"spec.docx" c!"final" := by decide +kernel
  have e3 : md5sum srvEnv.hasher c!"draft" chunkBytes = c!"draft" := by decide +kernel
  have e4 : md5sum srvEnv.hasher c!"final" chunkBytes = c!"final" := by decide +kernel
  refine ⟨t, ?_, ⟨0, ?_⟩, ?_, ?_⟩
  · rw [ht] at e1
    split at e1
    · next h => injection e1 with e1; rw [h, e1]
    · simp at e1
  · have : ((srvTrace srvEnv (srvStart srvEnv srvFiles srvDirs) srvVersions).map (·.2))[1]? =
      some (SrvResp.event (jsonToSse (completedEvent c!"draft"))) := by decide +kernel
    rw [List.getElem?_map, Option.map_eq_some_iff] at this
    obtain ⟨x, hx, hr⟩ := this
    have h0 : ((srvTrace srvEnv (srvStart srvEnv srvFiles srvDirs) srvVersions)[1]?).map (·.1) = some (.finish 0) := rfl
    rw [hx] at h0
    have h0 : x.1 = .finish 0 := by simpa using h0
    have hm := List.mem_of_getElem? hx
    have hxe : x = (SrvEv.finish 0, SrvResp.event (jsonToSse (completedEvent c!"draft"))) := Prod.ext h0 hr
    rw [hxe] at hm
    exact hm
  · exact ⟨(c!"spec.docx", c!"draft"), by rw [h]; simp, e3⟩
  · rw [h]
    intro x hx
    simp only [List.mem_cons, List.not_mem_nil, or_false] at hx
    rcases hx with rfl | rfl
    · intro _ hc; exact e2 (hc.trans ht.symm)
    · intro hc
      have : (c!"final" : Str) = c!"draft" := e4.symm.trans hc
      exact absurd this (by decide)

/-! ### C59 -/

/-- **C59**, for plain file names: an accepted upload stores the document in the directory created for it, and no other file is
touched. -/
theorem C59_stored_partial (env : SrvEnv) (s : Srv) (dir name content : Str) (accept : Bool) (hn : PlainName name) (j : Nat)
    (h : (srvStep env s (.post dir (some (name, content)) accept)).2 = .stream j) :
    dir ∉ s.dirs ∧ (srvStep env s (.post dir (some (name, content)) accept)).1.files ⟨dir, name⟩ = some content ∧
    ∀ f, f ≠ ⟨dir, name⟩ → (srvStep env s (.post dir (some (name, content)) accept)).1.files f = s.files f := by
  simp only [srvStep, postSpec] at h ⊢
  split at h
  · simp at h
  · split at h
    · simp at h
    · next hacc hdir =>
      rw [if_neg hacc, if_neg hdir]
      rw [not_or, not_not] at hdir
      rw [destination_plain hdir.2 hn] at h ⊢
      simp only [] at h ⊢
      split at h
      · next hp =>
        rw [if_pos hp]
        exact ⟨hdir.1, Files.set_same _ _ _, fun f hf => Files.set_other _ _ hf⟩
      · simp at h

/-- **C59**, for plain file names: whatever the history, no file of a directory which existed before the server, other than its
cache, is ever changed. -/
theorem C59_confined_partial (env : SrvEnv) (files : Files) (dirs : List Str) (hf : ∀ f, files f ≠ none → f.dir ∈ dirs)
    (h : List SrvEv) (plain : ∀ x ∈ posted h, PlainName x.1) (f : FPath) (hd : f.dir ∈ dirs) (hc : f.dir ≠ env.cache) :
    (srvRun env (srvStart env files dirs) h).files f = files f :=
  (pinv_run (ginv_start env files dirs hf) (pinv_start env files dirs (posted h)) h (fun x hx => ⟨hx, plain x hx⟩)).outside f
    (List.mem_cons_of_mem _ hd) hc

/-- the hypotheses of `C59_stored_partial`, and a name which is not plain but harmless -/
example : letI := Uni.ascii
    (srvStep srvEnv (srvStart srvEnv srvFiles srvDirs) (.post c!"/tmp/u1" (some (c!"a..b.docx", c!"one")) true)).2 = .stream 0 ∧
    destination c!"/tmp/u1" c!"./x/../a.docx" = some ⟨c!"/tmp/u1", c!"a.docx"⟩ := by
  decide +kernel

omit [Uni] in
/-- **C59** is false: a file name chosen by the client, relative or absolute, leads out of the temporary directory, and a file which
has nothing to do with the server is overwritten. -/
theorem C59_outside_false : letI := Uni.ascii
    (∀ name ∈ [c!"../../home/x.html", c!"/home/x.html"],
      (srvRun srvEnv (srvStart srvEnv srvFiles srvDirs) [.post c!"/tmp/u1" (some (name, c!"mine")) true]).files ⟨c!"/home", c!"x.html"⟩ =
        some c!"mine") ∧
    srvFiles ⟨c!"/home", c!"x.html"⟩ = some c!"precious" := by
  decide +kernel

end Spex
