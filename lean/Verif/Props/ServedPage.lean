import Verif.Props.Server
import Verif.Props.FirstStage
/-
C86: the style sheet of a page, next to it and on the server.
-/
set_option autoImplicit false
namespace Spex

/-! ### Specification -/

/-- the style sheet which a page is to be shown with: the reference of its first link to one -/
def sheetRef (root : Node) : Option Str :=
  ((root.childs c!"head").flatMap (·.childs c!"link")).findSome? fun l =>
    if l.attr? c!"rel" = some c!"stylesheet" then l.attr? c!"href" else none

/-- what a reference from a page stands for, if it is the name of a file: another file in the same directory. Names with characters
that have a meaning in references (`/ ? # % : \`) are left out. -/
def nextTo (path ref : Str) : Str := (path.reverse.dropWhile (· ≠ '/')).reverse ++ ref

/-- a name which is a reference to the file of that name -/
def RefName (s : Str) : Prop := s ≠ [] ∧ ∀ c ∈ s, c ∉ c!"/?#%:\\"

/-- the pages below `/html` (app.py:154-157): what is asked of the server with this path -/
def askedAt (path : Str) : Option SrvEv :=
  if path.take 6 = c!"/html/" ∧ path.drop 6 ≠ [] ∧ '/' ∉ path.drop 6 then some (.getHtml (path.drop 6)) else none

/-- a checksum has no dot: md5 gives 32 hexadecimal digits -/
def PlainDigests (h : Hasher) : Prop := ∀ st, '.' ∉ h.hexdigest st

/-! ### Lemmas -/

theorem sheetRef_page {version title fname : Str} {revision : Option Str} {body : List Node} {p : Node}
    (hp : p.clean = pageNode version title revision fname body) : sheetRef p = some (fname ++ c!".css") := by
  have h1 := childs_clean hp (by decide) c!"head"
  have he : ∃ hd, p.childs c!"head" = [hd] ∧ hd.clean = .elem c!"head" [] [
      .elem c!"meta" ([(c!"charset", c!"utf-8"), (c!"data-spec", title)] ++ optAttr c!"data-revision" revision) [],
      .elem c!"meta" [(c!"name", c!"spexVersion"), (c!"content", version)] [],
      .elem c!"title" [] (textKids fname),
      .elem c!"link" [(c!"rel", c!"stylesheet"), (c!"href", fname ++ c!".css")] []] := by
    cases hc : p.childs c!"head" with
    | nil => rw [hc] at h1; cases h1
    | cons hd r =>
      cases r with
      | nil =>
        rw [hc] at h1
        exact ⟨hd, rfl, by simpa [Node.hasTag] using h1⟩
      | cons x y => rw [hc] at h1; simp [Node.hasTag] at h1
  obtain ⟨hd, h2, h3⟩ := he
  have h4 := childs_clean h3 (by decide) c!"link"
  have h5 : ∀ ns : List Node, (ns.findSome? fun l => if l.attr? c!"rel" = some c!"stylesheet" then l.attr? c!"href" else none) =
      (ns.map Node.clean).findSome? fun l => if l.attr? c!"rel" = some c!"stylesheet" then l.attr? c!"href" else none := by
    intro ns
    induction ns with
    | nil => rfl
    | cons n ns ih => rw [List.map_cons, List.findSome?_cons, List.findSome?_cons, attr_clean, attr_clean, ih]
  unfold sheetRef
  simp only [h2, List.flatMap_singleton]
  rw [h5, h4]
  rfl

section
variable [Uni]

/-- all checksums known to the server are checksums -/
structure HInv (env : SrvEnv) (s : Srv) : Prop where
  jobs : ∀ job ∈ s.jobs, ∃ st, job.hash = env.hasher.hexdigest st
  keys : ∀ e ∈ s.lookup, ∃ st, e.1 = env.hasher.hexdigest st

omit [Uni] in
theorem HInv.stop {env : SrvEnv} {s : Srv} (h : HInv env s) {j : Nat} {job : Job} (hj : s.jobs[j]? = some job) (st : JobSt) (s' : Srv)
    (h1 : s'.jobs = s.jobs) (h2 : s'.lookup = s.lookup) : HInv env (s'.setJob j job st) := by
  refine ⟨?_, ?_⟩
  · intro job' hm
    rw [Srv.setJob] at hm
    rcases List.mem_or_eq_of_mem_set hm with hm | rfl
    · exact h.jobs job' (h1 ▸ hm)
    · exact h.jobs job (List.mem_of_getElem? hj)
  · intro e he
    exact h.keys e (h2 ▸ he)

omit [Uni] in
theorem lookupSet_mem {k : Str} {v : FPath} {e : Str × FPath} : ∀ {d : List (Str × FPath)}, e ∈ lookupSet k v d → e = (k, v) ∨ e ∈ d
  | [], h => by simpa [lookupSet] using h
  | (k', v') :: d, h => by
    rw [lookupSet] at h
    split at h
    · rcases List.mem_cons.1 h with h | h
      · exact .inl h
      · exact .inr (List.mem_cons_of_mem _ h)
    · rcases List.mem_cons.1 h with h | h
      · exact .inr (h ▸ List.mem_cons_self)
      · rcases lookupSet_mem h with h | h
        · exact .inl h
        · exact .inr (List.mem_cons_of_mem _ h)

theorem hinv_finish {env : SrvEnv} {s : Srv} (h : HInv env s) {j : Nat} {job : Job} (hj : s.jobs[j]? = some job) :
    HInv env (finishJob env s j job).1 := by
  unfold finishJob endJob
  dsimp only
  split
  · exact h.stop hj _ _ rfl rfl
  · split
    · exact h.stop hj _ _ rfl rfl
    · split
      · exact h.stop hj _ _ rfl rfl
      · refine ⟨?_, ?_⟩
        · intro job' hm
          rw [Srv.setJob] at hm
          rcases List.mem_or_eq_of_mem_set hm with hm | rfl
          · exact h.jobs job' hm
          · exact h.jobs job (List.mem_of_getElem? hj)
        · intro e he
          rcases lookupSet_mem he with rfl | he
          · exact h.jobs job (List.mem_of_getElem? hj)
          · exact h.keys e he

theorem hinv_step {env : SrvEnv} {s : Srv} (h : HInv env s) (e : SrvEv) : HInv env (srvStep env s e).1 := by
  cases e with
  | post dir doc accept =>
    simp only [srvStep, postSpec]
    repeat' split
    all_goals first | exact h | skip
    refine ⟨?_, h.keys⟩
    intro job hm
    rcases List.mem_append.1 hm with hm | hm
    · exact h.jobs job hm
    · rw [List.mem_singleton.1 hm]
      exact ⟨_, rfl⟩
  | progress j p =>
    simp only [srvStep]
    cases hj : s.jobs[j]? with
    | none => exact h
    | some job =>
      simp only
      split
      · exact h.stop hj _ _ rfl rfl
      · exact h
  | finish j =>
    simp only [srvStep]
    cases hj : s.jobs[j]? with
    | none => exact h
    | some job =>
      simp only
      split
      · exact hinv_finish h hj
      · exact h
  | resume j =>
    simp only [srvStep]
    cases hj : s.jobs[j]? with
    | none => exact h
    | some job =>
      simp only
      split
      · exact h.stop hj _ _ rfl rfl
      · exact h
  | close j =>
    simp only [srvStep]
    cases hj : s.jobs[j]? with
    | none => exact h
    | some job =>
      simp only
      split
      · exact h.stop hj _ _ rfl rfl
      · split
        · exact h.stop hj _ _ rfl rfl
        · exact h
  | collect j =>
    simp only [srvStep]
    cases hj : s.jobs[j]? with
    | none => exact h
    | some job =>
      simp only
      split
      · exact h.stop hj _ _ rfl rfl
      · exact h
  | getJson hash => simp only [srvStep]; repeat' split
                    all_goals exact h
  | getHtml hash => simp only [srvStep]; repeat' split
                    all_goals exact h
  | getReport hash => simp only [srvStep]; repeat' split
                      all_goals exact h

theorem hinv_run {env : SrvEnv} (h : List SrvEv) : ∀ {s : Srv}, HInv env s → HInv env (srvRun env s h) := by
  induction h with
  | nil => intro s hs; exact hs
  | cons e es ih => intro s hs; exact ih (hinv_step hs e)

/-- The page made of a Word document refers to the style sheet named after it. -/
theorem Readable.sheet {f : WordFile} {stem : Str} {doc : WordDoc} {header : Str} {us : List HUnit} (h : Readable f stem doc header us)
    {layout : List Piece → Str} (hl : ∀ ps, Laid ps (layout ps)) (unzip : Str → WordFile) (bytes : Str) (hb : unzip bytes = f) :
    ∃ (page css : Str) (root : Node), (stageTools unzip layout).docx stem bytes = .ok (page, css) ∧ readXml page = some root ∧
      sheetRef root = some (stem ++ c!".css") := by
  obtain ⟨page, css, root, h1, h2, h3⟩ := h.read hl unzip bytes hb
  refine ⟨page, css, root, h1, ?_, sheetRef_page h3⟩
  simp only [stageTools] at h2
  cases hr : readXml page with
  | none => rw [hr] at h2; cases h2
  | some n => rw [hr] at h2; cases h2; rfl

/-! ### C86 -/

/-- **C86**, what holds of it: after a run on a Word document the page in the output directory refers to its style sheet, and this is
the file which the run has written next to it. -/
theorem C86_next_to_page_partial {f : WordFile} {stem : Str} {doc : WordDoc} {header : Str} {us : List HUnit}
    (h : Readable f stem doc header us) {layout : List Piece → Str} (hl : ∀ ps, Laid ps (layout ps)) {unzip : Str → WordFile} {bytes : Str}
    (hb : unzip bytes = f) {w : Files} {s : FPath} (h1 : stem ≠ []) (h2 : s.name = stem ++ c!".docx") (h3 : w s = some bytes) (o : Opts) :
    ∃ page css root ref, (stageTools unzip layout).docx stem bytes = .ok (page, css) ∧
      (runSpec (stageTools unzip layout) o w s).1 ⟨o.out, stem ++ c!".html"⟩ = some page ∧ readXml page = some root ∧
      sheetRef root = some ref ∧ (runSpec (stageTools unzip layout) o w s).1 ⟨o.out, ref⟩ = some css := by
  obtain ⟨page, css, root, g1, g2, g3⟩ := h.sheet hl unzip bytes hb
  have e1 : suffix s.name = c!".docx" := by rw [h2]; exact suffix_of stem c!"docx" h1 (by decide) (by decide)
  have e2 : baseName s.name = stem := by rw [h2]; exact baseName_of stem c!"docx" h1 (by decide) (by decide)
  have e3 : baseName (stem ++ c!".html") = stem := baseName_of stem c!"html" h1 (by decide) (by decide)
  have n1 : (⟨o.out, stem ++ c!".html"⟩ : FPath) ≠ ⟨o.out, stem ++ c!".json"⟩ := by
    intro h; exact ext_ne (s := c!".htm") (t := c!".jso") (by decide) (FPath.mk.inj h).2
  have n2 : (⟨o.out, stem ++ c!".html"⟩ : FPath) ≠ ⟨o.out, stem ++ c!".css"⟩ := by
    intro h; exact ext_ne (s := c!".htm") (t := c!".cs") (by decide) (FPath.mk.inj h).2
  have n3 : (⟨o.out, stem ++ c!".css"⟩ : FPath) ≠ ⟨o.out, stem ++ c!".json"⟩ := by
    intro h; exact ext_ne (s := c!".cs") (t := c!".jso") (by decide) (FPath.mk.inj h).2
  refine ⟨page, css, root, _, g1, ?_, g2, g3, ?_⟩
  · rw [runSpec, if_pos e1]
    simp only [convertWord, h3, e2, g1, runJson, e3]
    rw [Files.set_ne n1, Files.set_ne n1, Files.set_ne n2, Files.set_self]
  · rw [runSpec, if_pos e1]
    simp only [convertWord, h3, e2, g1, runJson, e3]
    rw [Files.set_ne n3, Files.set_ne n3, Files.set_self]

/-- **C86** is false of the server: whatever has happened, it has no style sheet for the page of any Word document. The page refers to
the file next to it, which on the server is a path below `/html`; there are only the pages of reports, and the answer is that of an
exception. -/
theorem C86_served_false (env : SrvEnv) (hd : PlainDigests env.hasher) (files : Files) (dirs : List Str) (hist : List SrvEv)
    {f : WordFile} {stem : Str} {doc : WordDoc} {header : Str} {us : List HUnit}
    (h : Readable f stem doc header us) (hn : RefName stem) {layout : List Piece → Str} (hl : ∀ ps, Laid ps (layout ps)) {unzip : Str → WordFile}
    {bytes : Str} (hb : unzip bytes = f) (hash : Str) (hh : '/' ∉ hash) :
    ∃ page css root ref e, (stageTools unzip layout).docx stem bytes = .ok (page, css) ∧ readXml page = some root ∧
      sheetRef root = some ref ∧ askedAt (nextTo (c!"/html/" ++ hash) ref) = some e ∧
      (srvStep env (srvRun env (srvStart env files dirs) hist) e).2 = .status 500 := by
  obtain ⟨page, css, root, g1, g2, g3⟩ := h.sheet hl unzip bytes hb
  have hp : nextTo (c!"/html/" ++ hash) (stem ++ c!".css") = c!"/html/" ++ (stem ++ c!".css") := by
    unfold nextTo
    rw [List.reverse_append, List.dropWhile_append_of_pos]
    · rfl
    · intro c hc
      have : c ≠ '/' := fun h => hh (h ▸ List.mem_reverse.1 hc)
      simpa using this
  have ha : askedAt (c!"/html/" ++ (stem ++ c!".css")) = some (.getHtml (stem ++ c!".css")) := by
    unfold askedAt
    have h1 : (c!"/html/" ++ (stem ++ c!".css")).take 6 = c!"/html/" := List.take_left' rfl
    have h2 : (c!"/html/" ++ (stem ++ c!".css")).drop 6 = stem ++ c!".css" := List.drop_left' rfl
    rw [h1, h2, if_pos]
    refine ⟨rfl, by simp, ?_⟩
    intro hm
    rcases List.mem_append.1 hm with hm | hm
    · exact hn.2 _ hm (by decide)
    · exact absurd hm (by decide)
  refine ⟨page, css, root, _, _, g1, g2, g3, by rw [hp]; exact ha, ?_⟩
  have hi : HInv env (srvRun env (srvStart env files dirs) hist) :=
    hinv_run hist ⟨fun _ hm => absurd hm (by simp [srvStart]), fun _ hm => absurd hm (by simp [srvStart])⟩
  have hq : lookupGet (srvRun env (srvStart env files dirs) hist).lookup (stem ++ c!".css") = none := by
    cases hq : lookupGet (srvRun env (srvStart env files dirs) hist).lookup (stem ++ c!".css") with
    | none => rfl
    | some q =>
      obtain ⟨st, hst⟩ := hi.keys _ (lookupGet_some hq)
      exact absurd (hst ▸ (by simp : '.' ∈ stem ++ c!".css")) (hd st)
  simp only [srvStep, hq]

end

/-! ### Examples -/

/-- a name and a checksum as in C86; that there are documents with this name which can be read is shown in Props/RunFormat -/
example : RefName c!"nvme" ∧ PlainDigests ⟨Str, [], fun st s => st ++ s, fun s => s.filter (· ≠ '.')⟩ ∧
    nextTo c!"/html/0f343b0931126a20f133d67c2b018a3b" c!"nvme.css" = c!"/html/nvme.css" ∧
    askedAt c!"/html/nvme.css" = some (.getHtml c!"nvme.css") := by
  refine ⟨⟨by decide, by decide +kernel⟩, fun st hm => ?_, by decide +kernel, by rfl⟩
  simpa using (List.mem_filter.1 hm).2

/-- The page of a completed upload is served, but not its style sheet. -/
example : letI := Uni.ascii
    (srvStep srvEnv (srvRun srvEnv (srvStart srvEnv srvFiles srvDirs) srvHistory) (.getHtml c!"one")).2 = .text c!"one" ∧
    (srvStep srvEnv (srvRun srvEnv (srvStart srvEnv srvFiles srvDirs) srvHistory) (.getHtml c!"a.css")).2 = .status 500 := by
  decide +kernel

end Spex
