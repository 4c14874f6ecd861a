import Verif.Model.ReportLinks
import Verif.Props.ReportFigure
/-
C93: the links of the report page, and the report which is downloaded.
-/
set_option autoImplicit false
namespace Spex

/-! ### Specification -/

/-- a checksum as md5 gives it: hexadecimal digits -/
def HexHash (hash : Str) : Prop := hash ≠ [] ∧ ∀ c ∈ hash, c ∈ c!"0123456789abcdef"

instance (hash : Str) : Decidable (HexHash hash) := inferInstanceAs (Decidable (_ ∧ _))

/-- the address in a reference -/
def PageRef.addr : PageRef → Str
  | .sheet a => a
  | .script a => a
  | .link a _ => a

/-- the downloads which a page offers: the address and the name of the file -/
def downloads (refs : List PageRef) : List (Str × Str) :=
  refs.filterMap fun r => match r with
    | .link a (some f) => some (a, f)
    | _ => none

/-- the address names another server -/
def Elsewhere (addr : Str) : Prop := c!"https://" <+: addr

section
variable [Uni]

/-- what the server answers to this address, and whether the page asked for is a bundle -/
def Answers (env : SrvEnv) (s : Srv) (addr : Str) (r : SrvResp) (bundle : Bool) : Prop :=
  ∃ e, pageRequest addr = some (e, bundle) ∧ (srvStep env s e).2 = r

/-! ### Proof -/

omit [Uni] in
theorem HexHash.plain {hash : Str} (h : HexHash hash) : '/' ∉ hash ∧ ∀ c ∈ hash, (c ≠ '?' : Bool) = true := by
  refine ⟨fun hm => absurd (h.2 _ hm) (by decide), fun c hc => ?_⟩
  have := h.2 c hc
  rw [decide_eq_true_iff]
  rintro rfl
  exact absurd this (by decide)

omit [Uni] in
theorem splitQuery_link {pre hash : Str} (hp : ∀ c ∈ pre, (c ≠ '?' : Bool) = true) (h : HexHash hash) :
    splitQuery (linkFor pre hash) = (pre ++ hash, c!"bundle=1") := by
  have hall : ∀ c ∈ pre ++ hash, (c ≠ '?' : Bool) = true := fun c hc => (List.mem_append.1 hc).elim (hp c) (h.plain.2 c)
  unfold splitQuery linkFor
  rw [show c!"?bundle=1" = '?' :: c!"bundle=1" from rfl, List.takeWhile_append_of_pos hall, List.dropWhile_append_of_pos hall,
    List.takeWhile_cons_of_neg (by decide), List.dropWhile_cons_of_neg (by decide), List.append_nil]
  rfl

omit [Uni] in
theorem routeHash_own {pre hash : Str} (h : HexHash hash) : routeHash pre (pre ++ hash) = some hash := by
  unfold routeHash
  rw [List.take_left' rfl, List.drop_left' rfl, if_pos ⟨rfl, h.1, h.plain.1⟩]

omit [Uni] in
theorem routeHash_other {pre pre' hash : Str} (h : pre'.length ≤ pre.length) (hne : pre.take pre'.length ≠ pre') : routeHash pre' (pre ++ hash) = none := by
  unfold routeHash
  rw [List.take_append_of_le_length h, if_neg fun hh => hne hh.1]

omit [Uni] in
theorem pageRequest_links {hash : Str} (h : HexHash hash) :
    pageRequest (linkFor c!"/report/" hash) = some (.getReport hash, true) ∧
    pageRequest (linkFor c!"/json/" hash) = some (.getJson hash, false) ∧
    pageRequest (linkFor c!"/html/" hash) = some (.getHtml hash, false) := by
  have hlong : ∀ pre : Str, pre.length = 6 → pre.getLast? = some '/' → '/' ∉ pre.tail.dropLast → routeHash c!"/report/" (pre ++ hash) = none := by
    intro pre h1 h2 h3
    unfold routeHash
    rw [if_neg]
    rintro ⟨hh, -⟩
    have := congrArg (fun l : Str => l[5]?) hh
    simp only [List.getElem?_take] at this
    rw [List.getElem?_append_left (by omega)] at this
    rw [List.getLast?_eq_getElem?, h1] at h2
    simp [h2] at this
  refine ⟨?_, ?_, ?_⟩
  · unfold pageRequest
    rw [splitQuery_link (by decide) h]
    simp only
    rw [routeHash_own h]
    have : hasBundle c!"bundle=1" = true := by decide
    simp only [this]
  · unfold pageRequest
    rw [splitQuery_link (by decide) h]
    simp only
    rw [routeHash_own h, hlong c!"/json/" rfl rfl (by decide)]
  · unfold pageRequest
    rw [splitQuery_link (by decide) h]
    simp only
    rw [routeHash_own h, hlong c!"/html/" rfl rfl (by decide), routeHash_other (by decide) (by decide)]

/-- **C93** Whatever has happened before: when the page of a report is served, it offers three downloads. At once the first gives the report as
a bundle, made from the same JSON text as the page; the second gives this text and the third the page of the document, from which the tables of the
report are taken. The downloads of a page which was left open keep working whatever else happens to the server. -/
theorem C93_downloads (env : SrvEnv) (files : Files) (dirs : List Str) (hf : ∀ f, files f ≠ none → f.dir ∈ dirs) (hist : List SrvEv) (hash : Str)
    (hh : HexHash hash) (xp : XPathEngine) (d : ReportData) (h : serveReport env xp (srvRun env (srvStart env files dirs) hist) hash = .ok d) :
    ∃ a1 a2 a3, downloads (reportRefs hash false) = [(a1, c!"report.html"), (a2, c!"report.json"), (a3, c!"spec.html")] ∧
      (∃ json html, reportData env.tools.xml xp json html = some d ∧
        Answers env (srvRun env (srvStart env files dirs) hist) a1 (.page json) true ∧
        Answers env (srvRun env (srvStart env files dirs) hist) a2 (.text json) false ∧
        Answers env (srvRun env (srvStart env files dirs) hist) a3 (.text html) false) ∧
      ∀ more, ∃ json html,
        Answers env (srvRun env (srvStart env files dirs) (hist ++ more)) a1 (.page json) true ∧
        Answers env (srvRun env (srvStart env files dirs) (hist ++ more)) a2 (.text json) false ∧
        Answers env (srvRun env (srvStart env files dirs) (hist ++ more)) a3 (.text html) false := by
  obtain ⟨r1, r2, r3⟩ := pageRequest_links hh
  refine ⟨linkFor c!"/report/" hash, linkFor c!"/json/" hash, linkFor c!"/html/" hash, rfl, ?_, fun more => ?_⟩
  · unfold serveReport at h
    cases hl : lookupGet (srvRun env (srvStart env files dirs) hist).lookup hash with
    | none => rw [hl] at h; cases h
    | some p =>
      rw [hl] at h
      simp only at h
      cases hj : (srvRun env (srvStart env files dirs) hist).files p with
      | none => rw [hj] at h; cases h
      | some json =>
        rw [hj] at h
        simp only at h
        cases hm : (srvRun env (srvStart env files dirs) hist).files ⟨p.dir, withSuffix p.name c!".html"⟩ with
        | none => rw [hm] at h; cases h
        | some html =>
          rw [hm] at h
          simp only at h
          cases hd : reportData env.tools.xml xp json html with
          | none => rw [hd] at h; cases h
          | some d' =>
            rw [hd] at h
            cases h
            exact ⟨json, html, hd, ⟨_, r1, by simp only [srvStep, hl, hj]⟩, ⟨_, r2, by simp only [srvStep, hl, hj]⟩, ⟨_, r3, by simp only [srvStep, hl, hm]⟩⟩
  · have t := tinv_run env (tinv_start env files dirs) hist
    rw [List.nil_append] at t
    have hc : Completed (srvTrace env (srvStart env files dirs) hist) hash := by
      refine (t.keys hash).2 ?_
      unfold serveReport at h
      cases hl : lookupGet (srvRun env (srvStart env files dirs) hist).lookup hash with
      | none => rw [hl] at h; cases h
      | some p => exact ⟨p, lookupGet_some hl⟩
    have hc' : Completed (srvTrace env (srvStart env files dirs) (hist ++ more)) hash := by
      obtain ⟨j, hj⟩ := hc
      refine ⟨j, ?_⟩
      have : ∀ (s : Srv) (a b : List SrvEv), ∀ x ∈ srvTrace env s a, x ∈ srvTrace env s (a ++ b) := by
        intro s a b x hx
        induction a generalizing s with
        | nil => cases hx
        | cons e a ih =>
          rw [List.cons_append, srvTrace]
          rw [srvTrace] at hx
          rcases List.mem_cons.1 hx with rfl | hx
          · exact List.mem_cons_self
          · exact List.mem_cons_of_mem _ (ih _ hx)
      exact this _ _ _ _ hj
    obtain ⟨jt, ht, g1, g2, g3⟩ := C60_available env files dirs hf (hist ++ more) hash hc'
    exact ⟨jt, ht, ⟨_, r1, g3⟩, ⟨_, r2, g1⟩, ⟨_, r3, g2⟩⟩

omit [Uni] in
/-- **C93** The report which is downloaded refers to nothing on the server: all its addresses name other servers, and it offers no downloads.
Missing with respect to the full claim: that it refers to nothing at all (`C93_alone_false`). -/
theorem C93_bundle_partial (hash : Str) : (∀ r ∈ reportRefs hash true, Elsewhere r.addr) ∧ downloads (reportRefs hash true) = [] := by
  refine ⟨?_, rfl⟩
  intro r hr
  rw [show reportRefs hash true = [.sheet c!"https://cdnjs.cloudflare.com/ajax/libs/font-awesome/6.5.1/css/all.min.css"] from rfl, List.mem_singleton] at hr
  subst hr
  exact ⟨c!"cdnjs.cloudflare.com/ajax/libs/font-awesome/6.5.1/css/all.min.css", by decide⟩

omit [Uni] in
/-- **C93**, that the report which is downloaded can be shown without a network, is false: each one refers to a style sheet of another server. -/
theorem C93_alone_false (hash : Str) : ∃ a, PageRef.sheet a ∈ reportRefs hash true ∧ Elsewhere a :=
  ⟨_, List.mem_singleton.2 rfl, c!"cdnjs.cloudflare.com/ajax/libs/font-awesome/6.5.1/css/all.min.css", by decide⟩

end

/-! ### Examples -/

example : HexHash c!"0f343b0931126a20f133d67c2b018a3b" := by decide

/-- the hypotheses of `C93_downloads`: a document is sent and its report is served; the checksum in the sample is the content itself -/
example : letI := Uni.ascii
    HexHash c!"0f" ∧ (match serveReport srvEnv repEngine (srvRun srvEnv (srvStart srvEnv srvFiles srvDirs)
        [.post c!"/tmp/u1" (some (c!"a.docx", c!"0f")) true, .finish 0]) c!"0f" with
      | .ok _ => true | .error _ => false) = true := by decide +kernel

example : pageRequest c!"/report/0f34?bundle=1" = some (.getReport c!"0f34", true) ∧ pageRequest c!"/report/0f34" = some (.getReport c!"0f34", false) ∧
    pageRequest c!"/json/0f34?bundle=1" = some (.getJson c!"0f34", false) ∧ pageRequest c!"/html/a/b" = none := by
  refine ⟨?_, ?_, ?_, ?_⟩ <;> rfl

end Spex
