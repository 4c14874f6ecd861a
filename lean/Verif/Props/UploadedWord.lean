import Verif.Props.ServerSteps
import Verif.Props.WholeDocument
import Verif.Props.ListStyle
/-
C95: a document sent to the server, from the upload to the files served.
-/
set_option autoImplicit false
namespace Spex
variable [Uni]

/-! ### The histories of both servers -/

/-- a read of a stream in both histories -/
theorem atOnce_next {env : StepEnv} {h : List StepEv} {cs : List SrvEv} (ha : AtOnce h cs) : ∀ {F : StepSrv} {C : Srv},
    (stepTrace env F h).map (·.2) = (srvTrace env.toSrvEnv C cs).map (·.2) → ∀ j r, (StepEv.next j, r) ∈ stepTrace env F h →
      (SrvEv.finish j, r) ∈ srvTrace env.toSrvEnv C cs ∨ ∃ p, r = (.nothing : SrvResp) ∨ r = .event (jsonToSse (progressEvent p)) := by
  induction ha with
  | nil => intro F C _ j r hm; simp [stepTrace] at hm
  | report i p _ ih =>
    intro F C ht j r hm
    simp only [stepTrace, srvTrace, List.map_cons, List.cons.injEq] at ht hm ⊢
    rcases List.mem_cons.1 hm with hm | hm
    · injection hm with h1 h2
      refine .inr ⟨p, ?_⟩
      rw [h2, ht.1, srvStep]
      split
      · exact .inl rfl
      · split
        · exact .inr rfl
        · exact .inl rfl
    · rcases ih ht.2 j r hm with h | h
      · exact .inl (List.mem_cons_of_mem _ h)
      · exact .inr h
  | finish i _ ih =>
    intro F C ht j r hm
    simp only [stepTrace, srvTrace, List.map_cons, List.cons.injEq] at ht hm ⊢
    rcases List.mem_cons.1 hm with hm | hm
    · injection hm with h1 h2
      injection h1 with h1
      refine .inl ?_
      rw [h1, h2, ht.1]
      exact List.mem_cons_self
    · rcases ih ht.2 j r hm with h | h
      · exact .inl (List.mem_cons_of_mem _ h)
      · exact .inr h
  | other e _ ih =>
    intro F C ht j r hm
    simp only [stepTrace, srvTrace, List.map_cons, List.cons.injEq] at ht hm ⊢
    rcases List.mem_cons.1 hm with hm | hm
    · simp at hm
    · rcases ih ht.2 j r hm with h | h
      · exact .inl (List.mem_cons_of_mem _ h)
      · exact .inr h

omit [Uni] in
/-- a report is not the event of a completed report -/
theorem progress_ne_completed (p : Progress) (hash : Str) : jsonToSse (completedEvent hash) ≠ jsonToSse (progressEvent p) := by
  intro h
  have h1 := C57_client [[completedEvent hash]]
  have h2 := C57_client [[progressEvent p]]
  simp only [List.flatMap_cons, List.flatMap_nil, List.append_nil, List.flatten_cons, List.flatten_nil] at h1 h2
  rw [h, h2] at h1
  injection h1 with h1 _
  simp [completedEvent, progressEvent] at h1

theorem stepTrace_append (env : StepEnv) : ∀ (h1 h2 : List StepEv) (F : StepSrv),
    stepTrace env F (h1 ++ h2) = stepTrace env F h1 ++ stepTrace env (stepRun env F h1) h2
  | [], _, _ => rfl
  | e :: es, h2, F => by rw [List.cons_append, stepTrace, stepTrace, stepRun, stepTrace_append env es, List.cons_append]

theorem stepRun_append (env : StepEnv) : ∀ (h1 h2 : List StepEv) (F : StepSrv), stepRun env F (h1 ++ h2) = stepRun env (stepRun env F h1) h2
  | [], _, _ => rfl
  | e :: es, h2, F => by rw [List.cons_append, stepRun, stepRun, stepRun_append env es]

omit [Uni] in
theorem mem_seenOf {j : Nat} {tr : List (StepEv × SrvResp)} {r : SrvResp} (h : r ∈ seenOf j tr) : (StepEv.next j, r) ∈ tr := by
  rw [seenOf, List.mem_filterMap] at h
  obtain ⟨⟨e, r'⟩, hm, he⟩ := h
  cases e with
  | next i =>
    simp only at he
    split at he
    · next hi => injection he with he; rw [← hi.1, ← he]; exact hm
    · simp at he
  | other e => simp at he

/-! ### C95 -/

/-- **C95**, for plain file names, different base names for different documents and a hash which no other document has: if the reports can
be made of a document and its event stream is read to the end, whatever else is going on, then its reports are served from then on. -/
theorem C95_served_partial (env : StepEnv) (files : Files) (dirs : List Str) (hf : ∀ f, files f ≠ none → f.dir ∈ dirs) (h1 h2 : List StepEv)
    (dir name content : Str) (plain : ∀ x ∈ sentDocs (h1 ++ .other (.post dir (some (name, content)) true) :: h2), PlainName x.1)
    (proper : ∀ e ∈ h1 ++ h2, e.proper)
    (distinct : ∀ x ∈ sentDocs (h1 ++ .other (.post dir (some (name, content)) true) :: h2),
      ∀ y ∈ sentDocs (h1 ++ .other (.post dir (some (name, content)) true) :: h2), baseName x.1 = baseName y.1 → x = y)
    (only : ∀ x ∈ sentDocs (h1 ++ .other (.post dir (some (name, content)) true) :: h2),
      md5sum env.hasher x.2 chunkBytes = md5sum env.hasher content chunkBytes → x = (name, content)) (j : Nat)
    (hj : (stepSrv env (stepRun env (stepStart env files dirs) h1) (.other (.post dir (some (name, content)) true))).2 = .stream j)
    (hread : (docReports env name content).length < readsOf j h2) (jt ht : Str) (hjt : jsonReport env.tools name content = some jt)
    (hht : htmlReport env.tools name content = some ht) :
    let F := stepRun env (stepStart env files dirs) (h1 ++ .other (.post dir (some (name, content)) true) :: h2)
    (stepSrv env F (.other (.getJson (md5sum env.hasher content chunkBytes)))).2 = .text jt ∧
    (stepSrv env F (.other (.getHtml (md5sum env.hasher content chunkBytes)))).2 = .text ht ∧
    (stepSrv env F (.other (.getReport (md5sum env.hasher content chunkBytes)))).2 = .page jt := by
  have hseen := C94_stream env files dirs hf h1 h2 dir name content plain proper j hj
  have hproper : ∀ e ∈ h1 ++ .other (.post dir (some (name, content)) true) :: h2, e.proper := by
    intro e he
    rcases List.mem_append.1 he with he | he
    · exact proper e (List.mem_append_left _ he)
    · rcases List.mem_cons.1 he with rfl | he
      · trivial
      · exact proper e (List.mem_append_right _ he)
  have htr : (StepEv.next j, SrvResp.event (jsonToSse (completedEvent (md5sum env.hasher content chunkBytes)))) ∈
      stepTrace env (stepStart env files dirs) (h1 ++ .other (.post dir (some (name, content)) true) :: h2) := by
    rw [stepTrace_append]
    refine List.mem_append_right _ (List.mem_cons_of_mem _ (mem_seenOf ?_))
    rw [hseen, List.take_of_length_le (by simp [docStream]; omega), docStream, hjt, hht]
    simp
  have hserved := fun hash text => C94_served_partial env files dirs hf _ plain hproper distinct hash text
  obtain ⟨cs, ha, ht', s⟩ := Sim.history (ps := sentDocs (h1 ++ .other (.post dir (some (name, content)) true) :: h2)) _
    (fun x hx => ⟨hx, plain x hx⟩) hproper (sim_start env files dirs hf _)
  have hcomp : Completed (srvTrace env.toSrvEnv (srvStart env.toSrvEnv files dirs) cs) (md5sum env.hasher content chunkBytes) := by
    rcases atOnce_next ha ht' j _ htr with h | ⟨p, h | h⟩
    · exact ⟨j, h⟩
    · simp at h
    · injection h with h
      exact absurd h (progress_ne_completed p _)
  obtain ⟨jt', ht'', k1, k2, k3⟩ := C60_available env.toSrvEnv files dirs hf cs _ hcomp
  have hnone : ∀ {e : SrvEv}, posted [e] = [] →
      ∀ x ∈ posted [e], x ∈ sentDocs (h1 ++ .other (.post dir (some (name, content)) true) :: h2) ∧ PlainName x.1 := by
    intro e he x hx; rw [he] at hx; simp at hx
  intro F
  have e1 := (s.other (.getJson (md5sum env.hasher content chunkBytes)) trivial (hnone rfl)).1
  have e2 := (s.other (.getHtml (md5sum env.hasher content chunkBytes)) trivial (hnone rfl)).1
  have e3 := (s.other (.getReport (md5sum env.hasher content chunkBytes)) trivial (hnone rfl)).1
  rw [k1] at e1
  rw [k2] at e2
  rw [k3] at e3
  obtain ⟨x, hx, hh, hr⟩ := (hserved _ _).1 e1
  rw [only x hx hh, hjt] at hr
  injection hr with hr
  obtain ⟨y, hy, hh', hr'⟩ := (hserved _ _).2.1 e2
  rw [only y hy hh', hht] at hr'
  injection hr' with hr'
  subst hr hr'
  exact ⟨e1, e2, e3⟩

/-- the files which a run on a Word document leaves: the page is still there at the end -/
theorem runSpec_docx_html {t : Tools} {w : Files} {s : FPath} {stem bytes page css : Str} (o : Opts) (h1 : stem ≠ []) (h2 : s.name = stem ++ c!".docx")
    (h3 : w s = some bytes) (h4 : t.docx stem bytes = .ok (page, css)) : (runSpec t o w s).1 ⟨o.out, stem ++ c!".html"⟩ = some page := by
  have e1 : suffix s.name = c!".docx" := by rw [h2]; exact suffix_of stem c!"docx" h1 (by decide) (by decide)
  have e2 : baseName s.name = stem := by rw [h2]; exact baseName_of stem c!"docx" h1 (by decide) (by decide)
  have e3 : baseName (stem ++ c!".html") = stem := baseName_of stem c!"html" h1 (by decide) (by decide)
  have n1 : (⟨o.out, stem ++ c!".html"⟩ : FPath) ≠ ⟨o.out, stem ++ c!".json"⟩ := by
    intro h; exact ext_ne (s := c!".htm") (t := c!".jso") (by decide) (FPath.mk.inj h).2
  have n2 : (⟨o.out, stem ++ c!".html"⟩ : FPath) ≠ ⟨o.out, stem ++ c!".css"⟩ := by
    intro h; exact ext_ne (s := c!".htm") (t := c!".cs") (by decide) (FPath.mk.inj h).2
  rw [runSpec, if_pos e1]
  simp only [convertWord, h3, e2, h4]
  rw [runJson]
  simp only [e3]
  rw [Files.set_ne n1, Files.set_ne n1, Files.set_ne n2, Files.set_self]

/-- **C95** for Word documents: of a document which both stages can read (C80), sent to the server and read to the end of its event stream while the server
has other work to do, the stream shows the reports of both stages and then that of the completed report, and the server has the JSON model
of all its tables and its page from then on. If a figure ends the run, the stream is cut off instead. It is `partial` as C94 and C80 are. -/
theorem C95_word_partial {f : WordFile} {stem : Str} {doc : WordDoc} {header : Str} {us : List HUnit} (h : Readable f stem doc header us)
    {layout : List Piece → Str} (hl : ∀ ps, Laid ps (layout ps)) {unzip : Str → WordFile} {bytes : Str} (hb : unzip bytes = f) (h1 : stem ≠ [])
    {r : Str} (hr : headerRevision header = some r) (hreg : Regular doc) {ts : List LNode} (hts : OwnTables doc ts) {kinds : List TableKind}
    (hk : List.Forall₂ (TakenFor doc) ts kinds) (hlk : ∀ kind ∈ kinds, Suits (lower (headerTitle header)) (lower r) kind)
    (hasher : Hasher) (cache : Str) (files : Files) (dirs : List Str) (hf : ∀ p, files p ≠ none → p.dir ∈ dirs) (before after : List StepEv) (dir : Str)
    (plain : ∀ x ∈ sentDocs (before ++ .other (.post dir (some (stem ++ c!".docx", bytes)) true) :: after), PlainName x.1)
    (proper : ∀ e ∈ before ++ after, e.proper)
    (distinct : ∀ x ∈ sentDocs (before ++ .other (.post dir (some (stem ++ c!".docx", bytes)) true) :: after),
      ∀ y ∈ sentDocs (before ++ .other (.post dir (some (stem ++ c!".docx", bytes)) true) :: after), baseName x.1 = baseName y.1 → x = y)
    (only : ∀ x ∈ sentDocs (before ++ .other (.post dir (some (stem ++ c!".docx", bytes)) true) :: after),
      md5sum hasher x.2 chunkBytes = md5sum hasher bytes chunkBytes → x = (stem ++ c!".docx", bytes)) (j : Nat)
    (hj : (stepSrv (stageEnv unzip layout hasher cache) (stepRun (stageEnv unzip layout hasher cache) (stepStart (stageEnv unzip layout hasher cache) files dirs) before)
      (.other (.post dir (some (stem ++ c!".docx", bytes)) true))).2 = .stream j)
    (hread : (parseDocx f stem layout [] true true).1.length < readsOf j after) :
    let env := stageEnv unzip layout hasher cache
    let F0 := stepRun env (stepStart env files dirs) before
    let F := stepRun env (stepStart env files dirs) (before ++ .other (.post dir (some (stem ++ c!".docx", bytes)) true) :: after)
    let hash := md5sum hasher bytes chunkBytes
    ∃ evs ok, DocOut (labelsFor (lower (headerTitle header)) (lower r)) true 0 kinds evs ok ∧
      seenOf j (stepTrace env (stepSrv env F0 (.other (.post dir (some (stem ++ c!".docx", bytes)) true))).1 after) =
        (parseDocx f stem layout [] true true).1.map (fun p => .event (jsonToSse (progressEvent p))) ++
          [if ok = true then .event (jsonToSse (completedEvent hash)) else .failed] ∧
      (ok = true → ∃ text, readJson text = some (modelJson (openedInfo (lower (headerTitle header)) (lower r) ++
            [(c!"lint", .arr ((allDiagnostics evs).map LintEntry.toJson))]) ((entities evs).map Entity.toJson)) ∧
          (stepSrv env F (.other (.getJson hash))).2 = .text text ∧ (stepSrv env F (.other (.getReport hash))).2 = .page text ∧
          (stepSrv env F (.other (.getHtml hash))).2 =
            .text (layout (renderPage spexVersion (headerTitle header) (headerRevision header) stem us).1)) := by
  intro env F0 F hash
  have e1 : suffix (stem ++ c!".docx") = c!".docx" := suffix_of stem c!"docx" h1 (by decide) (by decide)
  have e2 : baseName (stem ++ c!".docx") = stem := baseName_of stem c!"docx" h1 (by decide) (by decide)
  have hreps : docReports env (stem ++ c!".docx") bytes = (parseDocx f stem layout [] true true).1 := by
    rw [C94_reports unzip layout hasher cache _ _ e1, e2, hb]
  obtain ⟨evs, ok, text, d1, d2, d3, d4⟩ := C80_whole_document_partial (w := fun p => if p = ⟨[], stem ++ c!".docx"⟩ then some bytes else none)
    (s := ⟨[], stem ++ c!".docx"⟩) h hl hb h1 rfl (if_pos rfl) ⟨[], true, [], false⟩ hr hreg hts hk hlk
  have hpage : ∃ css, env.tools.docx stem bytes = .ok (layout (renderPage spexVersion (headerTitle header) (headerRevision header) stem us).1, css) := by
    obtain ⟨css, hs⟩ := h.stage false
    have he : env.tools.docx stem bytes = (stageTools unzip layout).docx stem bytes := rfl
    simp only [he, stageTools, hb, hs]
    exact ⟨_, rfl⟩
  obtain ⟨css, hpage⟩ := hpage
  have hhtml := runSpec_docx_html (t := env.tools) (w := fun p => if p = ⟨[], stem ++ c!".docx"⟩ then some bytes else none)
    (s := ⟨[], stem ++ c!".docx"⟩) ⟨[], true, [], false⟩ h1 rfl (if_pos rfl) hpage
  have hrun : runAlone env.tools (stem ++ c!".docx") bytes = runSpec (stageTools unzip layout) ⟨[], true, [], false⟩
    (fun p => if p = ⟨[], stem ++ c!".docx"⟩ then some bytes else none) ⟨[], stem ++ c!".docx"⟩ := rfl
  have hhtml' : (runAlone env.tools (stem ++ c!".docx") bytes).1 ⟨[], stem ++ c!".html"⟩ =
    some (layout (renderPage spexVersion (headerTitle header) (headerRevision header) stem us).1) := hhtml
  rw [← hrun] at d2 d4
  have hseen := C94_stream env files dirs hf before after dir (stem ++ c!".docx") bytes plain proper j hj
  rw [List.take_of_length_le (by simp only [docStream, List.length_append, List.length_map, hreps, List.length_singleton]; omega), docStream, hreps] at hseen
  have hgood : ok = true → jsonReport env.tools (stem ++ c!".docx") bytes = some text ∧ htmlReport env.tools (stem ++ c!".docx") bytes =
      some (layout (renderPage spexVersion (headerTitle header) (headerRevision header) stem us).1) := by
    intro hok
    have hres := d4.2 hok
    rcases hx : runAlone env.tools (stem ++ c!".docx") bytes with ⟨w', res⟩
    rw [hx] at d2 hhtml' hres
    simp only at d2 hhtml' hres
    subst hres
    rw [jsonReport, htmlReport, hx]
    simp only [withSuffix_json h1]
    exact ⟨d2, hhtml'⟩
  refine ⟨evs, ok, d1, ?_, ?_⟩
  · rw [hseen]
    congr 2
    cases ok with
    | true =>
      rw [(hgood rfl).1, (hgood rfl).2]
      rfl
    | false =>
      have hj' : jsonReport env.tools (stem ++ c!".docx") bytes = none := by
        rw [jsonReport]
        rcases hx : runAlone env.tools (stem ++ c!".docx") bytes with ⟨w', res⟩
        cases res with
        | error e => rfl
        | ok p =>
          exfalso
          have hret := (runSpec_docx (t := env.tools) (w := fun p => if p = ⟨[], stem ++ c!".docx"⟩ then some bytes else none)
            (s := ⟨[], stem ++ c!".docx"⟩) ⟨[], true, [], false⟩ h1 rfl (if_pos rfl) hpage).2
          change (runAlone env.tools (stem ++ c!".docx") bytes).2 = _ at hret
          rw [hx] at hret d4
          have hp : (Except.ok p : Except Exn FPath) ≠ .ok ⟨[], stem ++ c!".json"⟩ := fun hp => by simpa using d4.1 hp
          simp only at hret
          split at hret
          · exact hp hret
          · cases hret
          · cases hret
      rw [hj']
      rfl
  · intro hok
    obtain ⟨hj', hh'⟩ := hgood hok
    obtain ⟨k1, k2, k3⟩ := C95_served_partial env files dirs hf before after dir (stem ++ c!".docx") bytes plain proper distinct only j hj
      (by rw [hreps]; exact hread) text _ hj' hh'
    refine ⟨text, ?_, k1, k3, k2⟩
    rw [d3, if_pos hok]
    simp

/-! ### A server -/

/-- the hypotheses of C95 for the first upload of the history of C94 -/
example : letI := Uni.ascii
    (stepHistory.head? = some (.other (.post c!"/tmp/u1" (some (c!"a.docx", c!"one")) true))) ∧
    (∀ x ∈ sentDocs stepHistory, md5sum stepEnv.hasher x.2 chunkBytes = md5sum stepEnv.hasher c!"one" chunkBytes → x = (c!"a.docx", c!"one")) ∧
    (stepSrv stepEnv (stepStart stepEnv srvFiles srvDirs) (.other (.post c!"/tmp/u1" (some (c!"a.docx", c!"one")) true))).2 = .stream 0 ∧
    (docReports stepEnv c!"a.docx" c!"one").length < readsOf 0 (stepHistory.drop 1) ∧
    (jsonReport stepEnv.tools c!"a.docx" c!"one").isSome ∧ htmlReport stepEnv.tools c!"a.docx" c!"one" = some c!"one" := by
  let _ := Uni.ascii
  refine ⟨rfl, ?_, by decide +kernel, by decide +kernel, by decide +kernel, by decide +kernel⟩
  have h : sentDocs stepHistory = [(c!"a.docx", c!"one"), (c!"b.docx", c!"bad"), (c!"c.docx", c!"three")] := rfl
  rw [h]
  decide +kernel

omit [Uni] in
/-- the Word file of the document of the example of C80 -/
def exWholeFile : WordFile where
  document := .ok exWholeDoc.root
  numbering := (exListFile [exLevel "0" "decimal" "%1.", exLevel "1" "bullet" "o", exLevel "2" "lowerLetter" "%3"] []).numbering
  header := .ok exHeader
  styles := .ok exWholeDoc.styles

/-- a server with a second Word document -/
def wholeEnv : StepEnv := stageEnv (fun b => if b = c!"whole" then exWholeFile else exFile exHeader) plainText srvEnv.hasher c!"/tmp/cache"

omit [Uni] in
def wholeBefore : List StepEv := [.other (.post c!"/tmp/u1" (some (c!"other.docx", c!"small")) true), .next 0]

omit [Uni] in
def wholePost : StepEv := .other (.post c!"/tmp/u2" (some (c!"nvme.docx", c!"whole")) true)

omit [Uni] in
def wholeAfter : List StepEv := (List.replicate 12 [.next 1, .next 0]).flatten

omit [Uni] in
theorem exWhole_readable : letI := Uni.ascii
    ∃ us, Readable exWholeFile c!"nvme" exWholeDoc c!"NVM Express® Base Specification, Revision 2.0c" us := by
  let _ := Uni.ascii
  obtain ⟨us, h1⟩ : ∃ us, parseWord exWholeDoc = .ok us := by
    have : (parseWord exWholeDoc).toOption.map (fun _ => ()) = some () := by decide +kernel
    cases h : parseWord exWholeDoc with
    | error e => rw [h] at this; cases this
    | ok us => exact ⟨us, rfl⟩
  refine ⟨us, ⟨by rfl, by decide +kernel, h1, ?_, ?_, ?_⟩⟩
  · have : (headerTitle c!"NVM Express® Base Specification, Revision 2.0c").all (fun c => isXmlChar c && !(c!"<>&\"\t\n\r").contains c) = true := by
      decide +kernel
    intro c hc
    have := List.all_eq_true.1 this c hc
    simpa only [Bool.and_eq_true, Bool.not_eq_true', List.contains_eq_mem, decide_eq_false_iff_not] using this
  · have : headerRevision c!"NVM Express® Base Specification, Revision 2.0c" = some c!"2.0c" := by decide +kernel
    intro r hr
    rw [this] at hr
    cases hr
    unfold HeadText
    decide +kernel
  · unfold HeadText
    decide +kernel

/-- C95 for the example of C80, while the server works on a second document -/
example : letI := Uni.ascii
    ∃ evs, DocOut (labelsFor c!"nvm express® base specification" c!"2.0c") true 0
        [.figure c!"Figure 9: Nest" c!"9" exNestFig, .plain, .nameless c!"Figure: No number", .nameless c!"Figure: None either"] evs true ∧
      ∃ text, readJson text = some (modelJson (openedInfo c!"nvm express® base specification" c!"2.0c" ++
          [(c!"lint", .arr ((allDiagnostics evs).map LintEntry.toJson))]) ((entities evs).map Entity.toJson)) ∧
        (stepSrv wholeEnv (stepRun wholeEnv (stepStart wholeEnv srvFiles srvDirs) (wholeBefore ++ wholePost :: wholeAfter)) (.other (.getJson c!"whole"))).2 =
          .text text := by
  let _ := Uni.ascii
  obtain ⟨us, hu⟩ := exWhole_readable
  have hs : sentDocs (wholeBefore ++ wholePost :: wholeAfter) = [(c!"other.docx", c!"small"), (c!"nvme.docx", c!"whole")] := rfl
  have hl : lower (headerTitle c!"NVM Express® Base Specification, Revision 2.0c") = c!"nvm express® base specification" := by decide +kernel
  have hr : lower c!"2.0c" = c!"2.0c" := by decide +kernel
  have hlast : (seenOf 1 (stepTrace wholeEnv (stepSrv wholeEnv (stepRun wholeEnv (stepStart wholeEnv srvFiles srvDirs) wholeBefore) wholePost).1 wholeAfter)).getLast? =
      some (.event (jsonToSse (completedEvent c!"whole"))) := by decide +kernel
  obtain ⟨evs, ok, h1, h2, h3⟩ := C95_word_partial hu plainText_laid
    (unzip := fun b => if b = c!"whole" then exWholeFile else exFile exHeader) (bytes := c!"whole") rfl (by decide)
    (r := c!"2.0c") (by decide +kernel) exWhole_regular exWhole_own exWhole_kinds (by
      rw [hl, hr]
      intro kind hk
      simp only [List.mem_cons, List.not_mem_nil, or_false] at hk
      rcases hk with rfl | rfl | rfl | rfl
      · exact .figure _ _ _ (by decide +kernel)
      · exact .plain
      · exact .nameless _
      · exact .nameless _)
    srvEnv.hasher c!"/tmp/cache" srvFiles srvDirs srvFiles_dirs wholeBefore wholeAfter c!"/tmp/u2"
    (by
      change ∀ x ∈ sentDocs (wholeBefore ++ wholePost :: wholeAfter), _
      rw [hs]
      unfold PlainName
      decide)
    (by
      have : ∀ e ∈ wholeBefore ++ wholeAfter, e = .next 0 ∨ e = .next 1 ∨ e = .other (.post c!"/tmp/u1" (some (c!"other.docx", c!"small")) true) := by
        simp [wholeBefore, wholeAfter]
      intro e he
      rcases this e he with rfl | rfl | rfl <;> trivial)
    (by
      change ∀ x ∈ sentDocs (wholeBefore ++ wholePost :: wholeAfter), ∀ y ∈ sentDocs (wholeBefore ++ wholePost :: wholeAfter), _
      rw [hs]
      decide)
    (by
      change ∀ x ∈ sentDocs (wholeBefore ++ wholePost :: wholeAfter), _
      rw [hs]
      decide +kernel)
    1 (by decide +kernel) (by decide +kernel)
  have hok : ok = true := by
    change seenOf 1 (stepTrace wholeEnv (stepSrv wholeEnv (stepRun wholeEnv (stepStart wholeEnv srvFiles srvDirs) wholeBefore) wholePost).1 wholeAfter) = _ at h2
    rw [h2, List.getLast?_concat] at hlast
    cases ok with
    | true => rfl
    | false => simp at hlast
  subst hok
  obtain ⟨text, k1, k2, -, -⟩ := h3 rfl
  rw [hl, hr] at h1 k1
  exact ⟨evs, h1, text, k1, k2⟩

omit [Uni] in
/-- **C95** is false if two documents are sent under the same name: both event streams announce a report, but the page of the first is then that of
the second. -/
theorem C95_same_name_false : letI := Uni.ascii
    ∃ h2 : List StepEv, sentDocs h2 = [(c!"a.docx", c!"two")] ∧
      SrvResp.event (jsonToSse (completedEvent c!"one")) ∈ seenOf 0 (stepTrace stepEnv (stepStart stepEnv srvFiles srvDirs)
        (.other (.post c!"/tmp/u1" (some (c!"a.docx", c!"one")) true) :: h2)) ∧
      htmlReport stepEnv.tools c!"a.docx" c!"one" = some c!"one" ∧
      (stepSrv stepEnv (stepRun stepEnv (stepStart stepEnv srvFiles srvDirs) (.other (.post c!"/tmp/u1" (some (c!"a.docx", c!"one")) true) :: h2))
        (.other (.getHtml c!"one"))).2 = .text c!"two" := by
  let _ := Uni.ascii
  refine ⟨[.other (.post c!"/tmp/u2" (some (c!"a.docx", c!"two")) true), .next 0, .next 1, .next 0, .next 1, .next 0, .next 1], rfl, ?_, ?_, ?_⟩ <;>
    decide +kernel

end Spex
