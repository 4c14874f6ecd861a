import Verif.Model.Lint
/-
Reasoning rules for the effect monad `M`.
-/
set_option autoImplicit false
namespace Spex

attribute [ext] Res

namespace M
variable {α β γ : Type}

theorem pure_run (a : α) (f : Bool) : (Pure.pure a : M α) f = ⟨[], f, .ok a⟩ := rfl

theorem bind_run (m : M α) (k : α → M β) (f : Bool) :
    (m >>= k) f = match (m f).out with
      | .error e => ⟨(m f).evs, (m f).flag, .error e⟩
      | .ok a => ⟨(m f).evs ++ (k a (m f).flag).evs, (k a (m f).flag).flag, (k a (m f).flag).out⟩ := by
  show M.bind m k f = _
  simp only [M.bind]
  cases (m f).out <;> rfl

theorem bind_ok {m : M α} {k : α → M β} {f : Bool} {a : α} (h : (m f).out = .ok a) :
    (m >>= k) f = ⟨(m f).evs ++ (k a (m f).flag).evs, (k a (m f).flag).flag, (k a (m f).flag).out⟩ := by
  rw [bind_run, h]

theorem bind_err {m : M α} {k : α → M β} {f : Bool} {e : Exn} (h : (m f).out = .error e) :
    (m >>= k) f = ⟨(m f).evs, (m f).flag, .error e⟩ := by
  rw [bind_run, h]

theorem bind_out_ok {m : M α} {k : α → M β} {f : Bool} {b : β} (h : ((m >>= k) f).out = .ok b) :
    ∃ a, (m f).out = .ok a ∧ (k a (m f).flag).out = .ok b ∧ ((m >>= k) f).evs = (m f).evs ++ (k a (m f).flag).evs ∧
      ((m >>= k) f).flag = (k a (m f).flag).flag := by
  cases hm : (m f).out with
  | error e => rw [bind_err hm] at h; simp at h
  | ok a =>
    rw [bind_ok hm] at h ⊢
    exact ⟨a, rfl, h, rfl, rfl⟩

instance : LawfulMonad M := LawfulMonad.mk'
  (id_map := by
    intro α x
    funext f
    show M.bind x (fun a => M.pure a) f = x f
    unfold M.bind M.pure
    generalize hx : x f = r
    rcases r with ⟨ev, fl, o⟩
    cases o <;> simp)
  (pure_bind := by
    intro α β a k
    funext f
    show M.bind (M.pure a) k f = k a f
    simp [M.bind, M.pure])
  (bind_assoc := by
    intro α β γ x k l
    funext f
    show M.bind (M.bind x k) l f = M.bind x (fun a => M.bind (k a) l) f
    simp only [M.bind]
    cases h : (x f).out with
    | error e => rfl
    | ok a =>
      simp only
      cases h2 : (k a (x f).flag).out with
      | error e => rfl
      | ok b => simp [List.append_assoc])

theorem raise_run (e : Exn) (f : Bool) : (M.raise e : M α) f = ⟨[], f, .error e⟩ := rfl
theorem ofExcept_run (x : Except Exn α) (f : Bool) : M.ofExcept x f = ⟨[], f, x⟩ := rfl
theorem emit_run (e : Ev) (f : Bool) : M.emit e f = ⟨[e], f, .ok ()⟩ := rfl
theorem yield_run (e : Entity) (f : Bool) : M.yield e f = ⟨[.ent e], f, .ok ()⟩ := rfl
theorem setFlag_run (b f : Bool) : M.setFlag b f = ⟨[], b, .ok ()⟩ := rfl
theorem getFlag_run (f : Bool) : M.getFlag f = ⟨[], f, .ok f⟩ := rfl

theorem tryCatch_run (m : M α) (h : Exn → M α) (f : Bool) :
    M.tryCatch m h f = match (m f).out with
      | .ok _ => m f
      | .error e => ⟨(m f).evs ++ (h e (m f).flag).evs, (h e (m f).flag).flag, (h e (m f).flag).out⟩ := by
  unfold M.tryCatch
  cases h : (m f).out <;> simp [h]

@[simp] theorem ofExcept_ok (a : α) : M.ofExcept (.ok a) = (Pure.pure a : M α) := rfl
@[simp] theorem ofExcept_error (e : Exn) : (M.ofExcept (.error e) : M α) = M.raise e := rfl
@[simp] theorem raise_bind (e : Exn) (k : α → M β) : (M.raise e >>= k) = M.raise e := rfl

end M

/-- The diagnostic which `addIssue` records. -/
def issue (err : LintErr) (fig : Str) (row : Option Str) (ctx : List (Str × Json) := []) : LintEntry :=
  ⟨err, fig, err.text, row, ctx⟩

theorem addIssue_ok {err : LintErr} {fig : Str} {row : Option Str} {ctx : List (Str × Json)} (hf : fig ≠ [])
    (hr : err.needsRow = false ∨ row.isSome = true) :
    addIssue err fig row ctx = M.emit (.lint (issue err fig row ctx)) := by
  unfold addIssue mkLintEntry issue
  have h : (err.needsRow && row.isNone) = false := by
    rcases hr with h | h
    · simp [h]
    · cases row <;> simp_all
  simp [hf, h]

theorem addIssue_row {err : LintErr} {fig r : Str} {ctx : List (Str × Json)} (hf : fig ≠ []) :
    addIssue err fig (some r) ctx = M.emit (.lint (issue err fig (some r) ctx)) :=
  addIssue_ok hf (.inr rfl)

theorem addIssue_none {err : LintErr} {fig : Str} {ctx : List (Str × Json)} (hf : fig ≠ [])
    (h : err.needsRow = false) :
    addIssue err fig none ctx = M.emit (.lint (issue err fig none ctx)) :=
  addIssue_ok hf (.inl h)

end Spex
