import Verif.Lemmas.Monad
/-
A small program logic for `M`: every event satisfies `P`, a returned value satisfies `Q`, a raised exception satisfies `R`,
and the flag is not changed.
-/
set_option autoImplicit false
namespace Spex

/-- partial correctness triple (without precondition) -/
def Sat {α : Type} (P : Ev → Prop) (Q : α → Prop) (R : Exn → Prop) (m : M α) : Prop :=
  ∀ f, (∀ e ∈ (m f).evs, P e) ∧ (∀ a, (m f).out = .ok a → Q a) ∧ (∀ x, (m f).out = .error x → R x) ∧
    (m f).flag = f

namespace Sat
variable {α β : Type} {P : Ev → Prop} {Q : α → Prop} {Q' : β → Prop} {R : Exn → Prop}

theorem pure {a : α} (h : Q a) : Sat P Q R (Pure.pure a : M α) := by
  intro f
  refine ⟨by simp [M.pure_run], ?_, by simp [M.pure_run], rfl⟩
  intro b hb
  simp only [M.pure_run, Except.ok.injEq] at hb
  exact hb ▸ h

theorem bind {m : M α} {k : α → M β} (hm : Sat P Q R m) (hk : ∀ a, Q a → Sat P Q' R (k a)) : Sat P Q' R (m >>= k) := by
  intro f
  obtain ⟨h1, h2, h3, h4⟩ := hm f
  cases ho : (m f).out with
  | error e =>
    rw [M.bind_err ho]
    exact ⟨h1, by simp, fun x hx => h3 x (by rw [ho]; simpa using hx), h4⟩
  | ok a =>
    obtain ⟨k1, k2, k3, k4⟩ := hk a (h2 a ho) (m f).flag
    rw [M.bind_ok ho]
    refine ⟨?_, k2, k3, k4.trans h4⟩
    intro e he
    rcases List.mem_append.mp he with he | he
    · exact h1 e he
    · exact k1 e he

theorem raise {e : Exn} (h : R e) : Sat P Q R (M.raise e : M α) := by
  intro f
  refine ⟨by simp [M.raise_run], by simp [M.raise_run], ?_, rfl⟩
  intro x hx
  simp only [M.raise_run, Except.error.injEq] at hx
  exact hx ▸ h

theorem ofExcept {x : Except Exn α} (h1 : ∀ a, x = .ok a → Q a) (h2 : ∀ e, x = .error e → R e) :
    Sat P Q R (M.ofExcept x) := by
  intro f
  exact ⟨by simp [M.ofExcept_run], h1, h2, rfl⟩

theorem emit {e : Ev} {Q : Unit → Prop} (h : P e) (hq : Q ()) : Sat P Q R (M.emit e) := by
  intro f
  refine ⟨?_, fun _ _ => hq, by simp [M.emit_run], rfl⟩
  intro x hx
  simp only [M.emit_run, List.mem_singleton] at hx
  exact hx ▸ h

theorem yield {e : Entity} {Q : Unit → Prop} (h : P (.ent e)) (hq : Q ()) : Sat P Q R (M.yield e) := emit h hq

theorem weaken {P' : Ev → Prop} {Q' : α → Prop} {R' : Exn → Prop} {m : M α} (hm : Sat P Q R m) (hp : ∀ e, P e → P' e)
    (hq : ∀ a, Q a → Q' a) (hr : ∀ e, R e → R' e) : Sat P' Q' R' m := by
  intro f
  obtain ⟨h1, h2, h3, h4⟩ := hm f
  exact ⟨fun e he => hp e (h1 e he), fun a ha => hq a (h2 a ha), fun e he => hr e (h3 e he), h4⟩

theorem addIssue {err : LintErr} {fig : Str} {row : Option Str} {ctx : List (Str × Json)} {Q : Unit → Prop} (hf : fig ≠ [])
    (hr : err.needsRow = false ∨ row.isSome = true) (h : P (.lint (issue err fig row ctx))) (hq : Q ()) :
    Sat P Q R (addIssue err fig row ctx) := by
  rw [addIssue_ok hf hr]
  exact emit h hq

/-- `if c then m` as elaborated by `do` -/
theorem ite {c : Prop} [Decidable c] {m n : M α} (h1 : c → Sat P Q R m) (h2 : ¬ c → Sat P Q R n) :
    Sat P Q R (if c then m else n) := by
  split
  · exact h1 ‹_›
  · exact h2 ‹_›

end Sat
end Spex
