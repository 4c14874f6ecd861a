import Verif.Model.LogOut
import Verif.Props.Log
/-
C90: what the logger prints to the standard output.
-/
set_option autoImplicit false
namespace Spex

/-! ### Specification -/

/-- an exception was raised from another one, directly or not -/
inductive CausedBy : PyExc → PyExc → Nat → Prop
  | direct (t m : Str) (fs : List Frame) (c : PyExc) : CausedBy (.mk t m fs (some c)) c 0
  | further (t m : Str) (fs : List Frame) (c e : PyExc) (n : Nat) : CausedBy c e n → CausedBy (.mk t m fs (some c)) e (n + 1)

/-- these are the causes of an exception, the nearest first -/
def CausesOf (e : PyExc) (cs : List PyExc) : Prop := ∀ n c, cs[n]? = some c ↔ CausedBy e c n

/-! ### Proofs -/

theorem causePrints_eq (repr : PyExc → Str) : (e : PyExc) → ∃ cs, CausesOf e cs ∧ cs.length + 1 = e.chain.length ∧
    causePrints repr e = cs.flatMap fun c => c!"CAUSE\n" ++ repr c ++ c!"\n/CAUSE\n"
  | .mk t m fs none => by
    refine ⟨[], fun n c => ⟨fun h => ?_, fun h => ?_⟩, rfl, rfl⟩
    · simp at h
    · cases h
  | .mk t m fs (some cause) => by
    obtain ⟨cs, h1, h2, h3⟩ := causePrints_eq repr cause
    refine ⟨cause :: cs, ?_, ?_, ?_⟩
    · intro n c
      cases n with
      | zero =>
        constructor
        · intro h
          simp only [List.getElem?_cons_zero, Option.some.injEq] at h
          subst h
          exact .direct ..
        · intro h; cases h; rfl
      | succ n =>
        rw [List.getElem?_cons_succ, h1 n c]
        constructor
        · exact fun h => .further _ _ _ _ _ _ h
        · intro h; cases h; assumption
    · rw [PyExc.chain, List.length_cons, List.length_cons, h2]
    · rw [causePrints, h3, List.flatMap_cons]
      simp only [List.append_assoc]

theorem logPrints_eq (repr : PyExc → Str) (rs : List LogRec) (out : Str) : rs.foldl (logPrint repr) out =
    out ++ ((rs.filter fun r => r.level ≠ .trace).filterMap (·.exception)).flatMap (causePrints repr) := by
  induction rs generalizing out with
  | nil => simp
  | cons r rs ih =>
    have hl : LogLevel.debug.no ≤ r.level.no ↔ r.level ≠ .trace := by cases r.level <;> decide
    rw [List.foldl_cons, ih, logPrint]
    by_cases h : r.level = .trace
    · rw [if_neg (by rw [hl]; exact not_not.2 h), List.filter_cons_of_neg (by simp [h])]
    · rw [if_pos (hl.2 h), List.filter_cons_of_pos (by simp [h])]
      cases he : r.exception with
      | none => rw [List.filterMap_cons_none he]
      | some e => rw [List.filterMap_cons_some he, List.flatMap_cons, List.append_assoc]

/-- **C90**, the standard output: for the records from the level DEBUG on, in the order of the calls, the logger prints there each cause of their
exception, the nearest first, between the lines CAUSE and /CAUSE, and nothing else; so it prints nothing exactly if no such exception has a cause.
-/
theorem C90_stdout (repr : PyExc → Str) (rs : List LogRec) :
    (∃ css : List (List PyExc), List.Forall₂ CausesOf ((rs.filter fun r => r.level ≠ .trace).filterMap (·.exception)) css ∧
      logPrints repr rs = css.flatten.flatMap fun c => c!"CAUSE\n" ++ repr c ++ c!"\n/CAUSE\n") ∧
    (logPrints repr rs = [] ↔ ∀ r ∈ rs, r.level ≠ .trace → ∀ e, r.exception = some e → ∀ c n, ¬ CausedBy e c n) := by
  rw [logPrints, logPrints_eq, List.nil_append]
  constructor
  · generalize (rs.filter fun r => r.level ≠ .trace).filterMap (·.exception) = es
    induction es with
    | nil => exact ⟨[], .nil, rfl⟩
    | cons e es ih =>
      obtain ⟨css, h1, h2⟩ := ih
      obtain ⟨cs, h3, -, h4⟩ := causePrints_eq repr e
      exact ⟨cs :: css, .cons h3 h1, by rw [List.flatMap_cons, h2, h4, List.flatten_cons, List.flatMap_append]⟩
  · have hnil : ∀ e, causePrints repr e = [] ↔ ∀ c n, ¬ CausedBy e c n := by
      intro e
      obtain ⟨cs, h1, -, h3⟩ := causePrints_eq repr e
      rw [h3]
      cases cs with
      | nil => exact ⟨fun _ c n h => by simpa using (h1 n c).2 h, fun _ => rfl⟩
      | cons c cs => exact ⟨fun h => by simp at h, fun h => absurd ((h1 0 c).1 rfl) (h c 0)⟩
    simp only [List.flatMap_eq_nil_iff, List.mem_filterMap, List.mem_filter, decide_eq_true_eq, hnil]
    exact ⟨fun h r hr hl e he => h e ⟨r, ⟨hr, hl⟩, he⟩, fun h e ⟨r, ⟨hr, hl⟩, he⟩ => h r hr hl e he⟩

/-- C90_stdout: an error which was raised from another one, and a message for the user -/
example : logPrints (fun | .mk t m _ _ => t ++ c!"(" ++ m ++ c!")")
    [⟨.uInfo, c!"hello", c!"a.py", c!"f", 1, [], none⟩,
     ⟨.error, c!"failed", c!"a.py", c!"f", 2, [], some (.mk c!"RuntimeError" c!"x" [] (some (.mk c!"KeyError" c!"y" [] none)))⟩] =
    c!"CAUSE\nKeyError(y)\n/CAUSE\n" := by decide

end Spex
