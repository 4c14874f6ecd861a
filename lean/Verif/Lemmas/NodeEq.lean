import Verif.Model.Xml
/-
Equality of nodes is decidable (for the examples).
-/
set_option autoImplicit false
namespace Spex

mutual
def Node.eqb : Node → Node → Bool
  | .text s, .text t => s == t
  | .elem t as ks, .elem t' as' ks' => t == t' && as == as' && eqbs ks ks'
  | .text _, .elem _ _ _ => false
  | .elem _ _ _, .text _ => false
def eqbs : List Node → List Node → Bool
  | [], [] => true
  | a :: as, b :: bs => a.eqb b && eqbs as bs
  | [], _ :: _ => false
  | _ :: _, [] => false
end

mutual
theorem Node.eqb_iff : ∀ a b : Node, a.eqb b = true ↔ a = b
  | .text s, .text t => by simp [Node.eqb]
  | .elem t as ks, .elem t' as' ks' => by simp [Node.eqb, eqbs_iff ks ks', and_assoc]
  | .text _, .elem _ _ _ => by simp [Node.eqb]
  | .elem _ _ _, .text _ => by simp [Node.eqb]
theorem eqbs_iff : ∀ a b : List Node, eqbs a b = true ↔ a = b
  | [], [] => by simp [eqbs]
  | a :: as, b :: bs => by simp [eqbs, Node.eqb_iff a b, eqbs_iff as bs]
  | [], _ :: _ => by simp [eqbs]
  | _ :: _, [] => by simp [eqbs]
end

instance : DecidableEq Node := fun a b => decidable_of_iff _ (Node.eqb_iff a b)

end Spex
