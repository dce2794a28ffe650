import Verif.Spec.Reach
import Verif.Model.Materialize
/-
Specification vocabulary for `backward`: which arrays the gradient rules of the code handle.
-/
namespace Whale
variable {V : Type}

/-- The operation that made array `i` is one whose gradient rule is meant to work:
not a broadcast of an array to its own shape (unless that shape is `()` or contains a 1), not an empty strided slice,
not a pad with a negative amount. -/
def GradNode (g : Graph V) (i : Nat) : Prop :=
  match g.ctx i with
  | .broadcast x s => s.length = (g.shape x).length → s ≠ [] → 1 ∈ g.shape x
  | .slice _ subs => ∀ a b c, Sub.slice a b c ∈ subs → c = 1 ∨ a < b
  | .pad _ _ before after => 0 ≤ before ∧ 0 ≤ after
  | _ => True

/-- `y` was built only from such operations. -/
def BackwardOK (g : Graph V) (y : Nat) : Prop := ∀ i, Reach g y i → GradNode g i

/-- Every gradient has the shape of its array. -/
def GradShapes (w : World V) : Prop := ∀ i k, w.grad i = some k → i < w.g.length ∧ k < w.g.length ∧ w.g.shape k = w.g.shape i

end Whale
