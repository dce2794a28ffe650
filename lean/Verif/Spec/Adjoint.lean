import Verif.Spec.Vjp
import Mathlib.Algebra.Ring.Defs
/-
Specification vocabulary: inner product of tensors, linear operations.
-/
namespace Whale
variable {V : Type}

/-- `<T, U>`: the sum over all indices of the products of the elements. -/
def Tensor.inner [CommRing V] (T U : Tensor V) : V := ((indices T.shape).map fun i => T.get i * U.get i).sum

/-- The scalar operations the linear array operations use (adding, the constant 0) are those of a commutative ring. -/
structure RingScalar [CommRing V] (A : Scalar V) : Prop where
  add : ∀ x y, A.bin .Add x y = x + y
  zero : A.ofInt 0 = 0

/-- The operation is linear in its one input `x`: sum, reshape, broadcast, indexing, transpose, contiguous, pad, dilate. -/
def LinearIn (x : Nat) : Ctx → Prop
  | .sum y .. | .reshape y _ | .broadcast y _ | .slice y _ | .transpose y _ | .contiguous y | .pad y .. | .dilate y .. => y = x
  | _ => False

end Whale
