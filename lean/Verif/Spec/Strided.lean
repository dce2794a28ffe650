import Verif.Spec.Observe
/-
Reading an array through its offset and strides.
-/
namespace Whale
open Hist
variable {V : Type}

/-- The position, in the memory of the array that owns it, of the element of `a` with index `i`: `a.offset + i[0] * a.strides[0] + ...`. -/
def position (w : World V) (a : Nat) (i : List Int) : Int := w.g.offset a + dot i (w.g.strides a)

/-- The tensor one gets by reading the elements of `a.base()`, in row-major order, through `a.offset` and `a.strides`. -/
def strided (b : Backend V) (w : World V) (a : Nat) : Tensor V :=
  ⟨w.g.shape a, fun i => (value b w (base w.g a)).flatten.getD (position w a i).toNat (b.A.ofInt 0)⟩

end Whale
