import Verif.Model.History
/-
Specification vocabulary: the array whose dtype the result of a call inherits.
-/
namespace Whale
variable {V : Type}

/-- The leftmost array operand of a call that derives an array from others. -/
def Call.leftmost : Call V → Option Nat
  | .un _ a | .bin _ a _ | .binScalar _ a _ | .sum a .. | .getitem a _ | .broadcastTo a _ | .reshape a _ | .T a | .transpose a _ | .contiguous a | .pad a .. | .dilate a .. => some a
  | _ => none

/-- The dtype Python's literals stand for: an `int` is int64, a `float` is float64. -/
def literalDtype (A : Scalar V) (v : V) : DType := if A.isInt v then .int64 else .float64

/-- Python's `1` and `0` are integers and `1.0` is not. -/
structure Literals (A : Scalar V) : Prop where
  int : ∀ n, A.isInt (A.host n) = true
  float : A.isInt A.fone = false

end Whale
