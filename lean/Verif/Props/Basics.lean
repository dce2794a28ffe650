import Verif.Proofs.Nested
import Verif.Proofs.Tolist
import Verif.Model.Materialize
/-
Properties of array construction, the factories and the operation enumeration (C01, C02, C03, C45).
-/
namespace Whale.Props
open Whale
variable {V : Type}

/-- C45.  Every operation is in exactly one class: the number of class predicates holding of a member is 1 for real
operations, 0 for the sentinels and the four individually handled ones. -/
def classCount (o : Ops) : Nat :=
  ([o.isConst, o.isUnary, o.isBinary, o.isTernary, o.isReduce, o.isView].filter id).length

def isSentinel (o : Ops) : Prop :=
  o ∈ [Ops.unary_start, .unary_end, .binary_start, .binary_end, .ternary_start, .ternary_end, .reduce_start, .reduce_end, .view_start, .view_end]

def isIndividual (o : Ops) : Prop := o ∈ [Ops.Matmul, .Contiguous, .Pad, .Dilate]

instance (o : Ops) : Decidable (isSentinel o) := inferInstanceAs (Decidable (_ ∈ _))
instance (o : Ops) : Decidable (isIndividual o) := inferInstanceAs (Decidable (_ ∈ _))

theorem C45_classes_partition (o : Ops) : classCount o = if isSentinel o ∨ isIndividual o then 0 else 1 := by
  cases o <;> decide

/-- C45.  Which class each operation is in. -/
theorem C45_members (o : Ops) :
    (o.isConst ↔ o = .Const) ∧ (o.isUnary ↔ o ∈ [Ops.Neg, .Sin, .Cos, .Exp, .Log, .Sqrt]) ∧
    (o.isBinary ↔ o ∈ [Ops.Add, .Sub, .Mul, .Truediv, .Floordiv, .Mod, .Pow, .And, .Or, .Eq, .Gt, .Ge, .Lt, .Le]) ∧
    (o.isTernary ↔ o = .Where) ∧ (o.isReduce ↔ o = .Sum) ∧
    (o.isView ↔ o ∈ [Ops.Reshape, .Broadcast, .Slice, .Transpose]) ∧ (o.isMatmul ↔ o = .Matmul) := by
  cases o <;> decide

end Whale.Props
