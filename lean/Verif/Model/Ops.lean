/-
Model of `/repo/ops.py` (operation enumeration) and `/repo/dtype.py`.
-/
namespace Whale

/-- ops.py:3-50.  `class Ops(IntEnum)`, members in source order, sentinels included. -/
inductive Ops
  | Const
  | unary_start | Neg | Sin | Cos | Exp | Log | Sqrt | unary_end
  | binary_start | Add | Sub | Mul | Truediv | Floordiv | Mod | Pow | And | Or
  | Eq | Gt | Ge | Lt | Le | binary_end
  | ternary_start | Where | ternary_end
  | reduce_start | Sum | reduce_end
  | view_start | Reshape | Broadcast | Slice | Transpose | view_end
  | Matmul | Contiguous | Pad | Dilate
deriving DecidableEq, Repr, Inhabited

namespace Ops

/-- All members, in source order (ops.py:4-50). -/
def all : List Ops :=
  [Const,
   unary_start, Neg, Sin, Cos, Exp, Log, Sqrt, unary_end,
   binary_start, Add, Sub, Mul, Truediv, Floordiv, Mod, Pow, And, Or, Eq, Gt, Ge, Lt, Le, binary_end,
   ternary_start, Where, ternary_end,
   reduce_start, Sum, reduce_end,
   view_start, Reshape, Broadcast, Slice, Transpose, view_end,
   Matmul, Contiguous, Pad, Dilate]

/-- `enum.auto()` (ops.py:4-50) numbers the members 1, 2, 3, … in source order. -/
def value (o : Ops) : Nat := all.idxOf o + 1

/-- ops.py:52 -/
def isConst (o : Ops) : Bool := o.value == Const.value
/-- ops.py:53 -/
def isUnary (o : Ops) : Bool := unary_start.value < o.value && o.value < unary_end.value
/-- ops.py:54 -/
def isBinary (o : Ops) : Bool := binary_start.value < o.value && o.value < binary_end.value
/-- ops.py:55 -/
def isTernary (o : Ops) : Bool := ternary_start.value < o.value && o.value < ternary_end.value
/-- ops.py:56 -/
def isReduce (o : Ops) : Bool := reduce_start.value < o.value && o.value < reduce_end.value
/-- ops.py:57 -/
def isView (o : Ops) : Bool := view_start.value < o.value && o.value < view_end.value
/-- ops.py:58 -/
def isMatmul (o : Ops) : Bool := o.value == Matmul.value

end Ops

/-- dtype.py:9-24: the four dtype singletons. -/
inductive DType
  | int32 | int64 | float32 | float64
deriving DecidableEq, Repr, Inhabited

/-- dtype.py:7 `is_int` -/
def DType.isInt : DType → Bool
  | .int32 => true
  | .int64 => true
  | _ => false

/-- dtype.py:6 `is_float` -/
def DType.isFloat : DType → Bool
  | .float32 => true
  | .float64 => true
  | _ => false

/-- Scalars: the type of array elements with an arbitrary interpretation of the scalar operations.
Not code: this abstracts what Python/C do for `+`, `math.sin`, … on one element.  `ofInt n` is the
integer literal `n` used as data in a kernel (`ConstExpr(0)`, accumulator `0`), `fzero` the literal `0.0` there (codegen.py:179); `host n` and `fone` are the Python
numbers `n` and `1.0` that the library puts into constant arrays itself (`arange`, `zeros_like`, `ones_like`, the gradient rules), `isInt` is `type(v) is int` (ndarray.py:389). -/
structure Scalar (V : Type) where
  ofInt : Int → V
  fone : V
  isInt : V → Bool
  un : Ops → V → V
  bin : Ops → V → V → V
  fzero : V := ofInt 0
  host : Int → V := ofInt

end Whale
