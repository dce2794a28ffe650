import Verif.Spec.Backend
/-
Vocabulary for C25: which kernels the cache key identifies.
-/
namespace Whale
open Mat
variable {V : Type}

/-- The key does not contain the hole left by a conditional (pad, dilate). -/
def EKey.handled : EKey → Bool
  | .none => false
  | .const _ | .buf .. => true
  | .un _ e | .red _ _ e => e.handled
  | .bin _ l r => l.handled && r.handled
  | .fnc _ _ => true

/-- The key belongs to a kernel that reads only constants, and contains no hole. -/
def EKey.plain : EKey → Bool
  | .none | .fnc _ _ => false
  | .const _ | .buf .. => true
  | .un _ e | .red _ _ e => e.plain
  | .bin _ l r => l.plain && r.plain

/-- What a kernel needs to know about the kernel results it reads: for every read, which of the arguments it is, and the shape and dtype of that result. -/
def funcSig (t : Tbl) (e : DExpr) : List (Nat × Option (List Int × DType)) :=
  (Algo.funcRefs e).map fun f => ((Algo.dedup (Algo.funcRefs e)).idxOf f, (t f).map fun F => (F.outShape, F.outDtype))

/-- The code generated afresh for function `F` (temporaries numbered from 0). -/
def freshCode (g : Graph V) (t : Tbl) (F : Func) (sch : Schedule) : Except Err (Kernel × Nat) :=
  Codegen.codegen g t F sch ⟨(Algo.args F.expr).1, (Algo.args F.expr).2⟩ 0

end Whale
