import Verif.Model.History
/-
Reference counting and garbage collection: which objects the interpreter keeps, and what the destructor of a buffer does.
-/
namespace Whale
namespace Hist
variable {V : Type}

/-- What keeps array `i` alive when the program itself refers to the arrays `R`: an array refers to its context (node.py:20), the context to its input arrays (ndarray.py:24), an array to its
gradient (ndarray.py:350).  The reference from a context to its output is weak (ndarray.py:28) and keeps nothing alive; compiled kernels (kernel.py) refer to no array. -/
inductive Live (w : World V) (R : List Nat) : Nat → Prop
  | root {i : Nat} : i ∈ R → Live w R i
  | input {i x : Nat} : Live w R i → x ∈ (w.g.ctx i).inputs → Live w R x
  | grad {i k : Nat} : Live w R i → w.grad i = some k → Live w R k

/-- The end of array `i`: its host data, its gradient reference and its device memory are gone; `DevBuff.__del__` (buffer.py:19-21) frees the device memory if there is any.
Simplification: the record of how `i` was computed (its node) stays in the graph of the model; no other array refers to it any more, which is what C55 proves. -/
def _root_.Whale.World.collect (w : World V) (i : Nat) : World V :=
  { w with
    cpu := fun j => if j = i then none else w.cpu j
    dev := fun j => if j = i then none else w.dev j
    grad := fun j => if j = i then none else w.grad j
    ev := if (w.dev i).isSome then w.ev ++ [.free i] else w.ev }

/-- The arrays held by the program after a call: the returned array (if any) is bound to a name. -/
def held (R : List Nat) : Out V → List Nat
  | .arr r => r :: R
  | _ => R

end Hist
end Whale
