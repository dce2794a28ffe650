import Verif.Model.NDArray
/-
Specification: the mathematical meaning of an array of the heap – the tensor obtained by applying, to the
meaning of its inputs, the NumPy-style operation that created it.  Only `ctx` (which operation, which
arguments) and constant data are used; the recorded shape, strides and offset of derived arrays are not.
-/
namespace Whale
variable {V : Type}

def denF (A : Scalar V) (g : Graph V) : Nat → Nat → Tensor V
  | 0, _ => ⟨[], fun _ => A.ofInt 0⟩
  | fuel + 1, i =>
    match g.ctx i with
    | .const => .ofFlat (A.ofInt 0) (g.shape i) ((g.nd i).val.getD [])
    | .unary op x => (denF A g fuel x).map (A.un op)
    | .binary op l r => (denF A g fuel l).zip (A.bin op) (denF A g fuel r)
    | .sum x axis kd => (denF A g fuel x).sum A axis kd
    | .reshape x s => (denF A g fuel x).reshape s
    | .broadcast x s => (denF A g fuel x).broadcastTo s
    | .slice x subs => (denF A g fuel x).slice subs
    | .transpose x axes => (denF A g fuel x).transpose axes
    | .contiguous x => denF A g fuel x
    | .pad x dim b a => (denF A g fuel x).pad A dim.toNat b a
    | .dilate x dim st => (denF A g fuel x).dilate A dim.toNat st

/-- The meaning of array `i` (an array only depends on arrays created before it, so depth `i+1` suffices). -/
def den (A : Scalar V) (g : Graph V) (i : Nat) : Tensor V := denF A g (i + 1) i

end Whale
