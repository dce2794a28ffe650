import Verif.Spec.Observe
/-
Programs that switch the backend while running.
-/
namespace Whale
open Hist
variable {V : Type}

/-- A program running on backend `b` in world `w` may continue on backend `b'` in world `w'`.  `switch` is `backend.reset(name); materialize.reset()` (backend.py:94-96,
materialize.py:120-122): the kernels compiled for the old backend are dropped.  Both backends do the same arithmetic (see C50 for when that is so), the new one runs kernels as its language
prescribes, and a GPU backend is only started when no device memory is in use (backend_cuda.py:31-36: a new CUDA object is a new context, in which old device pointers mean nothing). -/
inductive RunsB (b : Backend V) (w : World V) : Backend V → World V → Prop
  | refl : RunsB b w b w
  | call {b' : Backend V} {w1 w' : World V} {c : Call V} : RunsB b w b' w1 → Legal b' w1 c → next b' w1 c = some w' → RunsB b w b' w'
  | stopped {b' : Backend V} {w1 w' : World V} {y : Nat} : RunsB b w b' w1 → y < w1.g.length → ArgsOK b' w1 (.backward y) → Bwd.Stopped b'.A w1 y w' → RunsB b w b' w'
  | switch {b1 b' : Backend V} {w1 w' : World V} : RunsB b w b1 w1 → b'.A = b1.A → Faithful b' → (b'.isGpu = true → ∀ i, w1.dev i = none) → next b1 w1 .reset = some w' → RunsB b w b' w'

/-- What programs that start in a fresh interpreter can reach. -/
def ReachableB (b : Backend V) (w : World V) : Prop := ∃ b0, Faithful b0 ∧ RunsB b0 Mat.init b w

end Whale
