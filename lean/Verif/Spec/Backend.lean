import Verif.Model.Materialize
/-
Which executions of a kernel a backend may exhibit, and the assumption made about cache keys.
-/
namespace Whale
open Kern
variable {V : Type}

/-- The possible sequences of stores of one kernel run (`none`: the kernel failed).
GPU: any interleaving of the threads of the launch.  C on a CPU: `parallel`/`vectorize` loops run concurrently.
Python: sequential. -/
def Allowed (b : Backend V) (m : Machine V) (sch : Schedule) (body : Stmt) (r : Option (List (Int × V))) : Prop :=
  if b.isGpu then launch m sch body r
  else if b.isC then ∃ o, par m body (fun _ => none) o ∧ r = o.map (·.writes)
  else r = (exec m body (fun _ => none)).map (·.writes)

/-- The backend runs every kernel according to its language. -/
def Faithful (b : Backend V) : Prop := ∀ tick m sch body, Allowed b m sch body (b.run tick m sch body)

/-- Launches with the same cache key have the same code. -/
def NoCollision (log : List (Key × Except Err (Kernel × Nat))) : Prop := ∀ p ∈ log, ∀ q ∈ log, p.1 = q.1 → p.2 = q.2

instance (log : List (Key × Except Err (Kernel × Nat))) [DecidableEq (Except Err (Kernel × Nat))] : Decidable (NoCollision log) :=
  inferInstanceAs (Decidable (∀ p ∈ log, ∀ q ∈ log, p.1 = q.1 → p.2 = q.2))

/-- What materializing array `a` adds to the launch log (fuel bounds the recursion over views). -/
def launchLogF (isGpu : Bool) (g : Graph V) : Nat → Nat → List (Key × Except Err (Kernel × Nat))
  | 0, _ => []
  | fuel + 1, a =>
    if (g.ctx a).op.isConst then []
    else if (g.ctx a).op.isView then
      match (g.ctx a).inputs with
      | x :: _ => launchLogF isGpu g fuel x
      | [] => []
    else match Algo.convert g a with
      | .error _ => []
      | .ok (funcs, t) =>
        match Mat.schedAll isGpu t funcs with
        | .error _ => []
        | .ok scheds => (funcs.zip scheds).filterMap (Mat.plan1 g t (a + 2))

def launchLog (isGpu : Bool) (g : Graph V) (a : Nat) : List (Key × Except Err (Kernel × Nat)) := launchLogF isGpu g (a + 1) a

/-- The Python backend (backend_python.py): sequential, on the CPU. -/
def pythonBackend (A : Scalar V) : Backend V :=
  { A := A, isC := false, isGpu := false, run := fun _ m _ body => (exec m body (fun _ => none)).map (·.writes), junk := fun _ => A.ofInt 0 }

theorem pythonBackend_faithful (A : Scalar V) : Faithful (pythonBackend A) := fun _ _ _ _ => rfl

end Whale
