import Verif.Spec.Crash
/-
Histories on a GPU in which `materialize` may be interrupted.
-/
namespace Whale
open Hist
variable {V : Type}

/-- The arrays whose data are incomplete, after a call during whose kernel for array `d` an exception was raised: an array that already had data, in CPU or device memory, keeps them. -/
def spoiledGpu (w : World V) (D : List Nat) : Option Nat → List Nat
  | some f => if (Mat.cpuBuf w f).isSome ∨ (w.dev f).isSome then D else f :: D
  | none => D

/-- A sequence of API calls, all legal, any `materialize` or `backward` possibly interrupted, leading from `w` to `w'`.  `D` and `D'` are the arrays with incomplete data before and after.
The program does not read an array (or a view of one) while its data are incomplete: that would make the incomplete data permanent (`C51_counterexample_gpu`). -/
inductive RunsXG (b : Backend V) (w : World V) (D : List Nat) : World V → List Nat → Prop
  | refl : RunsXG b w D w D
  | call {w1 w' : World V} {D1 : List Nat} {c : Call V} : RunsXG b w D w1 D1 → Legal b w1 c → (∀ a, c = .tolist a → base w1.g a ∉ D1) → next b w1 c = some w' →
      RunsXG b w D w' (repaired w1 D1 c)
  | stopped {w1 w' : World V} {D1 : List Nat} {y : Nat} : RunsXG b w D w1 D1 → y < w1.g.length → ArgsOK b w1 (.backward y) → Bwd.Stopped b.A w1 y w' → RunsXG b w D w' D1
  | crash {w1 w' : World V} {D1 : List Nat} {a : Nat} {d : Option Nat} : RunsXG b w D w1 D1 → a < w1.g.length → ArgsOK b w1 (.materialize a) →
      Mat.Interrupted b w1 a d w' → RunsXG b w D w' (spoiledGpu w1 D1 d)

/-- The worlds that programs can reach from a fresh interpreter. -/
def ReachableXG (b : Backend V) (w : World V) (D : List Nat) : Prop := RunsXG b Mat.init [] w D

end Whale
