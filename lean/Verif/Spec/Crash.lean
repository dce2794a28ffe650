import Verif.Model.Crash
import Verif.Spec.Observe
/-
Histories in which `materialize` may be interrupted.
-/
namespace Whale
open Hist
variable {V : Type}

/-- The arrays whose data are incomplete (their first computation was interrupted), after a call that returned or raised without effect: a completed `materialize`
computes its array (for a view: the array it is a view of) again. -/
def repaired (w : World V) (D : List Nat) : Call V → List Nat
  | .materialize a => D.filter (· ≠ base w.g a)
  | _ => D

/-- The arrays whose data are incomplete, after a call during whose kernel for array `d` an exception was raised: an array that already had data keeps them (the
kernel only writes right values over right values). -/
def spoiled (w : World V) (D : List Nat) : Option Nat → List Nat
  | some f => if (Mat.cpuBuf w f).isSome then D else f :: D
  | none => D

/-- A sequence of API calls, all legal, any `materialize` or `backward` possibly interrupted, leading from `w` to `w'`.  `D` and `D'` are the arrays with incomplete data before and after. -/
inductive RunsX (b : Backend V) (w : World V) (D : List Nat) : World V → List Nat → Prop
  | refl : RunsX b w D w D
  | call {w1 w' : World V} {D1 : List Nat} {c : Call V} : RunsX b w D w1 D1 → Legal b w1 c → next b w1 c = some w' → RunsX b w D w' (repaired w1 D1 c)
  | stopped {w1 w' : World V} {D1 : List Nat} {y : Nat} : RunsX b w D w1 D1 → y < w1.g.length → ArgsOK b w1 (.backward y) → Bwd.Stopped b.A w1 y w' → RunsX b w D w' D1
  | crash {w1 w' : World V} {D1 : List Nat} {a : Nat} {d : Option Nat} : RunsX b w D w1 D1 → a < w1.g.length → ArgsOK b w1 (.materialize a) →
      Mat.Interrupted b w1 a d w' → RunsX b w D w' (spoiled w1 D1 d)

/-- The worlds that programs can reach from a fresh interpreter. -/
def ReachableX (b : Backend V) (w : World V) (D : List Nat) : Prop := RunsX b Mat.init [] w D

end Whale
