import Verif.Model.History
import Verif.Spec.Backend
import Verif.Spec.Nested
import Verif.Spec.WellFormed
import Verif.Spec.Gradient
import Verif.Spec.Grid
/-
Histories: sequences of API calls, and which calls are in the domain of the correctness theorems.
-/
namespace Whale
open Hist
variable {V : Type}

/-- The arguments for which a call that does not raise is supposed to work.  Every exclusion is a defect shown by a counterexample theorem
(`broadcast_to` and `array` do not validate, negative `dim` of pad/dilate, reshape to negative dimensions or to `()`, colliding cache keys,
empty arrays and launches beyond the grid limits on CUDA, gradient rules). -/
def ArgsOK (b : Backend V) (w : World V) : Call V → Prop
  | .array v => Rect v
  | .full s _ => NonNeg s
  | .broadcastTo a s => BroadcastsTo (w.g.shape a) s ∧ NonNeg s
  | .reshape _ s => NonNeg s
  | .pad a d x y => 0 ≤ d ∧ 0 ≤ geti (w.g.shape a) d.toNat + (x + y)
  | .dilate a d st => 0 ≤ d ∧ 1 ≤ st ∧ (st = 1 ∨ 1 ≤ geti (w.g.shape a) d.toNat)
  | .materialize a => NoScalarReshape w.g (base w.g a) ∧ NoCollision (w.log ++ launchLog b.isGpu w.g a) ∧ (b.isGpu = true → NoEmpty w.g (base w.g a) ∧ FitsGrid w.g (base w.g a))
  | .backward a => BackwardOK w.g a
  | .setGrad a k => w.g.shape k = w.g.shape a
  | _ => True

/-- A call that raises, or whose arguments are in the domain. -/
def Legal (b : Backend V) (w : World V) (c : Call V) : Prop := (∃ e, step b w c = .error e) ∨ ArgsOK b w c

/-- The worlds that arbitrary programs calling the API (catching exceptions) can reach from a fresh interpreter.  `stopped`: `y.backward()` may also be left in the middle, at any point, by an
exception that has nothing to do with its arguments (Ctrl-C, out of memory). -/
inductive Reachable (b : Backend V) : World V → Prop
  | init : Reachable b Mat.init
  | call {w w' : World V} {c : Call V} : Reachable b w → Legal b w c → next b w c = some w' → Reachable b w'
  | stopped {w w' : World V} {y : Nat} : Reachable b w → y < w.g.length → ArgsOK b w (.backward y) → Bwd.Stopped b.A w y w' → Reachable b w'

/-- A sequence of API calls, all legal, any `backward` possibly left in the middle, leading from `w` to `w'`. -/
inductive Runs (b : Backend V) : World V → World V → Prop
  | refl {w} : Runs b w w
  | call {w w1 w' : World V} {c : Call V} : Runs b w w1 → Legal b w1 c → next b w1 c = some w' → Runs b w w'
  | stopped {w w1 w' : World V} {y : Nat} : Runs b w w1 → y < w1.g.length → ArgsOK b w1 (.backward y) → Bwd.Stopped b.A w1 y w' → Runs b w w'

end Whale
