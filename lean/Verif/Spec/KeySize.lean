import Verif.Spec.Fusion
import Verif.Spec.OneKernel
import Verif.Model.History
/-
Vocabulary for C58: how large cache keys are.
-/
namespace Whale
open Hist
variable {V : Type}

/-- Number of operations (arithmetic, reductions) mentioned in the expression part of a cache key. -/
def EKey.ops : EKey → Nat
  | .none | .const _ | .buf .. => 0
  | .un _ e | .red _ _ e => e.ops + 1
  | .bin _ l r => l.ops + r.ops + 1
  | .fnc k _ => k.ops

/-- Number of operations of the formula that computes array `i` from data arrays, written out without sharing: an intermediate result is written out as often as it is used. -/
def formulaOps (g : Graph V) (i : Nat) : Nat :=
  opsOf g i + ((g.ctx i).inputs.map fun x => if _h : x < i then formulaOps g x else 0).sum
termination_by i

/-- The program `x = array([u, v])`, then `n` times `x = x + x`. -/
def doubling (u v : V) (n : Nat) : List (Call V) := .array (.node [.leaf u, .leaf v]) :: (List.range n).map fun i => .bin .add i i

/-- Execute calls one after the other; stops at the first exception. -/
def runAll (b : Backend V) : World V → List (Call V) → Except Err (World V)
  | w, [] => .ok w
  | w, c :: cs => match step b w c with
    | .ok (_, w') => runAll b w' cs
    | .error e => .error e

end Whale
