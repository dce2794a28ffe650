import Verif.Model.Limit
import Verif.Model.History
/-
Vocabulary for C63: chains of operations.
-/
namespace Whale
open Hist
variable {V : Type}

/-- Length of the longest chain of operations that leads from a data array to array `i`, each applied to the result of the one before. -/
def chainLen (g : Graph V) (i : Nat) : Nat :=
  if (g.ctx i).inputs = [] then 0 else 1 + ((g.ctx i).inputs.map fun x => if _h : x < i then chainLen g x else 0).foldr max 0
termination_by i

/-- The program `x = array([u, v])`, then `n` times `x = -x`. -/
def negations (u v : V) (n : Nat) : List (Call V) := .array (.node [.leaf u, .leaf v]) :: (List.range n).map fun i => .un .neg i

end Whale
