import Verif.Spec.Syntax
import Verif.Spec.Fusion
import Verif.Spec.OneKernel
import Verif.Spec.KeySize
import Verif.Model.History
/-
Vocabulary for C62: how deeply the statements of a generated program are nested.
-/
namespace Whale
open Hist
variable {V : Type}

/-- Largest number of loops that are nested in each other. -/
def Syntax.Sx.loops : Syntax.Sx → Nat
  | .done => 0
  | .decl _ _ _ k => k.loops
  | .assign _ _ k => k.loops
  | .loop _ _ _ _ _ _ b k => max (b.loops + 1) k.loops
  | .cond _ t e k => max (max t.loops e.loops) k.loops
  | .ret k => k.loops

/-- Largest number of blocks (bodies of loops, branches of conditionals) that are nested in each other: the indentation levels below that of the function body. -/
def Syntax.Sx.blocks : Syntax.Sx → Nat
  | .done => 0
  | .decl _ _ _ k => k.blocks
  | .assign _ _ k => k.blocks
  | .loop _ _ _ _ _ _ b k => max (b.blocks + 1) k.blocks
  | .cond _ t e k => max (max t.blocks e.blocks + 1) k.blocks
  | .ret k => k.blocks

/-- Number of axes an array sums over; 0 for arrays that are not results of `sum`. -/
def summedAxes (g : Graph V) (i : Nat) : Nat := match g.ctx i with
  | .sum x axis _ => ((List.range (g.shape x).length).filter (fun k => decide (k ∈ axis))).length
  | _ => 0

/-- Largest number of `pad` and `dilate` calls that follow one another on the way from a data array to array `i`. -/
def condDepth (g : Graph V) (i : Nat) : Nat :=
  (match g.ctx i with | .pad .. | .dilate .. => 1 | _ => 0) + ((g.ctx i).inputs.map fun x => if _h : x < i then condDepth g x else 0).foldr max 0
termination_by i

/-- The program `x = full((1, …, 1), u)` with `n` ones, `y = -x`. -/
def manyAxes (u : V) (n : Nat) : List (Call V) := [.full (List.replicate n 1) u, .un .neg 0]

/-- The program `x = array([u, v])`, then `n` times `x = x.pad(0, 1, 0)`. -/
def manyPads (u v : V) (n : Nat) : List (Call V) := .array (.node [.leaf u, .leaf v]) :: (List.range n).map fun i => .pad i 0 1 0

end Whale
