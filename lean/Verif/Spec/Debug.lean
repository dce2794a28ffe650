import Verif.Model.Debug
import Verif.Spec.Source
/-
Vocabulary for C67: what debug mode prints.
-/
namespace Whale
open Mat Hist
variable {V : Type}

/-- An array and, recursively, what it was computed from, in the order of the operands, each with its distance: an array used twice is visited twice. -/
def visits (g : Graph V) (depth i : Nat) : List (Nat × Nat) :=
  (depth, i) :: (g.ctx i).inputs.flatMap fun x => if _h : x < i then visits g (depth + 1) x else []
termination_by i

/-- Where the text of a line of a tree begins: 8 columns, and 3 for each level, and 3 for the connector. -/
def column (depth : Nat) : Nat := if depth = 0 then 8 else 8 + 3 * depth + 3

/-- A line for a visit: the array's text, from its column on, after characters that draw the tree. -/
def Line (num : V → Str) (w : World V) (v : Nat × Nat) (line : Str) : Prop :=
  ∃ pre l, str num w v.2 = .ok l ∧ line = pre ++ l ∧ pre.length = column v.1 ∧ ∀ c ∈ pre, c ∈ " │├└─".toList

/-- `out` says that of the kernels that were needed, `new` were compiled and the others found in the cache. -/
structure Reports (out : List Str) (new : List Str) (kernels : Nat) : Prop where
  /-- each source is printed, line by line, after its heading -/
  source : ∀ code ∈ new, ∃ i, (Dbg.dbg "kernel codegen:".toList :: Dbg.dbg (intText (i + 1) ++ ":".toList) :: Dbg.kernel code) <:+: out
  compiled : out.count (Dbg.dbg "kernel codegen:".toList) = new.length
  cached : out.count (Dbg.dbg "kernel cache hit".toList) + new.length = kernels

end Whale
