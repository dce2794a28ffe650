import Verif.Spec.History
import Verif.Spec.Reach
/-
Vocabulary for C71: a program that runs alone in an interpreter, and the same program in an interpreter that other code uses as well.
-/
namespace Whale
open Hist
variable {V : Type}

/-- A call with its arrays replaced. -/
def Call.ren (ρ : Nat → Nat) : Call V → Call V
  | .array v => .array v
  | .arange n => .arange n
  | .full s v => .full s v
  | .fullLike a v => .fullLike (ρ a) v
  | .onesLike a => .onesLike (ρ a)
  | .zerosLike a => .zerosLike (ρ a)
  | .un op a => .un op (ρ a)
  | .bin op a b => .bin op (ρ a) (ρ b)
  | .binScalar op a v => .binScalar op (ρ a) v
  | .sum a ax kd => .sum (ρ a) ax kd
  | .getitem a s => .getitem (ρ a) s
  | .broadcastTo a s => .broadcastTo (ρ a) s
  | .reshape a s => .reshape (ρ a) s
  | .T a => .T (ρ a)
  | .transpose a s => .transpose (ρ a) s
  | .contiguous a => .contiguous (ρ a)
  | .pad a d x y => .pad (ρ a) d x y
  | .dilate a d s => .dilate (ρ a) d s
  | .materialize a => .materialize (ρ a)
  | .tolist a => .tolist (ρ a)
  | .backward a => .backward (ρ a)
  | .grad a => .grad (ρ a)
  | .clearGrad a => .clearGrad (ρ a)
  | .setGrad a k => .setGrad (ρ a) (ρ k)
  | .reset => .reset

/-- A result with its array replaced. -/
def Out.ren (ρ : Nat → Nat) : Out V → Out V
  | .arr i => .arr (ρ i)
  | .list l => .list l
  | .unit => .unit

/-- `ρ` says which array of one interpreter is which of the other, when the first has `n` arrays and the second `m`; here for the arrays that both make from now on. -/
def extend (ρ : Nat → Nat) (n m : Nat) : Nat → Nat := fun i => if i < n then ρ i else m + (i - n)

/-- The call assigns to the gradient of array `i`. -/
def SetsGrad (g : Graph V) (i : Nat) : Call V → Prop
  | .clearGrad a => a = i
  | .setGrad a _ => a = i
  | .backward y => Reach g y i
  | _ => False

/-- Two interpreters: in the first (state `u`) a program runs alone, in the second (state `w`) the same program runs with other code before and between its calls, which works on its own arrays and
may also use those of the program, except that it does not assign to their gradients.  A `backward()` of the other code may
also be left in the middle by an exception (`stopped`).  Array `i` of the first is array `ρ i` of the second.  A call that raises (and whose exception is caught)
changes nothing. -/
inductive Amid (b : Backend V) : World V → World V → (Nat → Nat) → Prop
  | start {w : World V} (ρ : Nat → Nat) : Reachable b w → Amid b Mat.init w ρ
  | mine {u w u' w' : World V} {ρ : Nat → Nat} {c : Call V} : Amid b u w ρ → (∀ a ∈ c.arrays, a < u.g.length) → Legal b u c → Legal b w (c.ren ρ) → next b u c = some u' → next b w (c.ren ρ) = some w' →
      Amid b u' w' (extend ρ u.g.length w.g.length)
  | other {u w w' : World V} {ρ : Nat → Nat} {c : Call V} : Amid b u w ρ → Legal b w c → (∀ i < u.g.length, ¬ SetsGrad w.g (ρ i) c) → next b w c = some w' → Amid b u w' ρ
  | stopped {u w w' : World V} {ρ : Nat → Nat} {y : Nat} : Amid b u w ρ → y < w.g.length → ArgsOK b w (.backward y) → (∀ i < u.g.length, ¬ Reach w.g y (ρ i)) → Bwd.Stopped b.A w y w' →
      Amid b u w' ρ

end Whale
