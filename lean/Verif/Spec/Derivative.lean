import Verif.Spec.Adjoint
import Mathlib.Analysis.SpecialFunctions.Pow.Deriv
/-
Specification of C28: real scalars, a program run on other leaf data, curves of leaf data, the domain of differentiability.
-/
namespace Whale
open Classical

/-- Exact real arithmetic. -/
noncomputable def realScalar : Scalar ℝ where
  ofInt n := n
  fone := 1
  isInt _ := false
  un op x := match op with
    | .Neg => -x
    | .Sin => Real.sin x
    | .Cos => Real.cos x
    | .Exp => Real.exp x
    | .Log => Real.log x
    | .Sqrt => Real.sqrt x
    | _ => x
  bin op x y := match op with
    | .Add => x + y
    | .Sub => x - y
    | .Mul => x * y
    | .Truediv => x / y
    | .Pow => x ^ y
    | _ => x

/-- The same arrays, built by the same operations, from constants with other data. -/
def withData {V : Type} (g : Graph V) (d : Nat → List V) : Graph V := g.mapIdx fun i n => match n.ctx with
  | .const => { n with val := some (d i) }
  | _ => n

/-- `c` is a curve of data for all constants, passing through the actual data at 0 with velocity `c'`. -/
structure Curve (g : Graph ℝ) (c : ℝ → Nat → List ℝ) (c' : Nat → List ℝ) : Prop where
  start : ∀ i < g.length, g.ctx i = .const → (g.nd i).val = some (c 0 i)
  length : ∀ i < g.length, g.ctx i = .const → ∀ τ, (c τ i).length = (c 0 i).length
  velocity : ∀ i < g.length, g.ctx i = .const → ∀ k, HasDerivAt (fun τ => (c τ i).getD k 0) ((c' i).getD k 0) 0

/-- The operation that made array `t` is differentiable at the actual data: positive arguments of `log` and `sqrt`, non-zero divisors, and powers with positive base, or with an
exponent that stays constant along the curve, with a non-zero base or an exponent of at least 1, negative bases having integral exponents. -/
def InDomain (G : ℝ → Graph ℝ) (t : Nat) : Prop :=
  match (G 0).ctx t with
  | .unary .Log x | .unary .Sqrt x => ∀ i, ValidIdx ((G 0).shape x) i → 0 < (den realScalar (G 0) x).get i
  | .binary .Truediv _ r => ∀ i, ValidIdx ((G 0).shape r) i → (den realScalar (G 0) r).get i ≠ 0
  | .binary .Pow l r => ∀ i, ValidIdx ((G 0).shape l) i →
      0 < (den realScalar (G 0) l).get i ∨
      ∃ p, (∀ τ, (den realScalar (G τ) r).get i = p) ∧ ((den realScalar (G 0) l).get i ≠ 0 ∨ 1 ≤ p) ∧ (0 ≤ (den realScalar (G 0) l).get i ∨ ∃ n : ℤ, p = n)
  | _ => True

/-- The constants that `y` was computed from. -/
noncomputable def leavesOf (g : Graph ℝ) (y : Nat) : Finset Nat := (Finset.range g.length).filter fun x => Reach g y x ∧ g.ctx x = .const

/-- The arrays that `y` was computed from, including `y`, that are not constants. -/
noncomputable def computedOf (g : Graph ℝ) (y : Nat) : Finset Nat := (Finset.range g.length).filter fun x => Reach g y x ∧ g.ctx x ≠ .const

/-- The gradient of array `x`, zero if there is none. -/
noncomputable def gradOr0 (w : World ℝ) (x : Nat) : Tensor ℝ := (gradT realScalar w x).getD ⟨w.g.shape x, fun _ => 0⟩

/-- The gradient of array `i` at the moment `y.backward()` starts from: the one it has, or else ones for `y` itself and zero for the others. -/
noncomputable def startOr0 (w : World ℝ) (y i : Nat) : Tensor ℝ :=
  if i = y ∧ w.grad y = none then ⟨w.g.shape y, fun _ => 1⟩ else gradOr0 w i

/-- The sum of all elements. -/
def Tensor.total (T : Tensor ℝ) : ℝ := T.flatten.sum

/-- The actual data, with the element at flat position `k` of constant `x` increased by `τ`. -/
noncomputable def bump (g : Graph ℝ) (x k : Nat) (τ : ℝ) (i : Nat) : List ℝ :=
  let l := (g.nd i).val.getD []
  if i = x then l.set k (l.getD k 0 + τ) else l

/-- The sum of the elements of `y`, the data being changed to `d`. -/
noncomputable def totalAt (g : Graph ℝ) (d : Nat → List ℝ) (y : Nat) : ℝ := (den realScalar (withData g d) y).total

end Whale
