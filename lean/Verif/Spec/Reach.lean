import Verif.Model.NDArray
/-
Specification vocabulary: which arrays an array was built from.
-/
namespace Whale
variable {V : Type}

/-- `i` is `a` or one of the arrays `a` was (transitively) computed from. -/
inductive Reach (g : Graph V) (a : Nat) : Nat → Prop
  | refl : Reach g a a
  | step {i x : Nat} : Reach g a i → x ∈ (g.ctx i).inputs → Reach g a x

/-- The one array whose conversion raises (algo.py:202, reduce of an empty sequence): a reshape to shape `()`. -/
def ScalarReshape (g : Graph V) (a : Nat) : Prop := ∃ x, g.ctx a = .reshape x []

/-- `a` was built without reshaping anything to shape `()`. -/
def NoScalarReshape (g : Graph V) (a : Nat) : Prop := ∀ i, Reach g a i → ¬ ScalarReshape g i

/-- The view chain of an array contains no reshape of a view with a non-zero offset. -/
inductive NoOffsetReshape (g : Graph V) : Nat → Prop
  | base {i} : (g.ctx i).op.isView = false → NoOffsetReshape g i
  | reshape {i x s} : g.ctx i = .reshape x s → g.offset x = 0 → NoOffsetReshape g x → NoOffsetReshape g i
  | broadcast {i x s} : g.ctx i = .broadcast x s → NoOffsetReshape g x → NoOffsetReshape g i
  | slice {i x s} : g.ctx i = .slice x s → NoOffsetReshape g x → NoOffsetReshape g i
  | transpose {i x s} : g.ctx i = .transpose x s → NoOffsetReshape g x → NoOffsetReshape g i

/-- Every array that `a` was computed from (and `a`) has at least one element. -/
def NoEmpty (g : Graph V) (a : Nat) : Prop := ∀ i, Reach g a i → 0 < prod (g.shape i)

end Whale
