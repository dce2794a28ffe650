import Verif.Spec.History
import Verif.Spec.Denote
/-
What a user can observe of an array.
-/
namespace Whale
open Hist
variable {V : Type}

/-- The value of array `a`: the NumPy-style meaning of the operations that built it (`Spec/Denote`). -/
def value (b : Backend V) (w : World V) (a : Nat) : Tensor V := den b.A w.g a

/-- Whatever is called from now on: if `a.tolist()` returns, it returns `T` as a nested list. -/
def Shows (b : Backend V) (w : World V) (a : Nat) (T : Tensor V) : Prop :=
  ∀ w1, Runs b w w1 → ∀ o w2, step b w1 (.tolist a) = .ok (o, w2) → o = .list T.toNested

/-- Whatever is called from now on: `a.materialize()` does not raise, and afterwards, whatever else is called in between, `a.tolist()` does not raise
and returns `T` as a nested list. -/
def Computes (b : Backend V) (w : World V) (a : Nat) (T : Tensor V) : Prop :=
  ∀ w1, Runs b w w1 → ArgsOK b w1 (.materialize a) → ∃ w2, step b w1 (.materialize a) = .ok (.unit, w2) ∧
    ∀ w3, Runs b w2 w3 → ∃ w4, step b w3 (.tolist a) = .ok (.list T.toNested, w4)

/-- Whatever is called from now on, `a.tolist()` does not raise and returns `T` as a nested list. -/
def Reads (b : Backend V) (w : World V) (a : Nat) (T : Tensor V) : Prop :=
  ∀ w1, Runs b w w1 → ∃ w2, step b w1 (.tolist a) = .ok (.list T.toNested, w2)

/-- Array `a` is `T`: it reports `T`'s shape, it has `T`'s elements as operand of every further operation, and (unless it is a view chain through a
reshape of a view with an offset, see `C09_counterexample`) it is read back as `T`. -/
structure Is (b : Backend V) (w : World V) (a : Nat) (T : Tensor V) : Prop where
  exists_ : a < w.g.length
  shape : w.g.shape a = T.shape
  value : (value b w a).Equiv T
  shows : NoOffsetReshape w.g a → Shows b w a T
  computes : NoOffsetReshape w.g a → Computes b w a T

end Whale
