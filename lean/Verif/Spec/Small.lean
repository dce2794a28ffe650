import Verif.Spec.Reach
/-
Specification vocabulary for C49: arrays whose sizes and arguments are within a limit.
-/
namespace Whale
variable {V : Type}

/-- The number of elements of an array, with empty dimensions counted as 1. -/
def room (shape : List Int) : Int := prod (shape.map fun d => max (d.natAbs : Int) 1)

/-- The step of a subscript. -/
def Sub.step : Sub → Int
  | .int _ => 1
  | .slice _ _ c => c

/-- The integers array `i` was made with – its dimensions, slice steps, pad widths, dilation – are at most `m`, and so is the number of its elements. -/
def SmallNode (g : Graph V) (m : Int) (i : Nat) : Prop :=
  room (g.shape i) ≤ m ∧ match g.ctx i with
    | .slice _ subs => ∀ s ∈ subs, s.step ≤ m
    | .pad _ _ before after => (0 ≤ before ∧ before ≤ m) ∧ (0 ≤ after ∧ after ≤ m)
    | .dilate _ _ step => step ≤ m
    | _ => True

/-- Everything array `a` is computed from is within the limit. -/
def SmallFrom (g : Graph V) (m : Int) (a : Nat) : Prop := ∀ i, Reach g a i → SmallNode g m i

end Whale
