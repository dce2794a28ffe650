import Verif.Spec.Tensor
/-
Specification vocabulary for nested Python lists.
-/
namespace Whale
variable {V : Type}

mutual
/-- `v` has shape `s`: lists of length `s[0]` of values of shape `s[1:]`. -/
def HasShape : List Int → Nested V → Prop
  | [], .leaf _ => True
  | s :: ss, .node l => (l.length : Int) = s ∧ HasShapeL ss l
  | _, _ => False
def HasShapeL : List Int → List (Nested V) → Prop
  | _, [] => True
  | ss, x :: xs => HasShape ss x ∧ HasShapeL ss xs
end

/-- Lengths along the first elements: the only shape a rectangular list can be given. -/
def shapeOf : Nested V → List Int
  | .leaf _ => []
  | .node [] => [0]
  | .node (x :: xs) => ((x :: xs).length : Int) :: shapeOf x

/-- Rectangular ("homogeneous") nested list. -/
def Rect (v : Nested V) : Prop := HasShape (shapeOf v) v

mutual
/-- All numbers of a nested list, left to right. -/
def leaves : Nested V → List V
  | .leaf v => [v]
  | .node l => leavesL l
def leavesL : List (Nested V) → List V
  | [] => []
  | x :: xs => leaves x ++ leavesL xs
end

mutual
/-- The lengths of all lists at nesting depth `d`. -/
def lensAt : Nat → Nested V → List Int
  | _, .leaf _ => []
  | 0, .node l => [(l.length : Int)]
  | d + 1, .node l => lensAtL d l
def lensAtL : Nat → List (Nested V) → List Int
  | _, [] => []
  | d, x :: xs => lensAt d x ++ lensAtL d xs
end

/-- All lists at the same depth have the same length. -/
def UniformLengths (v : Nested V) : Prop := ∀ d, ∀ a ∈ lensAt d v, ∀ b ∈ lensAt d v, a = b

end Whale
