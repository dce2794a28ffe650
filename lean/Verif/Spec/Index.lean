/-
Specification vocabulary: multi-indices of a shape, in row-major (lexicographic) order.
Nothing here refers to the implementation (no strides, offsets, buffers or loops).
-/
namespace Whale

/-- Product of a list of integers (`math.prod`). -/
def prod : List Int → Int
  | [] => 1
  | s :: ss => s * prod ss

/-- `list(range(n))`: empty for `n ≤ 0`. -/
def irange (n : Int) : List Int := (List.range n.toNat).map Int.ofNat

/-- `idx` is a valid index of an array of this shape: same rank, `0 ≤ idx[d] < shape[d]`. -/
def ValidIdx : List Int → List Int → Prop
  | [], [] => True
  | s :: ss, i :: is => (0 ≤ i ∧ i < s) ∧ ValidIdx ss is
  | _, _ => False

instance ValidIdx.dec : (shape idx : List Int) → Decidable (ValidIdx shape idx)
  | [], [] => isTrue trivial
  | s :: ss, i :: is =>
    have := ValidIdx.dec ss is
    inferInstanceAs (Decidable ((0 ≤ i ∧ i < s) ∧ ValidIdx ss is))
  | [], _ :: _ => isFalse (fun h => h)
  | _ :: _, [] => isFalse (fun h => h)

/-- All valid indices of a shape in row-major (lexicographic) order. -/
def indices : List Int → List (List Int)
  | [] => [[]]
  | s :: ss => (irange s).flatMap fun i => (indices ss).map (i :: ·)

/-- Position of an index in row-major order. -/
def ravel : List Int → List Int → Int
  | _ :: ss, i :: is => i * prod ss + ravel ss is
  | _, _ => 0

/-- The index at a row-major position. -/
def unravel : List Int → Int → List Int
  | [], _ => []
  | _ :: ss, k => (k / prod ss) :: unravel ss (k % prod ss)

/-- All dimensions are non-negative. -/
def NonNeg (shape : List Int) : Prop := ∀ s ∈ shape, 0 ≤ s

instance (shape : List Int) : Decidable (NonNeg shape) := inferInstanceAs (Decidable (∀ s ∈ shape, 0 ≤ s))

/-- `l[k]` for a list of integers. -/
def geti (l : List Int) (k : Nat) : Int := l.getD k 0

/-- Nested Python lists of numbers. -/
inductive Nested (V : Type) where
  | leaf : V → Nested V
  | node : List (Nested V) → Nested V

end Whale
