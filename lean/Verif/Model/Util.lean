import Verif.Spec.Index
/-
Model of `/repo/util.py`.
-/
namespace Whale

/-- util.py:4 `strides_from_shape`: `tuple([math.prod(shape[i+1:]) for i in range(len(shape))])`. -/
def stridesFromShape (shape : List Int) : List Int :=
  (List.range shape.length).map fun i => prod (shape.drop (i + 1))

/-- Insertion of `x` before the first element that is not smaller. -/
def _root_.List.pyInsert {α : Type} (le : α → α → Bool) (x : α) : List α → List α
  | [] => [x]
  | y :: l => if le x y then x :: y :: l else y :: List.pyInsert le x l

/-- Python's `sorted` (a stable sort), used in util.py:6, ndarray.py:318, algo.py:238 and sched.py:85. -/
def _root_.List.pySort {α : Type} (l : List α) (le : α → α → Bool := by exact fun a b => a ≤ b) : List α := l.foldr (List.pyInsert le) []

/-- util.py:6 `argsort`: `sorted(range(len(seq)), key=seq.__getitem__)` (stable sort), for the only use in the
code, sequences of axis numbers. -/
def argsort (seq : List Nat) : List Nat :=
  (List.range seq.length).pySort (fun i j => seq.getD i 0 ≤ seq.getD j 0)

/-- Python list subscript `l[dim]` with a possibly negative position: the position meant, if in range. -/
def pyPos (n : Nat) (dim : Int) : Option Nat :=
  if 0 ≤ dim ∧ dim < n then some dim.toNat
  else if dim < 0 ∧ 0 ≤ dim + n then some (dim + n).toNat
  else none

/-- `sum(x * y for x, y in zip(xs, ys))`, the address computation of strided access. -/
def dot : List Int → List Int → Int
  | x :: xs, y :: ys => x * y + dot xs ys
  | _, _ => 0

end Whale
