import Verif.Spec.Index
import Verif.Model.Ops
/-
Specification: tensors as a shape and a function from indices to values, and the NumPy-style meaning
of every array operation.  No strides, offsets, buffers, kernels.
-/
namespace Whale

structure Tensor (V : Type) where
  shape : List Int
  get : List Int → V

/-- A normalised subscript entry: an index, or `start:stop:step` with non-negative bounds. -/
inductive Sub
  | int (i : Int)
  | slice (start stop step : Int)
deriving DecidableEq, Repr, Inhabited

namespace Tensor
variable {V : Type}

/-- Same shape and same element at every valid index. -/
def Equiv (t u : Tensor V) : Prop := t.shape = u.shape ∧ ∀ idx, ValidIdx t.shape idx → t.get idx = u.get idx

/-- Elements in row-major order. -/
def flatten (t : Tensor V) : List V := (indices t.shape).map t.get

/-- Tensor with given row-major elements. -/
def ofFlat (d : V) (shape : List Int) (l : List V) : Tensor V := ⟨shape, fun idx => l.getD (ravel shape idx).toNat d⟩

def toNestedAux : List Int → (List Int → V) → Nested V
  | [], f => .leaf (f [])
  | s :: ss, f => .node ((irange s).map fun i => toNestedAux ss (fun r => f (i :: r)))

/-- The nested Python list of a tensor. -/
def toNested (t : Tensor V) : Nested V := toNestedAux t.shape t.get

/-- Elementwise unary operation. -/
def map (f : V → V) (t : Tensor V) : Tensor V := ⟨t.shape, fun idx => f (t.get idx)⟩

/-- Elementwise binary operation on tensors of the same shape. -/
def zip (f : V → V → V) (t u : Tensor V) : Tensor V := ⟨t.shape, fun idx => f (t.get idx) (u.get idx)⟩

/-- `numpy.transpose(t, axes)`: output axis `d` is input axis `axes[d]`. -/
def transpose (t : Tensor V) (axes : List Nat) : Tensor V :=
  ⟨axes.map (geti t.shape),
   fun idx => t.get ((List.range axes.length).map fun k => geti idx (axes.idxOf k))⟩

/-- `numpy.broadcast_to(t, s)`. -/
def broadcastTo (t : Tensor V) (s : List Int) : Tensor V :=
  ⟨s, fun idx => t.get (List.zipWith (fun d i => if d = 1 then 0 else i) t.shape (idx.drop (s.length - t.shape.length)))⟩

/-- Number of elements of `range(start, stop, step)` for `step > 0`. -/
def sliceLen (start stop step : Int) : Int := max 0 ((stop - start + step - 1) / step)

/-- Shape of basic indexing with normalised subscripts. -/
def sliceShape : List Sub → List Int
  | [] => []
  | .int _ :: r => sliceShape r
  | .slice a b c :: r => sliceLen a b c :: sliceShape r

/-- Input index addressed by an output index of basic indexing. -/
def sliceIdx : List Sub → List Int → List Int
  | [], _ => []
  | .int i :: r, idx => i :: sliceIdx r idx
  | .slice a _ c :: r, k :: idx => (a + k * c) :: sliceIdx r idx
  | .slice a _ _ :: r, [] => a :: sliceIdx r []

/-- Basic indexing. -/
def slice (t : Tensor V) (subs : List Sub) : Tensor V := ⟨sliceShape subs, fun idx => t.get (sliceIdx subs idx)⟩

/-- Same elements in row-major order, other shape. -/
def reshape (t : Tensor V) (s : List Int) : Tensor V := ⟨s, fun idx => t.get (unravel t.shape (ravel s idx))⟩

/-- Where element `j` of the input goes when `axis` is reduced. -/
def sumProj (axis : List Nat) (keepdims : Bool) (j : List Int) : List Int :=
  if keepdims then j.zipIdx.map (fun p => if p.2 ∈ axis then 0 else p.1)
  else (j.zipIdx.filter (fun p => p.2 ∉ axis)).map (·.1)

def sumShape (axis : List Nat) (keepdims : Bool) (s : List Int) : List Int :=
  if keepdims then s.zipIdx.map (fun p => if p.2 ∈ axis then 1 else p.1)
  else (s.zipIdx.filter (fun p => p.2 ∉ axis)).map (·.1)

/-- Sum over `axis`: left-to-right in row-major order, from 0, over the input elements that project onto the index. -/
def sum (A : Scalar V) (t : Tensor V) (axis : List Nat) (keepdims : Bool) : Tensor V :=
  ⟨sumShape axis keepdims t.shape,
   fun idx => ((indices t.shape).filter (fun j => sumProj axis keepdims j = idx)).foldl
      (fun acc j => A.bin .Add acc (t.get j)) (A.ofInt 0)⟩

/-- Zero padding along `dim`. -/
def pad (A : Scalar V) (t : Tensor V) (dim : Nat) (before after : Int) : Tensor V :=
  ⟨t.shape.set dim (geti t.shape dim + (before + after)),
   fun idx => if before ≤ geti idx dim ∧ geti idx dim < before + geti t.shape dim
     then t.get (idx.set dim (geti idx dim - before)) else A.ofInt 0⟩

/-- Insertion of `step-1` zeros between consecutive elements along `dim`. -/
def dilate (A : Scalar V) (t : Tensor V) (dim : Nat) (step : Int) : Tensor V :=
  ⟨t.shape.set dim ((geti t.shape dim - 1) * step + 1),
   fun idx => if geti idx dim % step = 0 then t.get (idx.set dim (geti idx dim / step)) else A.ofInt 0⟩

end Tensor
end Whale
