import Verif.Spec.History
import Verif.Spec.Slice
/-
Reference semantics: what each API call that returns an array is supposed to return, as a tensor, given the tensors of its arguments.
Only shapes and elements; no strides, offsets, graphs, kernels.
-/
namespace Whale
variable {V : Type}

/-- Dimension `k` counted from the right; missing dimensions are 1. -/
def dimR (s : List Int) (k : Nat) : Int := s.reverse.getD k 1

/-- NumPy: two shapes can be broadcast together. -/
def Compatible (s t : List Int) : Prop := ∀ k, dimR s k = dimR t k ∨ dimR s k = 1 ∨ dimR t k = 1

/-- NumPy: `r` is the broadcast of `s` and `t`. -/
def IsBroadcast (s t r : List Int) : Prop := r.length = max s.length t.length ∧ ∀ k, dimR r k = if dimR s k = 1 then dimR t k else dimR s k

/-- The broadcast of two compatible shapes. -/
def bshape (s t : List Int) : List Int := ((List.range (max s.length t.length)).map fun k => if dimR s k = 1 then dimR t k else dimR s k).reverse

/-- Coordinates of an operand of shape `s` for index `idx` of the result: added leading coordinates dropped, coordinates of size-1 axes set to 0. -/
def project (s idx : List Int) : List Int := List.zipWith (fun d i => if d = 1 then 0 else i) s (idx.drop (idx.length - s.length))

/-- `axes` is a permutation of `range(n)`. -/
def IsPerm (axes : List Int) (n : Nat) : Prop := axes.Perm ((List.range n).map Int.ofNat)

/-- The axes named in the `axis` argument of `sum`. -/
def givenAxes : AxisArg → List Int
  | .none => []
  | .int a => [a]
  | .tuple l => l

/-- NumPy: the axes meant by the argument, for an array of `n` dimensions: a negative axis counts from the end, no axis means all. -/
def meantAxes (n : Nat) (ax : AxisArg) : List Nat :=
  if givenAxes ax = [] then List.range n else (givenAxes ax).map fun a => (if a < 0 then a + (n : Int) else a).toNat

/-- Every axis is in `[-n, n)`. -/
def AxesInRange (n : Nat) (ax : AxisArg) : Prop := ∀ a ∈ givenAxes ax, -(n : Int) ≤ a ∧ a < n

instance (n : Nat) (ax : AxisArg) : Decidable (AxesInRange n ax) := inferInstanceAs (Decidable (∀ a ∈ givenAxes ax, -(n : Int) ≤ a ∧ a < n))

/-- The number at position `idx` of a nested list (`d` if there is none). -/
def Nested.at (d : V) : Nested V → List Int → V
  | .leaf v, [] => v
  | .node l, i :: idx => match l[i.toNat]? with
    | some x => Nested.at d x idx
    | none => d
  | _, _ => d
termination_by _ idx => idx.length

/-- The tensor a call is supposed to return, given the tensors `ρ` and dtypes `δ` of the arrays passed (`none`: the call does not return an array with a
meaning of its own). -/
def meaning (A : Scalar V) (δ : Nat → DType) (ρ : Nat → Tensor V) : Call V → Option (Tensor V)
  | .array v => some ⟨shapeOf v, v.at (A.ofInt 0)⟩
  | .arange n => some ⟨[max n 0], fun i => A.host (geti i 0)⟩
  | .full s v => some ⟨s, fun _ => v⟩
  | .fullLike a v => some ⟨(ρ a).shape, fun _ => v⟩
  | .onesLike a => some ⟨(ρ a).shape, fun _ => if δ a = .int32 ∨ δ a = .int64 then A.host 1 else A.fone⟩
  | .zerosLike a => some ⟨(ρ a).shape, fun _ => A.host 0⟩
  | .un op a => some ⟨(ρ a).shape, fun i => A.un op.op ((ρ a).get i)⟩
  | .bin op x y => some ⟨bshape (ρ x).shape (ρ y).shape, fun i => A.bin op.op ((ρ x).get (project (ρ x).shape i)) ((ρ y).get (project (ρ y).shape i))⟩
  | .binScalar op a v => some ⟨(ρ a).shape, fun i => A.bin op.op ((ρ a).get i) v⟩
  | .sum a ax kd => if AxesInRange (ρ a).shape.length ax then some ((ρ a).sum A (meantAxes (ρ a).shape.length ax) kd) else none
  | .getitem a subs => (picks (ρ a).shape subs).map fun ps => ⟨pickShape ps, fun i => (ρ a).get (pickIdx ps i)⟩
  | .broadcastTo a s => some ⟨s, fun i => (ρ a).get (project (ρ a).shape i)⟩
  | .reshape a s => some ⟨s, fun i => (ρ a).get (unravel (ρ a).shape (ravel s i))⟩
  | .T a => some ⟨(ρ a).shape.reverse, fun i => (ρ a).get i.reverse⟩
  | .transpose a axes => some ((ρ a).transpose (axes.map Int.toNat))
  | .contiguous a => some (ρ a)
  | .pad a d x y => some ((ρ a).pad A d.toNat x y)
  | .dilate a d st => some ((ρ a).dilate A d.toNat st)
  | .materialize _ | .tolist _ | .backward _ | .grad _ | .clearGrad _ | .setGrad .. | .reset => none

/-- A program run together with its reference meaning: `H` lists the arrays the calls made so far have returned, each with the tensor it is supposed to be.
Calls may be anything in the domain; calls that raise, or return no array, or return a gradient, add nothing to `H`. -/
inductive Tracks (b : Backend V) : World V → List (Nat × Tensor V) → Prop
  | init : Tracks b Mat.init []
  | returns {w w' H c r T} (ρ : Nat → Tensor V) : Tracks b w H → ArgsOK b w c → (∀ a ∈ c.arrays, (a, ρ a) ∈ H) →
      Hist.step b w c = .ok (.arr r, w') → meaning b.A w.g.dtype ρ c = some T → Tracks b w' ((r, T) :: H)
  | other {w w' H c} : Tracks b w H → Legal b w c → Hist.next b w c = some w' → Tracks b w' H
  | stopped {w w' H y} : Tracks b w H → y < w.g.length → ArgsOK b w (.backward y) → Bwd.Stopped b.A w y w' → Tracks b w' H

end Whale
