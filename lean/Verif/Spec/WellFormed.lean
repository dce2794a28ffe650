import Verif.Model.NDArray
/-
Well-formed heaps: every array was produced by an operation whose arguments are earlier arrays and legal.
-/
namespace Whale
variable {V : Type}

/-- Pointwise: each source dimension equals the target dimension or is 1. -/
def bcastOK : List Int → List Int → Prop
  | [], [] => True
  | a :: s, b :: t => (a = b ∨ a = 1) ∧ bcastOK s t
  | _, _ => False

instance bcastOK.dec : (s t : List Int) → Decidable (bcastOK s t)
  | [], [] => isTrue trivial
  | a :: s, b :: t =>
    have := bcastOK.dec s t
    inferInstanceAs (Decidable ((a = b ∨ a = 1) ∧ bcastOK s t))
  | [], _ :: _ => isFalse (fun h => h)
  | _ :: _, [] => isFalse (fun h => h)

/-- NumPy: shape `s` can be broadcast to shape `t`. -/
def BroadcastsTo (s t : List Int) : Prop := s.length ≤ t.length ∧ bcastOK s (t.drop (t.length - s.length))

instance (s t : List Int) : Decidable (BroadcastsTo s t) := inferInstanceAs (Decidable (_ ∧ _))

/-- Normalised subscripts that are legal for a shape. -/
def SubsOK : List Int → List Sub → Prop
  | [], [] => True
  | s :: ss, .int i :: r => (0 ≤ i ∧ i < s) ∧ SubsOK ss r
  | s :: ss, .slice a b c :: r => ((0 ≤ a ∧ a ≤ s) ∧ (0 ≤ b ∧ b ≤ s) ∧ 0 < c) ∧ SubsOK ss r
  | _, _ => False

/-- The operation that created node `n` has legal arguments, all created before position `k`,
and the recorded metadata is what the constructor computes. -/
def NodeOK (g : Graph V) (k : Nat) (n : Node V) : Prop :=
  match n.ctx with
  | .const => ∃ l, n.val = some l ∧ (l.length : Int) = prod n.shape ∧ NonNeg n.shape ∧
      n.strides = stridesFromShape n.shape ∧ n.offset = 0 ∧ (n.dtype = .int64 ∨ n.dtype = .float64)
  | .unary op x => x < k ∧ op.isUnary = true ∧ n = ND.elemwiseNode g (.unary op x) x
  | .binary op l r => l < k ∧ r < k ∧ op.isBinary = true ∧ g.shape l = g.shape r ∧ n = ND.elemwiseNode g (.binary op l r) l
  | .sum x axis kd => x < k ∧ (∀ a ∈ axis, a < g.ndim x) ∧ n = ND.reduceNode g x axis kd
  | .reshape x s => x < k ∧ prod s = prod (g.shape x) ∧ NonNeg s ∧ NonNeg (g.shape x) ∧
      g.strides x = stridesFromShape (g.shape x) ∧ n = ND.reshapeNode g x s
  | .broadcast x s => x < k ∧ BroadcastsTo (g.shape x) s ∧ n = ND.broadcastNode g x s
  | .slice x subs => x < k ∧ SubsOK (g.shape x) subs ∧ n = ND.sliceNode g x subs
  | .transpose x axes => x < k ∧ axes.Perm (List.range (g.ndim x)) ∧ n = ND.transposeNode g x axes
  | .contiguous x => x < k ∧ n = ND.elemwiseNode g (.contiguous x) x
  | .pad x dim b a => x < k ∧ (0 ≤ dim ∧ dim < g.ndim x) ∧ n = ND.padNode g x dim.toNat dim b a
  | .dilate x dim st => x < k ∧ (0 ≤ dim ∧ dim < g.ndim x) ∧ 1 ≤ st ∧ n = ND.dilateNode g x dim.toNat dim st

/-- Every array of the heap is well-formed. -/
def WF (g : Graph V) : Prop := ∀ i < g.length, NodeOK g i (g.nd i)

end Whale
