import Verif.Spec.Denote
import Verif.Spec.Gradient
/-
Specification of reverse-mode differentiation at the level of tensors: what each operation passes to its inputs
(vector-Jacobian product), and how contributions are accumulated.  Nothing here refers to the arrays `backward` creates.
-/
namespace Whale
variable {V : Type}

/-- The index of an array of shape `s` that a broadcast reads (same rank). -/
def bcastIdx (s idx : List Int) : List Int := List.zipWith (fun d i => if d = 1 then (0 : Int) else i) s idx

/-- The derivative formulas of the elementwise operations, as the code writes them.  `X` input, `Y` output, `G` incoming gradient. -/
def unaryVjp (A : Scalar V) (op : Ops) (X Y G : Tensor V) : Tensor V :=
  match op with
  | .Neg => G.map (A.un .Neg)
  | .Sin => (X.map (A.un .Cos)).zip (A.bin .Mul) G
  | .Cos => ((X.map (A.un .Sin)).map (A.un .Neg)).zip (A.bin .Mul) G
  | .Exp => Y.zip (A.bin .Mul) G
  | .Log => G.zip (A.bin .Truediv) X
  | .Sqrt => G.zip (A.bin .Truediv) (Y.map fun v => A.bin .Mul v (A.host 2))
  | _ => G

/-- The derivative formulas of the binary operations: `L`, `R` inputs, `G` incoming gradient; one result per input. -/
def binaryVjp (A : Scalar V) (op : Ops) (L R G : Tensor V) : List (Tensor V) :=
  match op with
  | .Add => [G, G]
  | .Sub => [G, G.map (A.un .Neg)]
  | .Mul => [G.zip (A.bin .Mul) R, G.zip (A.bin .Mul) L]
  | .Truediv => [G.zip (A.bin .Truediv) R,
      G.zip (A.bin .Mul) ((L.map (A.un .Neg)).zip (A.bin .Truediv) (R.map fun v => A.bin .Pow v (A.host 2)))]
  | .Pow => [(R.zip (A.bin .Mul) (L.zip (A.bin .Pow) (R.map fun v => A.bin .Sub v (A.host 1)))).zip (A.bin .Mul) G,
      ((L.zip (A.bin .Pow) R).zip (A.bin .Mul) (L.map (A.un .Log))).zip (A.bin .Mul) G]
  | _ => []

/-- The sum of `G` over the fibre of a broadcast. -/
def bcastVjp (A : Scalar V) (orig : List Int) (G : Tensor V) : Tensor V :=
  ⟨orig, fun j => ((indices G.shape).filter (fun i => bcastIdx orig (i.drop (G.shape.length - orig.length)) = j)).foldl
    (fun acc i => A.bin .Add acc (G.get i)) (A.ofInt 0)⟩

/-- The output index that reads input index `j` (if any). -/
def unslice : List Sub → List Int → Option (List Int)
  | [], _ => some []
  | .int s :: r, j :: js => if j = s then unslice r js else none
  | .slice a b c :: r, j :: js =>
    if a ≤ j ∧ (j - a) % c = 0 ∧ (j - a) / c < Tensor.sliceLen a b c then (unslice r js).map ((j - a) / c :: ·) else none
  | _ :: _, [] => none

/-- The value the gradient of an indexing operation has at input index `p ++ q`. -/
def scatter (A : Scalar V) (G : Tensor V) (p : List Int) (o : Option (List Int)) : V :=
  match o with
  | some i => G.get (p ++ i)
  | none => A.ofInt 0

/-- The gradient of indexing: scattered to the selected positions. -/
def sliceVjp (A : Scalar V) (orig : List Int) (subs : List Sub) (G : Tensor V) : Tensor V :=
  ⟨orig, fun j => scatter A G [] (unslice subs j)⟩

/-- The gradients the operation that made array `t` passes to its inputs, as tensors. -/
def nodeVjp (A : Scalar V) (g : Graph V) (t : Nat) (G : Tensor V) : List (Tensor V) :=
  match g.ctx t with
  | .const => []
  | .unary op x => [unaryVjp A op (den A g x) (den A g t) G]
  | .binary op l r => binaryVjp A op (den A g l) (den A g r) G
  | .sum x axis kd => [⟨g.shape x, fun j => G.get (Tensor.sumProj axis kd j)⟩]
  | .reshape x _ => [G.reshape (g.shape x)]
  | .broadcast x _ => [bcastVjp A (g.shape x) G]
  | .slice x subs => [sliceVjp A (g.shape x) subs G]
  | .transpose x axes => [⟨g.shape x, fun j => G.get (axes.map (geti j))⟩]
  | .contiguous _ => [G]
  | .pad x dim before _ => [⟨g.shape x, fun j => G.get (j.set dim.toNat (before + geti j dim.toNat))⟩]
  | .dilate x dim step => [⟨g.shape x, fun j => G.get (j.set dim.toNat (geti j dim.toNat * step))⟩]

/-- The gradient of array `i` as a tensor. -/
def gradT (A : Scalar V) (w : World V) (i : Nat) : Option (Tensor V) := (w.grad i).map (den A w.g)

/-- Adding a contribution to a possibly missing gradient. -/
def addGrad (A : Scalar V) (o : Option (Tensor V)) (T : Tensor V) : Option (Tensor V) :=
  match o with
  | none => some T
  | some O => some (O.zip (A.bin .Add) T)

/-- What array `t`, having gradient `G`, contributes to the gradient of its input `i`. -/
def contribs (A : Scalar V) (g : Graph V) (i t : Nat) (G : Tensor V) : List (Tensor V) :=
  (((g.ctx t).inputs.zip (nodeVjp A g t G)).filter (fun p => p.1 = i)).map (·.2)

/-- Equal up to values at invalid indices. -/
def OptEq : Option (Tensor V) → Option (Tensor V) → Prop
  | none, none => True
  | some T, some U => T.Equiv U
  | _, _ => False

/-- Contributions of array `t` to `i`, given the current gradients. -/
def contribsW (A : Scalar V) (g : Graph V) (Γ : Nat → Option (Tensor V)) (i t : Nat) : List (Tensor V) :=
  match Γ t with
  | some G => contribs A g i t G
  | none => []

/-- The seed value: `1` or `1.0`, by dtype. -/
def oneOf (A : Scalar V) (d : DType) : V := if d = .int32 ∨ d = .int64 then A.host 1 else A.fone

/-- The gradients `backward` starts from: the existing ones, and all ones for the root if it has none. -/
def seedT (A : Scalar V) (w : World V) (y i : Nat) : Option (Tensor V) :=
  if i = y ∧ w.grad y = none then some ⟨w.g.shape y, fun _ => oneOf A (w.g.dtype y)⟩ else gradT A w i

/-- Every array listed comes after all the listed arrays that use it. -/
def ConsumersFirst (g : Graph V) (l : List Nat) : Prop := ∀ l1 f l2, l = l1 ++ f :: l2 → ∀ x ∈ (g.ctx f).inputs, x ∉ l1 ∧ x ≠ f

end Whale
