import Verif.Spec.Observe
import Verif.Spec.Numbers
/-
Specification vocabulary for C50: the same program run with two element arithmetics (of two backends, say).
-/
namespace Whale
variable {V W V1 V2 : Type}

mutual
/-- A nested list with every number replaced. -/
def Nested.map (f : V → W) : Nested V → Nested W
  | .leaf v => .leaf (f v)
  | .node l => .node (Nested.mapL f l)
def Nested.mapL (f : V → W) : List (Nested V) → List (Nested W)
  | [] => []
  | x :: xs => x.map f :: Nested.mapL f xs
end

/-- A call with every number in its arguments replaced. -/
def Call.map (f : V → W) : Call V → Call W
  | .array v => .array (v.map f)
  | .arange n => .arange n
  | .full s v => .full s (f v)
  | .fullLike a v => .fullLike a (f v)
  | .onesLike a => .onesLike a
  | .zerosLike a => .zerosLike a
  | .un op a => .un op a
  | .bin op a b => .bin op a b
  | .binScalar op a v => .binScalar op a (f v)
  | .sum a ax kd => .sum a ax kd
  | .getitem a s => .getitem a s
  | .broadcastTo a s => .broadcastTo a s
  | .reshape a s => .reshape a s
  | .T a => .T a
  | .transpose a s => .transpose a s
  | .contiguous a => .contiguous a
  | .pad a d x y => .pad a d x y
  | .dilate a d s => .dilate a d s
  | .materialize a => .materialize a
  | .tolist a => .tolist a
  | .backward a => .backward a
  | .grad a => .grad a
  | .clearGrad a => .clearGrad a
  | .setGrad a k => .setGrad a k
  | .reset => .reset

/-- The numbers in the arguments of a call. -/
def Call.numbers : Call V → List V
  | .array v => leaves v
  | .full _ v | .fullLike _ v | .binScalar _ _ v => [v]
  | _ => []

/-- Related numbers of the same Python type. -/
def SameNumber (R : V1 → V2 → Prop) (A1 : Scalar V1) (A2 : Scalar V2) (v1 : V1) (v2 : V2) : Prop := R v1 v2 ∧ A1.isInt v1 = A2.isInt v2

/-- The numbers the library itself puts into constant arrays are the same: 0, 1, 2 and 1.0. -/
structure SameConstants (R : V1 → V2 → Prop) (A1 : Scalar V1) (A2 : Scalar V2) : Prop where
  zero : SameNumber R A1 A2 (A1.host 0) (A2.host 0)
  one : SameNumber R A1 A2 (A1.host 1) (A2.host 1)
  two : SameNumber R A1 A2 (A1.host 2) (A2.host 2)
  fone : SameNumber R A1 A2 A1.fone A2.fone

/-- All operations, and the literal 0 of kernels, take related numbers to related numbers. -/
structure Respects (R : V1 → V2 → Prop) (A1 : Scalar V1) (A2 : Scalar V2) : Prop where
  zero : R (A1.ofInt 0) (A2.ofInt 0)
  un : ∀ op a b, R a b → R (A1.un op a) (A2.un op b)
  bin : ∀ op a b c d, R a b → R c d → R (A1.bin op a c) (A2.bin op b d)

/-- The two readings of a call on pairs of numbers are the same call: the numbers are related and have the same Python type. -/
def SameCall (R : V1 → V2 → Prop) (A1 : Scalar V1) (A2 : Scalar V2) (c : Call (V1 × V2)) : Prop :=
  (∀ p ∈ c.numbers, SameNumber R A1 A2 p.1 p.2) ∧ ∀ n, c = .arange n → ∀ i, 0 ≤ i → i < n → SameNumber R A1 A2 (A1.host i) (A2.host i)

/-- The same program – its numbers are pairs, of which the first session uses the first and the second the second component – has been run in two sessions.
If `backward` was left in the middle, it was at the same point in both: as many arrays had been made and the same gradients set. -/
inductive Both (R : V1 → V2 → Prop) (b1 : Backend V1) (b2 : Backend V2) : World V1 → World V2 → Prop
  | init : Both R b1 b2 Mat.init Mat.init
  | call {w1 w1' : World V1} {w2 w2' : World V2} {c : Call (V1 × V2)} : Both R b1 b2 w1 w2 → SameCall R b1.A b2.A c →
      Legal b1 w1 (c.map Prod.fst) → Hist.next b1 w1 (c.map Prod.fst) = some w1' →
      Legal b2 w2 (c.map Prod.snd) → Hist.next b2 w2 (c.map Prod.snd) = some w2' → Both R b1 b2 w1' w2'
  | stopped {w1 w1' : World V1} {w2 w2' : World V2} {y : Nat} : Both R b1 b2 w1 w2 → y < w1.g.length → ArgsOK b1 w1 (.backward y) → Bwd.Stopped b1.A w1 y w1' →
      y < w2.g.length → ArgsOK b2 w2 (.backward y) → Bwd.Stopped b2.A w2 y w2' → w1'.g.length = w2'.g.length → w1'.grad = w2'.grad → Both R b1 b2 w1' w2'

/-- Two nested lists of the same form with related numbers. -/
def RelatedLists (R : V1 → V2 → Prop) (l1 : Nested V1) (l2 : Nested V2) : Prop := ∃ l : Nested (V1 × V2), l1 = l.map Prod.fst ∧ l2 = l.map Prod.snd ∧ ∀ p ∈ leaves l, R p.1 p.2

/-! ### integers -/

/-- The integers of type `int64_t`. -/
def Int64 (i : Int) : Prop := -9223372036854775808 ≤ i ∧ i < 9223372036854775808

instance (i : Int) : Decidable (Int64 i) := inferInstanceAs (Decidable (_ ∧ _))

/-- The same number in Python and in C: an integer, as `int64_t`, or a floating point number, as `double`. -/
inductive SameC {S D : Type} : Sem.Py D → Sem.CVal S D → Prop
  | int {i : Int} : Int64 i → SameC (.int i) (.i64 i)
  | flt {x : D} : SameC (.flt x) (.f64 x)

/-- Exact integer arithmetic: negation, sum, difference and product of 64-bit integers whose result is a 64-bit integer; nothing else has a result. -/
def exact64 : Scalar (Option Int) where
  ofInt i := if Int64 i then some i else none
  host i := if Int64 i then some i else none
  fone := none
  fzero := none
  isInt v := v.isSome
  un op a := match op, a with
    | .Neg, some i => if Int64 (-i) then some (-i) else none
    | _, _ => none
  bin op a b := match op, a, b with
    | .Add, some i, some j => if Int64 (i + j) then some (i + j) else none
    | .Sub, some i, some j => if Int64 (i - j) then some (i - j) else none
    | .Mul, some i, some j => if Int64 (i * j) then some (i * j) else none
    | _, _, _ => none

/-- A 64-bit integer. -/
def asInt64 {D : Type} : Sem.Py D → Option Int
  | .int i => if Int64 i then some i else none
  | .flt _ => none

/-- The arrays of a session with the elements of all constant arrays replaced. -/
def Graph.mapData (f : V → W) (g : Graph V) : Graph W := g.map fun n => { dtype := n.dtype, shape := n.shape, strides := n.strides, offset := n.offset, ctx := n.ctx, val := n.val.map (List.map f) }

end Whale
