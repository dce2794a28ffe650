import Verif.Proofs.DemoDev
/-
Running the project's unit tests (/repo/test.py) in the model, to check the model (not the code, and not the properties): see tools/gen_tests.py.
-/
namespace Whale.Tests
open Whale Mat Hist

/-- The numbers of the tests: Python integers, exact fractions for floats, and unevaluated `math` functions. -/
inductive Sy
  | i (n : Int)
  | q (n : Int) (d : Nat)
  | f (o : Ops) (x : Sy)
deriving DecidableEq

namespace Sy

def rat : Sy → Option Rat
  | i n => some n
  | q n d => some (mkRat n d)
  | f .. => none

def ofRat (r : Rat) : Sy := q r.num r.den

/-- The square root of a square. -/
def root (n : Nat) : Option Nat := (List.range (n + 1)).find? fun k => k * k == n

def un (o : Ops) (x : Sy) : Sy := match o, x with
  | .Neg, i n => i (-n)
  | .Neg, q n d => q (-n) d
  | .Sqrt, q n d => match root n.toNat, root d with
    | some a, some b => q a b
    | _, _ => f o x
  | _, _ => f o x

/-- Power with an integer exponent. -/
def pow (a b : Rat) : Option Rat := if b.den = 1 then some (if 0 ≤ b.num then a ^ b.num.toNat else (a ^ b.num.natAbs)⁻¹) else none

def bin (o : Ops) (x y : Sy) : Sy := match o, x, y with
  | .Add, i a, i b => i (a + b)
  | .Sub, i a, i b => i (a - b)
  | .Mul, i a, i b => i (a * b)
  | .Pow, i a, i b => if 0 ≤ b then i (a ^ b.toNat) else f o x
  | _, _, _ => match o, x.rat, y.rat with
    | .Add, some a, some b => ofRat (a + b)
    | .Sub, some a, some b => ofRat (a - b)
    | .Mul, some a, some b => ofRat (a * b)
    | .Truediv, some a, some b => ofRat (a / b)
    | .Pow, some a, some b => match pow a b with | some r => ofRat r | none => f o x
    | .Mul, none, some b => if b = 1 then x else f o x
    | .Mul, some a, none => if a = 1 then y else f o y
    | _, _, _ => f o x

/-- Python's `==` on numbers. -/
def eqv (x y : Sy) : Bool := match x.rat, y.rat with
  | some a, some b => a = b
  | _, _ => x = y

def isInt : Sy → Bool
  | i _ => true
  | _ => false

end Sy

/-- The arithmetic of the tests. -/
def arith : Scalar Sy := ⟨.i, .q 1 1, Sy.isInt, Sy.un, Sy.bin, .q 0 1, .i⟩

/-- The Python backend. -/
def pyB : Backend Sy := pythonBackend arith
/-- A CUDA-like backend. -/
noncomputable def cudaB : Backend Sy := demoBackend arith true true fun _ => .i 77

/-- One step of a test; arrays are given by the number of the call that returned them. -/
inductive TStep
  | call (c : Call Sy)
  | raises (c : Call Sy)
  | shape (a : Nat) (s : List Int)
  | strides (a : Nat) (s : List Int)
  | offset (a : Nat) (o : Int)
  | ndim (a : Nat) (n : Nat)
  | dtype (a : Nat) (d : DType)
  | list (a : Nat) (path : List Nat) (l : Nested Sy)
  | same (a b : Nat)
  | contig (a : Nat) (yes : Bool)
  | hist (n : Nat)
  | hits (n : Nat)

/-- The call with other numbers for its arrays. -/
def rename (r : Nat → Nat) : Call Sy → Call Sy
  | .fullLike a v => .fullLike (r a) v
  | .onesLike a => .onesLike (r a)
  | .zerosLike a => .zerosLike (r a)
  | .un o a => .un o (r a)
  | .bin o a b => .bin o (r a) (r b)
  | .binScalar o a v => .binScalar o (r a) v
  | .sum a x k => .sum (r a) x k
  | .getitem a s => .getitem (r a) s
  | .broadcastTo a s => .broadcastTo (r a) s
  | .reshape a s => .reshape (r a) s
  | .T a => .T (r a)
  | .transpose a s => .transpose (r a) s
  | .contiguous a => .contiguous (r a)
  | .pad a d x y => .pad (r a) d x y
  | .dilate a d s => .dilate (r a) d s
  | .materialize a => .materialize (r a)
  | .tolist a => .tolist (r a)
  | .backward a => .backward (r a)
  | .grad a => .grad (r a)
  | .clearGrad a => .clearGrad (r a)
  | .setGrad a k => .setGrad (r a) (r k)
  | c => c

mutual
def sameN : Nested Sy → Nested Sy → Bool
  | .leaf x, .leaf y => x.eqv y
  | .node l, .node m => sameL l m
  | _, _ => false
def sameL : List (Nested Sy) → List (Nested Sy) → Bool
  | [], [] => true
  | x :: xs, y :: ys => sameN x y && sameL xs ys
  | _, _ => false
end

/-- `l[i][j]…` -/
def at_ : List Nat → Nested Sy → Option (Nested Sy)
  | [], l => some l
  | i :: p, .node l => (l[i]?).bind (at_ p)
  | _ :: _, .leaf _ => none

/-- The errors that are RuntimeErrors in Python. -/
def isRuntimeError : Err → Bool
  | .tooManyIndices | .indexOutOfBounds | .badStep | .badIndexType | .notBroadcastable | .invalidReshape | .badAxes | .badDim => true
  | _ => false

/-- Run a test: `env` are the arrays returned so far. -/
def go (b : Backend Sy) : World Sy → List Nat → List TStep → Bool
  | _, _, [] => true
  | w, env, t :: ts =>
    let r := fun i => env.getD i 0
    match t with
    | .call c => match step b w (rename r c) with
      | .ok (.arr i, w') => go b w' (env ++ [i]) ts
      | .ok (_, w') => go b w' env ts
      | .error _ => false
    | .raises c => match step b w (rename r c) with
      | .error e => isRuntimeError e && go b w env ts
      | .ok _ => false
    | .list a p l => match step b w (.tolist (r a)) with
      | .ok (.list l', w') => (match at_ p l' with | some l' => sameN l' l | none => false) && go b w' env ts
      | _ => false
    | .shape a s => w.g.shape (r a) = s && go b w env ts
    | .strides a s => w.g.strides (r a) = s && go b w env ts
    | .offset a s => w.g.offset (r a) = s && go b w env ts
    | .ndim a n => w.g.ndim (r a) = n && go b w env ts
    | .dtype a d => w.g.dtype (r a) = d && go b w env ts
    | .same a c => r a = r c && go b w env ts
    | .contig a y => ND.isContiguous w.g (r a) = y && go b w env ts
    | .hist n => w.hist.length = n && go b w env ts
    | .hits n => (match w.cache with | (k, _) :: _ => w.hits k = n | [] => false) && go b w env ts

def passes (b : Backend Sy) (t : List TStep) : Bool := go b Mat.init [] t

end Whale.Tests
