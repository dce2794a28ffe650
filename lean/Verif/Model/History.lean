import Verif.Model.Backward
/-
The public API as a state machine: one constructor of `Call` per public operation, `step` executes one call on the world.
-/
namespace Whale
variable {V : Type}

/-- ndarray.py:225-230 the public unary operations -/
inductive Un | neg | sin | cos | exp | log | sqrt
deriving DecidableEq, Repr

def Un.op : Un → Ops
  | neg => .Neg | sin => .Sin | cos => .Cos | exp => .Exp | log => .Log | sqrt => .Sqrt

/-- ndarray.py:238-242 the public binary operators -/
inductive Bn | add | sub | mul | truediv | pow
deriving DecidableEq, Repr

def Bn.op : Bn → Ops
  | add => .Add | sub => .Sub | mul => .Mul | truediv => .Truediv | pow => .Pow

/-- A call of the public API; arrays are given by their identity. -/
inductive Call (V : Type)
  | array (v : Nested V)                                     -- ndarray.py:393
  | arange (n : Int)                                         -- ndarray.py:415
  | full (shape : List Int) (v : V)                          -- ndarray.py:418
  | fullLike (a : Nat) (v : V)                               -- ndarray.py:421
  | onesLike (a : Nat)                                       -- ndarray.py:424
  | zerosLike (a : Nat)                                      -- ndarray.py:428
  | un (op : Un) (a : Nat)                                   -- ndarray.py:225-230
  | bin (op : Bn) (a b : Nat)                                -- ndarray.py:238-242
  | binScalar (op : Bn) (a : Nat) (v : V)                    -- the same with a Python number on the right, ndarray.py:200,235
  | sum (a : Nat) (axis : AxisArg) (keepdims : Bool)         -- ndarray.py:252
  | getitem (a : Nat) (sub : List RawSub)                    -- ndarray.py:256
  | broadcastTo (a : Nat) (shape : List Int)                 -- ndarray.py:285
  | reshape (a : Nat) (shape : List Int)                     -- ndarray.py:308
  | T (a : Nat)                                              -- ndarray.py:312
  | transpose (a : Nat) (axes : List Int)                    -- ndarray.py:317
  | contiguous (a : Nat)                                     -- ndarray.py:324
  | pad (a : Nat) (dim before after : Int)                   -- ndarray.py:325
  | dilate (a : Nat) (dim step : Int)                        -- ndarray.py:328
  | materialize (a : Nat)                                    -- ndarray.py:355
  | tolist (a : Nat)                                         -- ndarray.py:357
  | backward (a : Nat)                                       -- ndarray.py:334
  | grad (a : Nat)                                           -- reading the attribute `grad`
  | clearGrad (a : Nat)                                      -- the assignment `a.grad = None`
  | setGrad (a k : Nat)                                      -- the assignment `a.grad = k`
  | reset                                                    -- materialize.py:120 `materialize.reset()`

/-- What a call returns: an array, a nested list, or nothing (`None`). -/
inductive Out (V : Type)
  | arr (i : Nat)
  | list (l : Nested V)
  | unit

/-- The arrays a call is given. -/
def Call.arrays : Call V → List Nat
  | .array _ | .arange _ | .full .. | .reset => []
  | .fullLike a _ | .onesLike a | .zerosLike a | .un _ a | .binScalar _ a _ | .sum a .. | .getitem a _ | .broadcastTo a _ | .reshape a _ | .T a
  | .transpose a _ | .contiguous a | .pad a .. | .dilate a .. | .materialize a | .tolist a | .backward a | .grad a | .clearGrad a => [a]
  | .bin _ a b | .setGrad a b => [a, b]

namespace Hist

/-- A call that only creates arrays. -/
def made (w : World V) (p : Nat × Graph V) : Except Err (Out V × World V) := .ok (.arr p.1, { w with g := p.2 })

def madeE (w : World V) (p : Except Err (Nat × Graph V)) : Except Err (Out V × World V) := p.bind (made w)

/-- Execution of one API call on existing arrays. -/
def exec1 (b : Backend V) (w : World V) : Call V → Except Err (Out V × World V)
  | .array v => madeE w (ND.array b.A w.g v)
  | .arange n => madeE w (ND.arange b.A w.g n)
  | .full s v => made w (ND.full b.A w.g s v)
  | .fullLike a v => made w (ND.fullLike b.A w.g a v)
  | .onesLike a => made w (ND.onesLike b.A w.g a)
  | .zerosLike a => made w (ND.zerosLike b.A w.g a)
  | .un op a => made w (ND.unary w.g op.op a)
  | .bin op x y => madeE w (ND.binary w.g op.op x y)
  | .binScalar op x v => madeE w (ND.binary (ND.constScalar b.A w.g v).2 op.op x (ND.constScalar b.A w.g v).1)
  | .sum a ax kd => madeE w (ND.sum w.g a ax kd)
  | .getitem a s => madeE w (ND.getitem w.g a s)
  | .broadcastTo a s => made w (ND.broadcastTo w.g a s)
  | .reshape a s => madeE w (ND.reshape w.g a s)
  | .T a => madeE w (ND.T w.g a)
  | .transpose a s => madeE w (ND.transpose w.g a s)
  | .contiguous a => made w (ND.contiguous w.g a)
  | .pad a d x y => madeE w (ND.pad w.g a d x y)
  | .dilate a d s => madeE w (ND.dilate w.g a d s)
  | .materialize a => (Mat.materialize b w a).map fun w => (.unit, w)
  | .tolist a => (Mat.tolist b w a).map fun p => (.list p.1, p.2)
  | .backward a => (Bwd.backward b.A w a).map fun w => (.unit, w)
  | .grad a => .ok (match w.grad a with | some k => .arr k | none => .unit, w)
  | .clearGrad a => .ok (.unit, { w with grad := fun i => if i = a then none else w.grad i })
  | .setGrad a k => .ok (.unit, { w with grad := fun i => if i = a then some k else w.grad i })
  | .reset => .ok (.unit, { w with cache := [], hits := fun _ => 0, hist := [], log := [], epoch := w.tick })

/-- One API call.  Only existing arrays can be passed. -/
def step (b : Backend V) (w : World V) (c : Call V) : Except Err (Out V × World V) :=
  if ∀ a ∈ c.arrays, a < w.g.length then exec1 b w c else .error .badRef

/-- Whether a raising call of this kind may leave changes behind (then the state afterwards is not modelled). -/
def Call.atomic : Call V → Bool
  | .materialize _ | .backward _ => false
  | _ => true

/-- The world after a call that may have raised (and whose exception the program caught): a raising call that only creates arrays, or `tolist`,
has no effect; after a raising `materialize` or `backward` the state is not modelled. -/
def next (b : Backend V) (w : World V) (c : Call V) : Option (World V) :=
  match step b w c with
  | .ok (_, w') => some w'
  | .error _ => if Call.atomic c then some w else none

end Hist
end Whale
