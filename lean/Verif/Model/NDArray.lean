import Verif.Spec.Tensor
import Verif.Model.Util
/-
Model of `/repo/ndarray.py` (array construction, operators, views, movement; not `backward`, see
`Model/Backward`), `/repo/node.py` and `/repo/buffer.py`.

Objects: every `ndarray` owns one `Node`, one `Buffer` and (as `node.ctx`) one `Func`; all four are created
together (`Node.__init__` is never given `buffer=`; `Func.forward` is called once per `Func`), so a single
number – the position in the append-only heap `Graph` – stands for the identity of all four.
-/
namespace Whale

/-- Exceptions raised by the code (and, for `recursion`, Python's RecursionError, modelled by fuel). -/
inductive Err
  | notHomogeneous      -- ndarray.py:406 ValueError
  | tooManyIndices      -- ndarray.py:258
  | indexOutOfBounds    -- ndarray.py:267
  | badStep             -- ndarray.py:275
  | badIndexType        -- ndarray.py:281
  | notBroadcastable    -- ndarray.py:300
  | invalidReshape      -- ndarray.py:309
  | badAxes             -- ndarray.py:318
  | badDim              -- ndarray.py:326, 329
  | zeroDivision        -- `a % self.ndim` with ndim = 0, ndarray.py:249
  | indexError          -- Python list IndexError
  | typeError           -- Python TypeError
  | attrError           -- Python AttributeError / use of None
  | keyError            -- Python KeyError
  | zeroModulo          -- division by zero inside a kernel
  | recursion           -- Python RecursionError (fuel exhausted in the model)
  | loopNotFound        -- sched.py:132
  | unknownOp           -- codegen.py:142,167,205,220 "unknown ... op"
  | assertion           -- codegen.py:237,252 assert
  | unsupportedLoop     -- backend_python.py:17-18, backend_clang.py:28-29, backend_cuda.py:15-16 RuntimeError: a loop mode the target language has no form for
  | device              -- backend_cuda.py:38-41 RuntimeError: a CUDA driver call returned an error code
  | badRef              -- not an array of the heap (cannot happen in Python)
deriving DecidableEq, Repr

/-- ndarray.py:14-19 class `Func` as stored in `node.ctx`: op, inputs and attrs. -/
inductive Ctx
  | const                                             -- Func(Ops.Const), inputs []
  | unary (op : Ops) (x : Nat)
  | binary (op : Ops) (l r : Nat)
  | sum (x : Nat) (axis : List Nat) (keepdims : Bool)
  | reshape (x : Nat) (shape : List Int)
  | broadcast (x : Nat) (shape : List Int)
  | slice (x : Nat) (subscript : List Sub)
  | transpose (x : Nat) (axes : List Nat)
  | contiguous (x : Nat)
  | pad (x : Nat) (dim before after : Int)
  | dilate (x : Nat) (dim step : Int)
deriving DecidableEq, Repr, Inhabited

/-- ndarray.py:16 `self.op` -/
def Ctx.op : Ctx → Ops
  | .const => .Const
  | .unary op _ => op
  | .binary op _ _ => op
  | .sum .. => .Sum
  | .reshape .. => .Reshape
  | .broadcast .. => .Broadcast
  | .slice .. => .Slice
  | .transpose .. => .Transpose
  | .contiguous .. => .Contiguous
  | .pad .. => .Pad
  | .dilate .. => .Dilate

/-- ndarray.py:17,24 `self.inputs` -/
def Ctx.inputs : Ctx → List Nat
  | .const => []
  | .unary _ x => [x]
  | .binary _ l r => [l, r]
  | .sum x .. => [x]
  | .reshape x .. => [x]
  | .broadcast x .. => [x]
  | .slice x .. => [x]
  | .transpose x .. => [x]
  | .contiguous x => [x]
  | .pad x .. => [x]
  | .dilate x .. => [x]

/-- node.py:6-20 class `Node`.  `val` is the initial content of the node's buffer (`some` only for constants,
node.py:11-12); the mutable buffer contents live in `World` (`Model/Materialize`). -/
structure Node (V : Type) where
  dtype : DType
  shape : List Int
  strides : List Int
  offset : Int
  val : Option (List V)
  ctx : Ctx
deriving Inhabited

/-- The heap of arrays, append-only; array identity = position. -/
abbrev Graph (V : Type) := List (Node V)

namespace Graph
variable {V : Type}

def nd (g : Graph V) (i : Nat) : Node V := g.getD i default
/-- ndarray.py:206-217 properties -/
def shape (g : Graph V) (i : Nat) : List Int := (g.nd i).shape
def strides (g : Graph V) (i : Nat) : List Int := (g.nd i).strides
def offset (g : Graph V) (i : Nat) : Int := (g.nd i).offset
def dtype (g : Graph V) (i : Nat) : DType := (g.nd i).dtype
def ctx (g : Graph V) (i : Nat) : Ctx := (g.nd i).ctx
def ndim (g : Graph V) (i : Nat) : Nat := (g.shape i).length

/-- Creation of a new ndarray/Node (ndarray.py:197, node.py:7). -/
def push (g : Graph V) (n : Node V) : Nat × Graph V := (g.length, g ++ [n])

end Graph

/-- ndarray.py:219 `base`: `self if not self.ctx.op.is_view() else self.ctx.inputs[0].base()`. -/
def baseF {V : Type} (g : Graph V) : Nat → Nat → Nat
  | 0, i => i
  | fuel + 1, i =>
    if (g.ctx i).op.isView then
      match (g.ctx i).inputs with
      | x :: _ => baseF g fuel x
      | [] => i
    else i

def base {V : Type} (g : Graph V) (i : Nat) : Nat := baseF g (i + 1) i

/-- Unnormalised subscript entry accepted by `__getitem__`: int, slice, or anything else. -/
inductive RawSub
  | int (i : Int)
  | slice (start stop step : Option Int)
  | other
deriving DecidableEq, Repr

/-- The `axis` argument of `sum`: None, an int, or a tuple. -/
inductive AxisArg
  | none
  | int (a : Int)
  | tuple (l : List Int)
deriving Repr

namespace ND
variable {V : Type}

/-- ndarray.py:41-43 `_elemwise_forward` -/
def elemwiseNode (g : Graph V) (ctx : Ctx) (i : Nat) : Node V :=
  { dtype := g.dtype i, shape := g.shape i, strides := stridesFromShape (g.shape i), offset := 0, val := none, ctx := ctx }

/-- ndarray.py:223-230 `__unary` and its users `-a`, `sin`, `cos`, `exp`, `log`, `sqrt`. -/
def unary (g : Graph V) (op : Ops) (a : Nat) : Nat × Graph V := g.push (elemwiseNode g (.unary op a) a)

/-- ndarray.py:111-119 `_broadcast_forward` (ndim_diff may be negative: `[0] * n` is `[]` then). -/
def broadcastNode (g : Graph V) (a : Nat) (target : List Int) : Node V :=
  let ndimDiff := target.length - (g.shape a).length      -- truncated: `[0] * negative = []`
  let paddedStrides := List.replicate ndimDiff (0 : Int) ++ g.strides a
  let paddedShape := List.replicate ndimDiff (1 : Int) ++ g.shape a
  let newStrides := List.zipWith (fun s st => if s = 1 then 0 else st) paddedShape paddedStrides
  { dtype := g.dtype a, shape := target, strides := newStrides, offset := g.offset a, val := none,
    ctx := .broadcast a target }

/-- ndarray.py:285-286 `broadcast_to` (no validation in the code). -/
def broadcastTo (g : Graph V) (a : Nat) (target : List Int) : Nat × Graph V := g.push (broadcastNode g a target)

/-- ndarray.py:296-300: the per-dimension loop of `broadcasted`. -/
def broadcastDims : List Int → List Int → Except Err (List Int)
  | d1 :: l1, d2 :: l2 => do
    let d ← if d1 = d2 then pure d1 else if d1 = 1 then pure d2 else if d2 = 1 then pure d1 else throw .notBroadcastable
    let r ← broadcastDims l1 l2
    pure (d :: r)
  | _, _ => pure []

/-- ndarray.py:289-302: the new shape of `broadcasted`. -/
def broadcastShapes (s1 s2 : List Int) : Except Err (List Int) :=
  let maxlen := max s1.length s2.length
  broadcastDims (List.replicate (maxlen - s1.length) 1 ++ s1) (List.replicate (maxlen - s2.length) 1 ++ s2)

/-- ndarray.py:288-306 `broadcasted` -/
def broadcasted (g : Graph V) (a b : Nat) : Except Err ((Nat × Nat) × Graph V) := do
  let newshape ← broadcastShapes (g.shape a) (g.shape b)
  let (l, g) := if g.shape a ≠ newshape then broadcastTo g a newshape else (a, g)
  let (r, g) := if g.shape b ≠ newshape then broadcastTo g b newshape else (b, g)
  pure ((l, r), g)

/-- ndarray.py:234-242 `__binary` and its users `+ - * / **`, both operands arrays
(`wrap` of a Python number is `constScalar`). -/
def binary (g : Graph V) (op : Ops) (a b : Nat) : Except Err (Nat × Graph V) := do
  let ((l, r), g) ← broadcasted g a b
  pure (g.push (elemwiseNode g (.binary op l r) l))

/-- ndarray.py:247-248: an int becomes a 1-tuple; no axis (None or an empty tuple) means every axis. -/
def axisList (ndim : Nat) (axis : AxisArg) : List Int :=
  let l := match axis with
    | .none => []
    | .int a => [a]
    | .tuple l => l
  if l.isEmpty then (List.range ndim).map Int.ofNat else l

/-- ndarray.py:247-249: normalisation of the axis argument, `a % self.ndim` for every axis. -/
def normAxis (ndim : Nat) (axis : AxisArg) : Except Err (List Nat) :=
  if ndim = 0 ∧ ¬ (axisList ndim axis).isEmpty then throw .zeroDivision
  else pure ((axisList ndim axis).map fun a => (a % (ndim : Int)).toNat)

/-- ndarray.py:86-92 `_reduce_forward` -/
def reduceNode (g : Graph V) (a : Nat) (axis : List Nat) (keepdims : Bool) : Node V :=
  let newshape :=
    if keepdims then (g.shape a).zipIdx.map (fun p => if p.2 ∈ axis then 1 else p.1)
    else ((g.shape a).zipIdx.filter (fun p => p.2 ∉ axis)).map (·.1)
  { dtype := g.dtype a, shape := newshape, strides := stridesFromShape newshape, offset := 0, val := none,
    ctx := .sum a axis keepdims }

/-- ndarray.py:246-252 `__reduce`, `sum` -/
def sum (g : Graph V) (a : Nat) (axis : AxisArg) (keepdims : Bool) : Except Err (Nat × Graph V) := do
  let axis ← normAxis (g.ndim a) axis
  pure (g.push (reduceNode g a axis keepdims))

/-- ndarray.py:261-281: normalisation of one subscript entry for an axis of length `size`. -/
def normSub (size : Int) : RawSub → Except Err Sub
  | .int s =>
    let ss := if s < 0 then s + size else s
    if 0 ≤ ss ∧ ss < size then pure (.int ss) else throw .indexOutOfBounds
  | .slice start stop step =>
    let start := start.getD 0
    let stop := stop.getD size
    let step := step.getD 1
    let start := if start < 0 then start + size else start
    let stop := if stop < 0 then stop + size else stop
    if step ≤ 0 then throw .badStep
    else pure (.slice (max 0 (min start size)) (max 0 (min stop size)) step)
  | .other => throw .badIndexType

/-- ndarray.py:261: `for dim, s in enumerate(padded)`. -/
def normSubs : List Int → List RawSub → Except Err (List Sub)
  | size :: shape, s :: subs => do
    let n ← normSub size s
    let r ← normSubs shape subs
    pure (n :: r)
  | _, _ => pure []

/-- ndarray.py:137-145: the loop of `_slice_forward`; returns offset increment, shape, strides. -/
def sliceLayout : List Int → List Sub → Int × List Int × List Int
  | st :: strides, .int s :: subs =>
    let (o, sh, str) := sliceLayout strides subs
    (s * st + o, sh, str)
  | st :: strides, .slice a b c :: subs =>
    let (o, sh, str) := sliceLayout strides subs
    (a * st + o, max 0 ((b - a + c - 1) / c) :: sh, st * c :: str)
  | _, _ => (0, [], [])

/-- ndarray.py:136-146 `_slice_forward` -/
def sliceNode (g : Graph V) (a : Nat) (subs : List Sub) : Node V :=
  let (o, sh, str) := sliceLayout (g.strides a) subs
  { dtype := g.dtype a, shape := sh, strides := str, offset := g.offset a + o, val := none, ctx := .slice a subs }

/-- ndarray.py:256-283 `__getitem__` (the subscript already made a tuple). -/
def getitem (g : Graph V) (a : Nat) (subscript : List RawSub) : Except Err (Nat × Graph V) := do
  if g.ndim a < subscript.length then throw .tooManyIndices
  let padded := subscript ++ List.replicate (g.ndim a - subscript.length) (RawSub.slice none none none)
  let norm ← normSubs (g.shape a) padded
  pure (g.push (sliceNode g a norm))

/-- ndarray.py:323 `is_contiguous` -/
def isContiguous (g : Graph V) (a : Nat) : Bool := g.strides a == stridesFromShape (g.shape a)

/-- ndarray.py:324,166 `contiguous`, `_contiguous_forward` -/
def contiguous (g : Graph V) (a : Nat) : Nat × Graph V :=
  if isContiguous g a then (a, g) else g.push (elemwiseNode g (.contiguous a) a)

/-- ndarray.py:104-108 `_reshape_forward` -/
def reshapeNode (g : Graph V) (a : Nat) (shape : List Int) : Node V :=
  { dtype := g.dtype a, shape := shape, strides := stridesFromShape shape, offset := 0, val := none,
    ctx := .reshape a shape }

/-- ndarray.py:308-310 `reshape` -/
def reshape (g : Graph V) (a : Nat) (shape : List Int) : Except Err (Nat × Graph V) := do
  if prod shape ≠ prod (g.shape a) then throw .invalidReshape
  let (c, g) := contiguous g a
  pure (g.push (reshapeNode g c shape))

/-- ndarray.py:127-132 `_transpose_forward` -/
def transposeNode (g : Graph V) (a : Nat) (axes : List Nat) : Node V :=
  { dtype := g.dtype a, shape := axes.map (geti (g.shape a)), strides := axes.map (geti (g.strides a)),
    offset := g.offset a, val := none, ctx := .transpose a axes }

/-- ndarray.py:317-319 `transpose` -/
def transpose (g : Graph V) (a : Nat) (axes : List Int) : Except Err (Nat × Graph V) := do
  if axes.pySort ≠ (List.range (g.ndim a)).map Int.ofNat then throw .badAxes
  pure (g.push (transposeNode g a (axes.map Int.toNat)))

/-- ndarray.py:312-315 `T` -/
def T (g : Graph V) (a : Nat) : Except Err (Nat × Graph V) :=
  if g.ndim a ≤ 1 then pure (a, g)
  else transpose g a ((List.range (g.ndim a)).map Int.ofNat).reverse

/-- ndarray.py:169-172 `_pad_forward`; `d` is the list position meant by `dim`. -/
def padNode (g : Graph V) (a : Nat) (d : Nat) (dim before after : Int) : Node V :=
  let newshape := (g.shape a).set d (geti (g.shape a) d + (before + after))
  { dtype := g.dtype a, shape := newshape, strides := stridesFromShape newshape, offset := 0, val := none,
    ctx := .pad a dim before after }

/-- ndarray.py:325-327 `pad` -/
def pad (g : Graph V) (a : Nat) (dim before after : Int) : Except Err (Nat × Graph V) :=
  if (g.ndim a : Int) ≤ dim then throw .badDim
  else if before = 0 ∧ after = 0 then pure (a, g)
  else match pyPos (g.ndim a) dim with
    | none => throw .indexError
    | some d => pure (g.push (padNode g a d dim before after))

/-- ndarray.py:179-183 `_dilate_forward`; `d` is the list position meant by `dim`. -/
def dilateNode (g : Graph V) (a : Nat) (d : Nat) (dim step : Int) : Node V :=
  let newshape := (g.shape a).set d ((geti (g.shape a) d - 1) * step + 1)
  { dtype := g.dtype a, shape := newshape, strides := stridesFromShape newshape, offset := 0, val := none,
    ctx := .dilate a dim step }

/-- ndarray.py:328-330 `dilate` -/
def dilate (g : Graph V) (a : Nat) (dim step : Int) : Except Err (Nat × Graph V) :=
  if (g.ndim a : Int) ≤ dim then throw .badDim
  else if step = 1 then pure (a, g)
  else match pyPos (g.ndim a) dim with
    | none => throw .indexError
    | some d => pure (g.push (dilateNode g a d dim step))

/-! ### factories -/

/-- ndarray.py:389 `int64 if val and type(val[0]) is int else float64` -/
def constDtype (A : Scalar V) : List V → DType
  | v :: _ => if A.isInt v then .int64 else .float64
  | [] => .float64

/-- ndarray.py:388-391 `_const` -/
def constNode (A : Scalar V) (shape : List Int) (val : List V) : Node V :=
  { dtype := constDtype A val, shape := shape, strides := stridesFromShape shape, offset := 0, val := some val, ctx := .const }

def const (A : Scalar V) (g : Graph V) (shape : List Int) (val : List V) : Nat × Graph V := g.push (constNode A shape val)

mutual
/-- ndarray.py:397-410: the recursive closure `f` of `array`, with its captured `shape` and `flattened`. -/
def arrayGo : Nested V → Nat → List Int × List V → Except Err (List Int × List V)
  | .leaf v, _, (shape, flat) => pure (shape, flat ++ [v])
  | .node l, dim, (shape, flat) =>
    let length : Int := l.length
    if shape.length = dim then arrayGoL l (dim + 1) (shape ++ [length], flat)
    else if length ≠ geti shape dim then throw .notHomogeneous
    else arrayGoL l (dim + 1) (shape, flat)
/-- ndarray.py:409-410: `for elem in d: f(elem, dim + 1)`. -/
def arrayGoL : List (Nested V) → Nat → List Int × List V → Except Err (List Int × List V)
  | [], _, st => pure st
  | x :: xs, dim, st => do
    let st ← arrayGo x dim st
    arrayGoL xs dim st
end

/-- ndarray.py:393-413 `array` -/
def array (A : Scalar V) (g : Graph V) (val : Nested V) : Except Err (Nat × Graph V) := do
  let (shape, flat) ← arrayGo val 0 ([], [])
  pure (const A g shape flat)

/-- ndarray.py:415-416 `arange` -/
def arange (A : Scalar V) (g : Graph V) (stop : Int) : Except Err (Nat × Graph V) :=
  array A g (.node ((irange stop).map fun i => .leaf (A.host i)))

/-- ndarray.py:418-419 `full` (`[val] * n` is `[]` for n ≤ 0) -/
def full (A : Scalar V) (g : Graph V) (shape : List Int) (val : V) : Nat × Graph V :=
  const A g shape (List.replicate (prod shape).toNat val)

/-- ndarray.py:421-422 `full_like` -/
def fullLike (A : Scalar V) (g : Graph V) (t : Nat) (val : V) : Nat × Graph V := full A g (g.shape t) val

/-- ndarray.py:424-426 `ones_like` -/
def onesLike (A : Scalar V) (g : Graph V) (t : Nat) : Nat × Graph V :=
  let val := if g.dtype t = .int32 ∨ g.dtype t = .int64 then A.host 1 else A.fone
  fullLike A g t val

/-- ndarray.py:428-429 `zeros_like` -/
def zerosLike (A : Scalar V) (g : Graph V) (t : Nat) : Nat × Graph V := fullLike A g t (A.host 0)

/-- ndarray.py:200 `wrap` of a Python number: `array(v)` -/
def constScalar (A : Scalar V) (g : Graph V) (v : V) : Nat × Graph V := const A g [] [v]

/-! ### reading back -/

/-- List access `data[k]`; the model reports an error outside `[0, len)` (Python would wrap negative positions). -/
def fetch (data : List V) (k : Int) : Except Err V :=
  if 0 ≤ k then (match data[k.toNat]? with | some v => pure v | none => throw .indexError) else throw .indexError

/-- ndarray.py:362-368 `_to_ndlist` with its inner `f(shape, strides, offset)`. -/
def toNdlist (data : List V) : List Int → List Int → Int → Except Err (Nested V)
  | [], _, offset => do
    let v ← fetch data offset
    pure (.leaf v)
  | s :: shape, strides, offset =>
    match strides with
    | [] => if s ≤ 0 then pure (.node []) else throw .indexError
    | st :: strides => do
      let l ← (irange s).mapM fun i => toNdlist data shape strides (offset + i * st)
      pure (.node l)

end ND
end Whale
