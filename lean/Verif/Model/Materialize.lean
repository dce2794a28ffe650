import Verif.Model.Parallel
/-
Model of `/repo/materialize.py`, `/repo/kernel.py`, `/repo/backend.py`, the executors, and `ndarray.tolist`.
-/
namespace Whale

/-- materialize.py:74-92 keys of index expressions. -/
inductive IKey
  | idx (name : VName) (extent : Int)
  | const (c : Int)
  | bin (op : Ops) (l r : IKey)
deriving DecidableEq, Repr, Inhabited

/-- materialize.py:74-92 the tuples made by `_expr_key`; `none` is Python's None, the result of the `match` without a
matching case (there is no case for TernaryExpr).  The literal 0 of pad/dilate only occurs below a TernaryExpr. -/
inductive EKey
  | none
  | const (c : Int)
  | un (op : Ops) (e : EKey)
  | bin (op : Ops) (l r : EKey)
  | red (op : Ops) (vars : List (VName × Int)) (e : EKey)
  | fnc (e : EKey) (idx : List IKey)
  | buf (id : Nat) (shape strides : List Int) (offset : Int) (dt : DType) (idx : List IKey)
deriving DecidableEq, Repr, Inhabited

/-- materialize.py:94-103 `_sched_key` -/
structure SKey where
  loops : List (VName × Int × LoopKind × LoopExec)
  splits : List (VName × Int × Bool)
deriving DecidableEq, Repr, Inhabited

/-- materialize.py:106-112 the tuple `key`.  The code uses the MD5 digest of its `str`; the model uses the tuple itself,
which is the same as long as MD5 does not merge texts: `str` merges no tuples (C60). -/
structure Key where
  loops : List (VName × Int)
  shape : List Int
  dt : DType
  expr : EKey
  sched : SKey
deriving DecidableEq, Repr, Inhabited

/-- What the code runs on.  `run tick m sch body` resolves the nondeterminism of concurrent loops and GPU threads in the
`tick`-th launch: the stores to `out` in the order in which they happen, `none` if the kernel fails.  `junk` is the
content of freshly allocated device memory. -/
structure Backend (V : Type) where
  A : Scalar V
  isC : Bool
  isGpu : Bool
  run : Nat → Machine V → Schedule → Stmt → Option (List (Int × V))
  junk : Nat → V

/-- Not code: what happens on the device – memory for `n` elements is allocated for array `i`, its CPU content is copied in, a kernel is launched, device
memory is copied back, device memory is freed (buffer.py:19-21; only in `Model/Collect`). -/
inductive DevEvent
  | alloc (i : Nat) (n : Int)
  | copyIn (i : Nat)
  | launch (out : Nat) (ins : List Nat)
  | copyOut (i : Nat)
  | free (i : Nat)
deriving DecidableEq, Repr

/-- The whole observable state: arrays, buffer contents on CPU and device, gradients, kernel cache with hit counts,
compilation history, temporaries counter of the code generator, number of launches so far.
`log` is a history variable (not in the code): for every launch since the last `reset` the cache key and the code that generating the kernel
afresh would give (with temporaries numbered from 0).  `ev` is another one: the device operations so far; `epoch` another one: the number of launches before the last `reset`. -/
structure World (V : Type) where
  g : Graph V
  cpu : Nat → Option (List V)
  dev : Nat → Option (List V)
  grad : Nat → Option Nat
  cache : List (Key × Kernel)
  hits : Key → Nat
  hist : List Kernel
  tmp : Nat
  tick : Nat
  log : List (Key × Except Err (Kernel × Nat))
  ev : List DevEvent
  epoch : Nat

namespace Mat
variable {V : Type}

/-- A fresh interpreter: no arrays, empty cache (materialize.py:11-13, codegen.py:24). -/
def init : World V :=
  { g := [], cpu := fun _ => none, dev := fun _ => none, grad := fun _ => none, cache := [], hits := fun _ => 0, hist := [], tmp := 0, tick := 0, log := [], ev := [], epoch := 0 }

/-- materialize.py:74-92 on index expressions -/
def ikey : IExpr → IKey
  | .index l => .idx l.name l.extent
  | .const c => .const c
  | .bin op l r => .bin op (ikey l) (ikey r)

/-- materialize.py:74-92 `_expr_key` on one expression, `ids` is the dict `buf_ids` (nodes in order of first occurrence);
`visit` is the recursive call on the expression of a referenced Func. -/
def ekeyE (g : Graph V) (visit : Nat → List Nat → Except Err (EKey × List Nat)) : DExpr → List Nat → Except Err (EKey × List Nat)
  | .const c, ids => pure (.const c, ids)
  | .un op e, ids => do
    let (k, ids) ← ekeyE g visit e ids
    pure (.un op k, ids)
  | .bin op l r, ids => do
    let (k1, ids) ← ekeyE g visit l ids
    let (k2, ids) ← ekeyE g visit r ids
    pure (.bin op k1 k2, ids)
  | .tern .., ids => pure (.none, ids)
  | .red op e rs, ids => do
    let (k, ids) ← ekeyE g visit e ids
    pure (.red op (rs.map fun l => (l.name, l.extent)) k, ids)
  | .func f idx, ids => do
    let (k, ids) ← visit f ids
    pure (.fnc k (idx.map ikey), ids)
  | .buf n idx, ids =>
    let ids := if n ∈ ids then ids else ids ++ [n]
    pure (.buf (ids.idxOf n) (g.shape n) (g.strides n) (g.offset n) (g.dtype n) (idx.map ikey), ids)

/-- materialize.py:74-92 `_expr_key` -/
def ekey (g : Graph V) (t : Tbl) : Nat → DExpr → List Nat → Except Err (EKey × List Nat)
  | 0, _, _ => throw .recursion
  | fuel + 1, e, ids => ekeyE g (fun f ids => match t f with
      | some F => ekey g t fuel F.expr ids
      | none => throw .attrError) e ids

/-- materialize.py:94-103 -/
def skey (sch : Schedule) : SKey :=
  { loops := sch.loops.map fun l => (l.lv.name, l.lv.extent, l.kind, l.exec)
    splits := sch.splits.map fun s => (s.orig.name, s.factor, s.tailGuard) }

/-- materialize.py:73-113 `func_cache_key`; fuel bounds the recursion depth. -/
def cacheKey (g : Graph V) (t : Tbl) (fuel : Nat) (F : Func) (sch : Schedule) : Except Err Key := do
  let (e, _) ← ekey g t fuel F.expr []
  pure { loops := F.outLoops.map fun l => (l.name, l.extent), shape := F.outShape, dt := F.outDtype, expr := e, sched := skey sch }

/-- The CPU content of array `i`'s own buffer: what was stored last, or the data it was created with (node.py:11-15). -/
def cpuBuf (w : World V) (i : Nat) : Option (List V) := (w.cpu i).or (w.g.nd i).val

/-- node.py:12,14 `Buffer.length` -/
def bufLen (w : World V) (i : Nat) : Int := match (w.g.nd i).val with
  | some l => l.length
  | none => prod (w.g.shape i)

/-- Update of a map. -/
def upd {α : Type} (f : Nat → Option α) (i : Nat) (v : α) : Nat → Option α := fun j => if j = i then some v else f j

/-- backend.py:34-36: a missing CPU buffer is filled with zeros (`[0] * p.length`). -/
def fillCpu (A : Scalar V) (w : World V) (i : Nat) : World V :=
  match cpuBuf w i with
  | some _ => w
  | none => { w with cpu := upd w.cpu i (List.replicate (bufLen w i).toNat (A.host 0)) }

/-- backend.py:47-49: device memory is allocated once; the CUDA driver refuses to allocate 0 bytes (cuMemAlloc:
CUDA_ERROR_INVALID_VALUE, raised by backend_cuda.py:38-41). -/
def alloc (b : Backend V) (w : World V) (i : Nat) : Except Err (World V) :=
  match w.dev i with
  | some _ => .ok w
  | none => if bufLen w i ≤ 0 then .error .device else .ok { w with dev := upd w.dev i ((List.range (bufLen w i).toNat).map b.junk), ev := w.ev ++ [.alloc i (bufLen w i)] }

/-- backend.py:52: the CPU content of an input parameter is copied to the device; `k` is the parameter position. -/
def htod (w : World V) (i k : Nat) : World V :=
  match cpuBuf w i with
  | some l => if k ≠ 0 then { w with dev := upd w.dev i l, ev := w.ev ++ [.copyIn i] } else w
  | none => w

/-- backend.py:46-52: one iteration of the parameter loop. -/
def toDev (b : Backend V) (w : World V) (p : Nat × Nat) : Except Err (World V) := do
  let w ← alloc b w p.1
  pure (htod w p.1 p.2)

/-- The machine a kernel runs on: `out` and the input arrays by parameter name. -/
def machine (b : Backend V) (K : Kernel) (out : List V) (ins : List (List V)) : Machine V :=
  { A := b.A, ar := if b.isC then .c else .python, mem := fun x => ((K.params.tail.map (·.1)).zip ins).lookup x, outLen := out.length, gpu := fun _ _ => none }

/-- backend_cuda.py:69-81: a launch that the device does not accept raises. -/
def gpuRun (b : Backend V) (tick : Nat) (m : Machine V) (sch : Schedule) (body : Stmt) : Option (List (Int × V)) :=
  if Kern.launchOK sch then b.run tick m sch body else none

/-- backend.py:33-64 `invoke_kernel`, backend_python.py:55-56, backend_clang.py:41-47, backend_cuda.py:69-81.
The model refuses (`badRef`) to run a kernel whose output buffer is also an input; `assertion` is a failing kernel or launch. -/
def invoke (b : Backend V) (w : World V) (sch : Schedule) (K : Kernel) (out : Nat) (ins : List Nat) : Except Err (World V) := do
  if out ∈ ins then throw .badRef
  if K.params.length ≠ (out :: ins).length then throw .typeError
  if b.isGpu then
    let w ← (out :: ins).zipIdx.foldlM (toDev b) w
    match w.dev out, ins.mapM w.dev with
    | some o, some is =>
      match gpuRun b w.tick (machine b K o is) sch K.body with
      | some ws => pure { w with dev := upd w.dev out (Kern.applyWrites o ws), tick := w.tick + 1, ev := w.ev ++ [.launch out ins] }
      | none => throw .assertion
    | _, _ => throw .attrError
  else
    let w := (out :: ins).foldl (fillCpu b.A) w
    match cpuBuf w out, ins.mapM (cpuBuf w) with
    | some o, some is =>
      match b.run w.tick (machine b K o is) sch K.body with
      | some ws => pure { w with cpu := upd w.cpu out (Kern.applyWrites o ws), tick := w.tick + 1 }
      | none => throw .assertion
    | _, _ => throw .attrError

/-- materialize.py:46 `[f.func.out_buffer for f in fncs]` -/
def outBufs (t : Tbl) (fncs : List Nat) : Except Err (List Nat) := fncs.mapM fun f => match t f with
  | some G => pure G.outBuffer
  | none => throw .attrError

/-- materialize.py:35, sched.py:173-183 the schedules of all functions. -/
def schedAll (isGpu : Bool) (t : Tbl) (funcs : List Nat) : Except Err (List Schedule) := funcs.mapM fun f => match t f with
  | some F => Sched.schedule isGpu F
  | none => throw .attrError

/-- materialize.py:44-68: one iteration of the loop over the functions. -/
def runFunc (b : Backend V) (t : Tbl) (fuel : Nat) (w : World V) (p : Nat × Schedule) : Except Err (World V) := do
  match t p.1 with
  | none => throw .attrError
  | some F =>
    let bufs := (Algo.args F.expr).1
    let fncs := (Algo.args F.expr).2
    let outs ← outBufs t fncs
    let key ← cacheKey w.g t fuel F p.2
    match w.cache.lookup key with
    | some K => invoke b { w with hits := fun k => if k = key then w.hits k + 1 else w.hits k } p.2 K F.outBuffer (bufs ++ outs)
    | none =>
      let (K, n) ← Codegen.codegen w.g t F p.2 ⟨bufs, fncs⟩ w.tmp
      let w := { w with tmp := n, cache := w.cache ++ [(key, K)], hits := fun k => if k = key then 0 else w.hits k }
      let w ← invoke b w p.2 K F.outBuffer (bufs ++ outs)
      pure { w with hist := w.hist ++ [K] }

/-- Not code: what the history variable `log` records for one function. -/
def plan1 (g : Graph V) (t : Tbl) (fuel : Nat) (p : Nat × Schedule) : Option (Key × Except Err (Kernel × Nat)) :=
  match t p.1 with
  | none => none
  | some F => match cacheKey g t fuel F p.2 with
    | .ok key => some (key, Codegen.codegen g t F p.2 ⟨(Algo.args F.expr).1, (Algo.args F.expr).2⟩ 0)
    | .error _ => none

/-- materialize.py:15-68 `materialize`; fuel bounds the recursion over views.  `log` is the history variable. -/
def materializeF (b : Backend V) : Nat → World V → Nat → Except Err (World V)
  | 0, _, _ => throw .recursion
  | fuel + 1, w, a =>
    if (w.g.ctx a).op.isConst then pure w
    else if (w.g.ctx a).op.isView then
      match (w.g.ctx a).inputs with
      | x :: _ => materializeF b fuel w x
      | [] => throw .indexError
    else do
      let (funcs, t) ← Algo.convert w.g a
      let scheds ← schedAll b.isGpu t funcs
      (funcs.zip scheds).foldlM (runFunc b t (a + 2)) { w with log := w.log ++ (funcs.zip scheds).filterMap (plan1 w.g t (a + 2)) }

/-- materialize.py:117-118 -/
def materialize (b : Backend V) (w : World V) (a : Nat) : Except Err (World V) := materializeF b (a + 1) w a

/-- ndarray.py:358-364 the first part of `tolist`: copy from the device if there is no CPU content (a CPU backend has no
`memcpy_dtoh`, and a buffer without device memory cannot be copied). -/
def ensureCpu (b : Backend V) (w : World V) (x : Nat) : Except Err (World V) :=
  match cpuBuf w x with
  | some _ => .ok w
  | none =>
    if b.isGpu = true then
      match w.dev x with
      | some l => .ok { w with cpu := upd w.cpu x l, ev := w.ev ++ [.copyOut x] }
      | none => .error .attrError
    else .error .attrError

/-- ndarray.py:357-368 `tolist`, `_to_ndlist`. -/
def tolist (b : Backend V) (w : World V) (a : Nat) : Except Err (Nested V × World V) := do
  let w ← ensureCpu b w (base w.g a)
  match cpuBuf w (base w.g a) with
  | some data => do
    let l ← ND.toNdlist data (w.g.shape a) (w.g.strides a) (w.g.offset a)
    pure (l, w)
  | none => throw .attrError

end Mat
end Whale
