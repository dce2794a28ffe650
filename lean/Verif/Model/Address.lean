import Verif.Model.Collect
/-
Device memory with addresses: `DevBuff.ptr` (buffer.py:13-21) is an address that the driver gave out, `cuMemFree` gives it back, and a CUDA context takes its memory with it when it is destroyed
(backend_cuda.py:43-46).
-/
namespace Whale
open Mat Hist
variable {V : Type}

/-- The memory of the current CUDA context: the allocated blocks, by address.
Simplification: a block is copied and written as a whole (`Buffer.length` is the length of the block, as both are made for the same buffer). -/
abbrev Heap (V : Type) := List (Nat × List V)

/-- Writing a block. -/
def Heap.set (h : Heap V) (p : Nat) (l : List V) : Heap V := h.map fun x => if x.1 = p then (p, l) else x

/-- `cuMemAlloc`: given the blocks in use and the size, the address of the new block. -/
abbrev Allocator (V : Type) := Heap V → Int → Nat

/-- The state of a session: arrays, host buffers, gradients and kernels as in `World` (whose field `dev` is not used here), the pointer of every array's `DevBuff`, and the memory of the device. -/
structure PWorld (V : Type) where
  w : World V
  ptr : Nat → Option Nat
  heap : Heap V

namespace Ptr

/-- A fresh interpreter. -/
def init : PWorld V := ⟨Mat.init, fun _ => none, []⟩

/-- What a pointer points to; using a pointer into no block is an error of the driver (raised by backend_cuda.py:41). -/
def load (s : PWorld V) (i : Nat) : Option (List V) := (s.ptr i).bind fun p => List.lookup p s.heap

/-- backend.py:47-49, backend_cuda.py:83-86 -/
def alloc (b : Backend V) (al : Allocator V) (s : PWorld V) (i : Nat) : Except Err (PWorld V) :=
  match s.ptr i with
  | some _ => .ok s
  | none =>
    if bufLen s.w i ≤ 0 then .error .device
    else
      let p := al s.heap (bufLen s.w i)
      .ok { w := { s.w with ev := s.w.ev ++ [.alloc i (bufLen s.w i)] }, ptr := upd s.ptr i p, heap := (p, (List.range (bufLen s.w i).toNat).map b.junk) :: s.heap }

/-- backend.py:52, backend_cuda.py:91-92 -/
def htod (s : PWorld V) (i k : Nat) : Except Err (PWorld V) :=
  match cpuBuf s.w i with
  | none => .ok s
  | some l =>
    if k ≠ 0 then
      match s.ptr i, load s i with
      | some p, some _ => .ok { s with w := { s.w with ev := s.w.ev ++ [.copyIn i] }, heap := s.heap.set p l }
      | _, _ => .error .device
    else .ok s

/-- backend.py:46-52: one iteration of the parameter loop. -/
def toDev (b : Backend V) (al : Allocator V) (s : PWorld V) (q : Nat × Nat) : Except Err (PWorld V) := do
  let s ← alloc b al s q.1
  htod s q.1 q.2

/-- backend.py:33-64 `invoke_kernel` as in `Mat.invoke`; on a GPU the kernel gets the addresses.
Simplification: it reads its inputs before it stores (no matter if they do not overlap with the output). -/
def invoke (b : Backend V) (al : Allocator V) (s : PWorld V) (sch : Schedule) (K : Kernel) (out : Nat) (ins : List Nat) : Except Err (PWorld V) := do
  if b.isGpu then
    if out ∈ ins then throw .badRef
    if K.params.length ≠ (out :: ins).length then throw .typeError
    let s ← (out :: ins).zipIdx.foldlM (toDev b al) s
    match s.ptr out, load s out, ins.mapM (load s) with
    | some p, some o, some is =>
      match gpuRun b s.w.tick (machine b K o is) sch K.body with
      | some ws => pure { s with w := { s.w with tick := s.w.tick + 1, ev := s.w.ev ++ [.launch out ins] }, heap := s.heap.set p (Kern.applyWrites o ws) }
      | none => throw .assertion
    | _, _, _ => throw (if (out :: ins).all fun i => (s.ptr i).isSome then .device else .attrError)
  else
    let w ← Mat.invoke b s.w sch K out ins
    pure { s with w := w }

/-- materialize.py:44-68: one iteration of the loop over the functions, as `Mat.runFunc`. -/
def runFunc (b : Backend V) (al : Allocator V) (t : Tbl) (fuel : Nat) (s : PWorld V) (p : Nat × Schedule) : Except Err (PWorld V) := do
  match t p.1 with
  | none => throw .attrError
  | some F =>
    let bufs := (Algo.args F.expr).1
    let fncs := (Algo.args F.expr).2
    let outs ← outBufs t fncs
    let key ← cacheKey s.w.g t fuel F p.2
    match s.w.cache.lookup key with
    | some K => invoke b al { s with w := { s.w with hits := fun k => if k = key then s.w.hits k + 1 else s.w.hits k } } p.2 K F.outBuffer (bufs ++ outs)
    | none =>
      let (K, n) ← Codegen.codegen s.w.g t F p.2 ⟨bufs, fncs⟩ s.w.tmp
      let s := { s with w := { s.w with tmp := n, cache := s.w.cache ++ [(key, K)], hits := fun k => if k = key then 0 else s.w.hits k } }
      let s ← invoke b al s p.2 K F.outBuffer (bufs ++ outs)
      pure { s with w := { s.w with hist := s.w.hist ++ [K] } }

/-- materialize.py:15-68 `materialize`; fuel bounds the recursion over views. -/
def materializeF (b : Backend V) (al : Allocator V) : Nat → PWorld V → Nat → Except Err (PWorld V)
  | 0, _, _ => throw .recursion
  | fuel + 1, s, a =>
    if (s.w.g.ctx a).op.isConst then pure s
    else if (s.w.g.ctx a).op.isView then
      match (s.w.g.ctx a).inputs with
      | x :: _ => materializeF b al fuel s x
      | [] => throw .indexError
    else do
      let (funcs, t) ← Algo.convert s.w.g a
      let scheds ← schedAll b.isGpu t funcs
      (funcs.zip scheds).foldlM (runFunc b al t (a + 2)) { s with w := { s.w with log := s.w.log ++ (funcs.zip scheds).filterMap (plan1 s.w.g t (a + 2)) } }

/-- ndarray.py:358-364, backend.py:88-89, backend_cuda.py:94-97: copying from the device. -/
def ensureCpu (b : Backend V) (s : PWorld V) (x : Nat) : Except Err (PWorld V) :=
  match cpuBuf s.w x with
  | some _ => .ok s
  | none =>
    if b.isGpu = true then
      match load s x with
      | some l => .ok { s with w := { s.w with cpu := upd s.w.cpu x l, ev := s.w.ev ++ [.copyOut x] } }
      | none => .error (if (s.ptr x).isSome then .device else .attrError)
    else .error .attrError

/-- ndarray.py:357-368 `tolist` -/
def tolist (b : Backend V) (s : PWorld V) (a : Nat) : Except Err (Nested V × PWorld V) := do
  let s ← ensureCpu b s (base s.w.g a)
  match cpuBuf s.w (base s.w.g a) with
  | some data => do
    let l ← ND.toNdlist data (s.w.g.shape a) (s.w.g.strides a) (s.w.g.offset a)
    pure (l, s)
  | none => throw .attrError

/-- Execution of one API call on existing arrays: only `materialize` and `tolist` touch the device. -/
def exec1 (b : Backend V) (al : Allocator V) (s : PWorld V) (c : Call V) : Except Err (Out V × PWorld V) :=
  match c with
  | .materialize a => (materializeF b al (a + 1) s a).map fun s => (.unit, s)
  | .tolist a => (tolist b s a).map fun p => (.list p.1, p.2)
  | c => (Hist.exec1 b s.w c).map fun p => (p.1, { s with w := p.2 })

/-- One API call. -/
def step (b : Backend V) (al : Allocator V) (s : PWorld V) (c : Call V) : Except Err (Out V × PWorld V) :=
  if ∀ a ∈ c.arrays, a < s.w.g.length then exec1 b al s c else .error .badRef

/-- The end of array `i`: `DevBuff.__del__` (buffer.py:19-21) calls backend.py:91-92 `free` with its pointer.  On CUDA the block at that address is freed, whoever allocated it
(backend_cuda.py:88-89; an error is ignored, as in every `__del__`); a CPU backend has no `free` (the exception is ignored as well). -/
def collect (b : Backend V) (s : PWorld V) (i : Nat) : PWorld V :=
  { w := { s.w with
      cpu := fun j => if j = i then none else s.w.cpu j
      grad := fun j => if j = i then none else s.w.grad j
      ev := if (s.ptr i).isSome then s.w.ev ++ [.free i] else s.w.ev }
    ptr := fun j => if j = i then none else s.ptr j
    heap := if b.isGpu then s.heap.filter fun x => decide (s.ptr i ≠ some x.1) else s.heap }

/-- `backend.reset(name); materialize.reset()` (backend.py:94-96, materialize.py:120-122): the old backend is dropped, and with it its CUDA context and all memory allocated there
(backend_cuda.py:43-46); the pointers in the arrays stay. -/
def switch (s : PWorld V) : PWorld V :=
  { s with w := { s.w with cache := [], hits := fun _ => 0, hist := [], log := [], epoch := s.w.tick }, heap := [] }

end Ptr
end Whale
