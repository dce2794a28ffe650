import Verif.Model.Source
import Verif.Spec.Numbers
/-
The memory of a session as it really is with the Clang and CUDA backends: the lists on the host hold Python numbers, the arrays that compiled functions get, and the memory of a GPU, hold C
numbers, and `ctypes` converts them on the way.  As in `Model/Source`, kernels are source texts that are compiled and called; in addition every copy converts (backend_clang.py:41-47,
backend_cuda.py:91-97).
-/
namespace Whale
open Mat Hist
variable {H V : Type}

/-- What `ctypes` does to one number.  `put`: a Python number stored into an array of C numbers of a dtype (dtype.py:9-19); `get`: a C number read as a Python number.
`A`: the numbers of the host; only the constants the library itself makes are used. -/
structure Marshal (H V : Type) where
  A : Scalar H
  put : DType → H → Except SErr V
  get : V → H

/-- The state of a session: arrays, CPU buffers and gradients as in `World` (whose device memory and kernel cache are not used), the C numbers in the memory of the device, the cache of
compiled sources. -/
structure CWorld (H V : Type) where
  w : World H
  dev : Nat → Option (List V)
  texts : List (Key × Str)

namespace Cty

/-- A fresh interpreter. -/
def init : CWorld H V := ⟨Mat.init, fun _ => none, []⟩

/-- What calls that neither compute nor copy run on. -/
def host (R : Runtime V) (C : Marshal H V) : Backend H := { A := C.A, isC := R.b.isC, isGpu := R.b.isGpu, run := fun _ _ _ _ => none, junk := fun _ => C.A.host 0 }

/-- backend_clang.py:45, backend_cuda.py:92: `(ctype * length)(*src)`: a C array with the numbers of a list. -/
def putAll (C : Marshal H V) (dt : DType) (l : List H) : Except SErr (List V) := l.mapM (C.put dt)

/-- backend.py:47-49: device memory is allocated once, and not for 0 elements. -/
def alloc (R : Runtime V) (s : CWorld H V) (i : Nat) : Except SErr (CWorld H V) :=
  match s.dev i with
  | some _ => .ok s
  | none => if bufLen s.w i ≤ 0 then .error (.err .device) else .ok { s with dev := upd s.dev i ((List.range (bufLen s.w i).toNat).map R.b.junk) }

/-- backend.py:52: the CPU content of an input parameter is converted and copied to the device; `k` is the parameter position. -/
def htod (C : Marshal H V) (s : CWorld H V) (i k : Nat) : Except SErr (CWorld H V) :=
  match cpuBuf s.w i with
  | some l => if k ≠ 0 then (putAll C (s.w.g.dtype i) l).map fun l => { s with dev := upd s.dev i l } else .ok s
  | none => .ok s

/-- backend.py:46-52: one iteration of the parameter loop. -/
def toDev (R : Runtime V) (C : Marshal H V) (s : CWorld H V) (p : Nat × Nat) : Except SErr (CWorld H V) := do
  let s ← alloc R s p.1
  htod C s p.1 p.2

/-- `compile`, then backend.py:33-64 `invoke_kernel`.  On the CPU (backend_clang.py:45-47) all parameters, the output too, are converted; the output is converted back and stored.
On a GPU the kernel works on device memory. -/
def invoke (R : Runtime V) (C : Marshal H V) (s : CWorld H V) (sch : Schedule) (text : Str) (out : Nat) (ins : List Nat) : Except SErr (CWorld H V) :=
  match Syntax.parse R.L text with
  | none => .error .syntaxError
  | some p =>
    if R.b.isGpu then do
      let s ← (out :: ins).zipIdx.foldlM (toDev R C) s
      if Kern.launchOK sch = false then throw (.err .assertion)
      match s.dev out, ins.mapM s.dev with
      | some o, some is =>
        let l ← Src.exec R p s.w.tick sch o is
        pure { s with dev := upd s.dev out l, w := { s.w with tick := s.w.tick + 1 } }
      | _, _ => throw (.err .attrError)
    else
      let w := (out :: ins).foldl (fillCpu C.A) s.w
      match cpuBuf w out, ins.mapM fun i => (cpuBuf w i).map fun l => (i, l) with
      | some o, some is => do
        let o ← putAll C (w.g.dtype out) o
        let is ← is.mapM fun q => putAll C (w.g.dtype q.1) q.2
        let l ← Src.exec R p w.tick sch o is
        pure { s with w := { w with cpu := upd w.cpu out (l.map C.get), tick := w.tick + 1 } }
      | _, _ => throw (.err .attrError)

/-- materialize.py:44-68: one iteration of the loop over the functions. -/
def runFunc (R : Runtime V) (C : Marshal H V) (t : Tbl) (fuel : Nat) (s : CWorld H V) (p : Nat × Schedule) : Except SErr (CWorld H V) :=
  match t p.1 with
  | none => .error (.err .attrError)
  | some F => do
    let bufs := (Algo.args F.expr).1
    let fncs := (Algo.args F.expr).2
    let outs ← Src.lift (outBufs t fncs)
    let key ← Src.lift (cacheKey s.w.g t fuel F p.2)
    match s.texts.lookup key with
    | some text => invoke R C s p.2 text F.outBuffer (bufs ++ outs)
    | none => do
      let (text, n) ← Src.lift (Text.codegen R.L (Text.kernName (R.digest key)) s.w.g t F p.2 ⟨bufs, fncs⟩ s.w.tmp)
      invoke R C { s with w := { s.w with tmp := n }, texts := s.texts ++ [(key, text)] } p.2 text F.outBuffer (bufs ++ outs)

/-- materialize.py:15-68 `materialize`; fuel bounds the recursion over views, `log` is the history variable. -/
def materializeF (R : Runtime V) (C : Marshal H V) : Nat → CWorld H V → Nat → Except SErr (CWorld H V)
  | 0, _, _ => .error (.err .recursion)
  | fuel + 1, s, a =>
    if (s.w.g.ctx a).op.isConst then .ok s
    else if (s.w.g.ctx a).op.isView then
      match (s.w.g.ctx a).inputs with
      | x :: _ => materializeF R C fuel s x
      | [] => .error (.err .indexError)
    else do
      let (funcs, t) ← Src.lift (Algo.convert s.w.g a)
      let scheds ← Src.lift (schedAll R.b.isGpu t funcs)
      (funcs.zip scheds).foldlM (runFunc R C t (a + 2)) { s with w := { s.w with log := s.w.log ++ (funcs.zip scheds).filterMap (plan1 s.w.g t (a + 2)) } }

/-- materialize.py:117-118 -/
def materialize (R : Runtime V) (C : Marshal H V) (s : CWorld H V) (a : Nat) : Except SErr (CWorld H V) := materializeF R C (a + 1) s a

/-- ndarray.py:358-364 the first part of `tolist`; backend_cuda.py:94-97 `memcpy_dtoh` converts the C numbers. -/
def ensureCpu (R : Runtime V) (C : Marshal H V) (s : CWorld H V) (x : Nat) : Except SErr (CWorld H V) :=
  match cpuBuf s.w x with
  | some _ => .ok s
  | none =>
    if R.b.isGpu = true then
      match s.dev x with
      | some l => .ok { s with w := { s.w with cpu := upd s.w.cpu x (l.map C.get) } }
      | none => .error (.err .attrError)
    else .error (.err .attrError)

/-- ndarray.py:357-368 `tolist`, `_to_ndlist`. -/
def tolist (R : Runtime V) (C : Marshal H V) (s : CWorld H V) (a : Nat) : Except SErr (Nested H × CWorld H V) := do
  let s ← ensureCpu R C s (base s.w.g a)
  match cpuBuf s.w (base s.w.g a) with
  | some data => do
    let l ← Src.lift (ND.toNdlist data (s.w.g.shape a) (s.w.g.strides a) (s.w.g.offset a))
    pure (l, s)
  | none => throw (.err .attrError)

/-- Execution of one API call on existing arrays.  Calls other than `materialize`, `tolist` and `reset` (materialize.py:120) only make arrays and gradients. -/
def exec1 (R : Runtime V) (C : Marshal H V) (s : CWorld H V) (c : Call H) : Except SErr (Out H × CWorld H V) :=
  match c with
  | .materialize a => (materialize R C s a).map fun s => (.unit, s)
  | .tolist a => (tolist R C s a).map fun p => (.list p.1, p.2)
  | .reset => .ok (.unit, { s with w := { s.w with log := [], epoch := s.w.tick }, texts := [] })
  | c => (Src.lift (Hist.exec1 (host R C) s.w c)).map fun p => (p.1, { s with w := p.2 })

/-- One API call. -/
def step (R : Runtime V) (C : Marshal H V) (s : CWorld H V) (c : Call H) : Except SErr (Out H × CWorld H V) :=
  if ∀ a ∈ c.arrays, a < s.w.g.length then exec1 R C s c else .error (.err .badRef)

end Cty

namespace Sem
variable {S D : Type}

/-- An integer in `n` bits, two's complement: what `ctypes.c_int64` and `ctypes.c_int32` make of it. -/
def wrap (bits : Nat) (i : Int) : Int := (i + 2 ^ (bits - 1)) % 2 ^ bits - 2 ^ (bits - 1)

/-- dtype.py:9-19 with CPython's `ctypes`: `c_int32` and `c_int64` keep the low bits of an integer and refuse floating point numbers (TypeError); `c_float` and `c_double` convert integers
(which fails if they are too large: OverflowError, in the model a number operation without a result). -/
def ctypesPut (O : CFloats S D) : DType → Py D → Except SErr (CVal S D)
  | .int32, .int i => .ok (.i32 (wrap 32 i))
  | .int64, .int i => .ok (.i64 (wrap 64 i))
  | .int32, .flt _ | .int64, .flt _ => .error (.err .typeError)
  | .float32, .int i => match O.double.ofInt i with
    | some x => .ok (.f32 (O.narrow x))
    | none => .error (.fault .arith)
  | .float32, .flt x => .ok (.f32 (O.narrow x))
  | .float64, .int i => match O.double.ofInt i with
    | some x => .ok (.f64 x)
    | none => .error (.fault .arith)
  | .float64, .flt x => .ok (.f64 x)

/-- Elements of `ctypes` arrays read as Python numbers. -/
def ctypesGet (O : CFloats S D) : CVal S D → Py D
  | .i32 i | .i64 i => .int i
  | .f32 x => .flt (O.widen x)
  | .f64 x => .flt x

/-- The numbers of Python on the host, the numbers of C in compiled functions. -/
def ctypes (O : CFloats S D) (A : Scalar (Py D)) : Marshal (Py D) (CVal S D) := ⟨A, ctypesPut O, ctypesGet O⟩

end Sem
end Whale
