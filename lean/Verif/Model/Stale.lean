import Verif.Model.History
/-
`backend.reset(name)` alone (backend.py:94-96), without `materialize.reset()`: the kernel cache (materialize.py:12) survives, and its keys (materialize.py:73-113) do not mention the
backend, so that a kernel compiled for one backend may be handed to the executor of another one (materialize.py:49-55).
-/
namespace Whale
open Mat Hist
variable {V : Type}

/-- backend.py:79-84 the executors; every CUDA object makes a context of its own (backend_cuda.py:26-36). -/
inductive Engine
  | python
  | clang
  | cuda (context : Nat)
deriving DecidableEq, Repr

/-- What happens when executor `e` is handed a kernel compiled for `k`.  `none`: it raises.  The Python executor (backend_python.py:55-56) raises for C kernels (their `argtypes` are pointers since
they were run first, backend_clang.py:43, and lists are passed) and CUDA kernels (`c_void_p` is not callable); the C executor (backend_clang.py:41-47) raises for CUDA kernels (the same), but sets
the attributes `argtypes` and `restype` of a Python function and calls it with ctypes arrays: it runs by the rules of Python (`some true`); cuLaunchKernel (backend_cuda.py:69-81) raises for
anything but a function of its own context.  (The exceptions differ – ctypes.ArgumentError, TypeError, CUDA errors; the model calls them all `typeError`.) -/
def Engine.runs : Engine → Engine → Option Bool
  | .clang, .python => some true
  | e, k => if e = k then some false else none

/-- The backend running its kernels by the rules of Python. -/
def Backend.asPython (b : Backend V) : Backend V := { b with isC := false, run := fun _ m _ body => (Kern.exec m body (fun _ => none)).map (·.writes) }

/-- A session: the current backend, the state, and for every cached kernel the executor that it was compiled for. -/
structure Sess (V : Type) where
  e : Engine
  b : Backend V
  w : World V
  by_ : List (Key × Engine)

namespace Stale

/-- materialize.py:44-68: one iteration of the loop over the functions.  A cached kernel is handed to the current executor.  (What a refused call leaves behind is in Model/Refused: the buffers
have been allocated then, backend.py:34-36,46-52.) -/
def runFunc (t : Tbl) (fuel : Nat) (s : Sess V) (p : Nat × Schedule) : Except Err (Sess V) :=
  match t p.1 with
  | none => .error .attrError
  | some F => do
    let key ← cacheKey s.w.g t fuel F p.2
    match s.by_.lookup key with
    | some k =>
      match s.e.runs k with
      | none => .error .typeError
      | some py => (Mat.runFunc (if py then s.b.asPython else s.b) t fuel s.w p).map fun w => { s with w := w }
    | none => (Mat.runFunc s.b t fuel s.w p).map fun w => { s with w := w, by_ := s.by_ ++ [(key, s.e)] }

/-- materialize.py:15-68 `materialize`; fuel bounds the recursion over views, `log` is the history variable. -/
def materializeF : Nat → Sess V → Nat → Except Err (Sess V)
  | 0, _, _ => .error .recursion
  | fuel + 1, s, a =>
    if (s.w.g.ctx a).op.isConst then .ok s
    else if (s.w.g.ctx a).op.isView then
      match (s.w.g.ctx a).inputs with
      | x :: _ => materializeF fuel s x
      | [] => .error .indexError
    else do
      let (funcs, t) ← Algo.convert s.w.g a
      let scheds ← schedAll s.b.isGpu t funcs
      (funcs.zip scheds).foldlM (runFunc t (a + 2)) { s with w := { s.w with log := s.w.log ++ (funcs.zip scheds).filterMap (plan1 s.w.g t (a + 2)) } }

/-- Execution of one API call on existing arrays: only `materialize` and `reset` (materialize.py:120-122) use the cache. -/
def exec1 (s : Sess V) (c : Call V) : Except Err (Out V × Sess V) :=
  match c with
  | .materialize a => (materializeF (a + 1) s a).map fun s => (.unit, s)
  | .reset => (Hist.exec1 s.b s.w .reset).map fun p => (p.1, { s with w := p.2, by_ := [] })
  | c => (Hist.exec1 s.b s.w c).map fun p => (p.1, { s with w := p.2 })

/-- One API call. -/
def step (s : Sess V) (c : Call V) : Except Err (Out V × Sess V) :=
  if ∀ a ∈ c.arrays, a < s.w.g.length then exec1 s c else .error .badRef

/-- The session after a call that may have raised, as `Hist.next`. -/
def next (s : Sess V) (c : Call V) : Option (Sess V) :=
  match step s c with
  | .ok (_, s') => some s'
  | .error _ => if Call.atomic c then some s else none

end Stale
end Whale
