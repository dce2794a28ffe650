import Verif.Model.History
import Verif.Model.Writer
/-
Several Python threads using the library at the same time, on a CPU backend.  Each thread's `materialize` proceeds in steps; between any two steps any other thread may make calls or take steps of its own.
-/
namespace Whale
open Mat Hist
variable {V : Type}

/-- A `materialize` call that a thread is in the middle of (materialize.py:15-68, its local variables): the array it was called on, the array whose functions it runs (behind views), the arrays that existed when
it began, the table of functions, the functions still to be run with their schedules, the kernel for the first of them if it has been found in the cache or generated already (and which of the two: `true` if it is new), and the kernel that is running: its output and the stores that it has still to do. -/
structure Job (V : Type) where
  arr : Nat
  a : Nat
  g : Graph V
  t : Tbl
  todo : List (Nat × Schedule)
  cur : Option (Nat × List (Int × V))
  found : Option (Kernel × Bool) := none

/-- The state that the threads share, and what each thread is doing. -/
structure TWorld (V : Type) where
  w : World V
  job : Nat → Option (Job V)

/-- The call has nothing left to do. -/
def Job.finished (j : Job V) : Bool := j.cur.isNone && j.todo.isEmpty

namespace Thr

/-- materialize.py:15-35: the part of `materialize` before the loop over the functions, as in `Mat.materializeF`: constants need nothing, the call recurses through views, an array is converted and scheduled.  `arr` is the array of the
outermost call.  (`convert` and `schedule` work on objects that no other thread has, and on nodes, which never change; so the model does them in one step.) -/
def begin_ (b : Backend V) (arr : Nat) : Nat → World V → Nat → Except Err (Job V × World V)
  | 0, _, _ => throw .recursion
  | fuel + 1, w, a =>
    if (w.g.ctx a).op.isConst then pure ({ arr := arr, a := a, g := w.g, t := fun _ => none, todo := [], cur := none }, w)
    else if (w.g.ctx a).op.isView then
      match (w.g.ctx a).inputs with
      | x :: _ => begin_ b arr fuel w x
      | [] => throw .indexError
    else do
      let (funcs, t) ← Algo.convert w.g a
      let scheds ← schedAll b.isGpu t funcs
      pure ({ arr := arr, a := a, g := w.g, t := t, todo := funcs.zip scheds, cur := none }, { w with log := w.log ++ (funcs.zip scheds).filterMap (plan1 w.g t (a + 2)) })

/-- backend.py:33-38: `Mat.invoke` on a CPU backend as far as the start of the kernel; the result says which stores the kernel will do, one by one. -/
def launch (b : Backend V) (w : World V) (sch : Schedule) (K : Kernel) (out : Nat) (ins : List Nat) : Except Err (List (Int × V) × World V) := do
  if out ∈ ins then throw .badRef
  if K.params.length ≠ (out :: ins).length then throw .typeError
  if b.isGpu then throw .device
  let w := (out :: ins).foldl (fillCpu b.A) w
  match cpuBuf w out, ins.mapM (cpuBuf w) with
  | some o, some is =>
    match b.run w.tick (machine b K o is) sch K.body with
    | some ws => pure (ws, { w with tick := w.tick + 1 })
    | none => throw .assertion
  | _, _ => throw .attrError

/-- materialize.py:44-66: the first part of an iteration of the loop, as in `Mat.runFunc`: the cache lookup and, if there is no kernel, its generation.  One step of the model, which in the code other threads may interrupt (see `Gen` below for what may
happen then). -/
def find (b : Backend V) (j : Job V) (w : World V) (p : Nat × Schedule) : Except Err ((Kernel × Bool) × World V) := do
  match j.t p.1 with
  | none => throw .attrError
  | some F =>
    let key ← cacheKey j.g j.t (j.a + 2) F p.2
    match w.cache.lookup key with
    | some K => pure ((K, false), { w with hits := fun k => if k = key then w.hits k + 1 else w.hits k })
    | none =>
      let (K, n) ← Codegen.codegen j.g j.t F p.2 ⟨(Algo.args F.expr).1, (Algo.args F.expr).2⟩ w.tmp
      pure ((K, true), { w with tmp := n, cache := w.cache ++ [(key, K)], hits := fun k => if k = key then 0 else w.hits k })

/-- materialize.py:52-55, 62-68: the second part of the iteration, as far as the start of the kernel.  One step of the model: the filling of the parameters' buffers, which in the code other threads may interrupt (see `Fill` below for what may happen
then).  A new kernel is added to `kern_invoke_hist` here, not when it has finished. -/
def start (b : Backend V) (j : Job V) (w : World V) (p : Nat × Schedule) (q : Kernel × Bool) : Except Err ((Nat × List (Int × V)) × World V) := do
  match j.t p.1 with
  | none => throw .attrError
  | some F =>
    let outs ← outBufs j.t (Algo.args F.expr).2
    let (ws, w) ← launch b w p.2 q.1 F.outBuffer ((Algo.args F.expr).1 ++ outs)
    pure ((F.outBuffer, ws), if q.2 then { w with hist := w.hist ++ [q.1] } else w)

/-- One step of a `materialize` call: the running kernel does its next store (codegen.py:70, an assignment to an element of the list that the shared buffer holds; backend_clang.py:47 does them all at the end), or has finished, or the next kernel is
found, or started. -/
def advance (b : Backend V) (j : Job V) (w : World V) : Except Err (Job V × World V) :=
  match j.cur with
  | some (out, (k, v) :: ws) =>
    match w.cpu out with
    | some l => .ok ({ j with cur := some (out, ws) }, { w with cpu := upd w.cpu out (l.set k.toNat v) })
    | none => .error .attrError
  | some (_, []) => .ok ({ j with cur := none }, w)
  | none =>
    match j.todo with
    | p :: todo =>
      match j.found with
      | none => (find b j w p).map fun r => ({ j with found := some r.1 }, r.2)
      | some q => (start b j w p q).map fun r => ({ j with todo := todo, cur := some r.1, found := none }, r.2)
    | [] => .ok (j, w)

/-- materialize.py:44-68: one iteration of the loop as a single step, on any backend, as `Mat.runFunc` (whose graph is the one at the time of the call, `j.g`). -/
def runWhole (b : Backend V) (j : Job V) (w : World V) (p : Nat × Schedule) : Except Err (World V) := do
  match j.t p.1 with
  | none => throw .attrError
  | some F =>
    let bufs := (Algo.args F.expr).1
    let fncs := (Algo.args F.expr).2
    let outs ← outBufs j.t fncs
    let key ← cacheKey j.g j.t (j.a + 2) F p.2
    match w.cache.lookup key with
    | some K => invoke b { w with hits := fun k => if k = key then w.hits k + 1 else w.hits k } p.2 K F.outBuffer (bufs ++ outs)
    | none =>
      let (K, n) ← Codegen.codegen j.g j.t F p.2 ⟨bufs, fncs⟩ w.tmp
      let w := { w with tmp := n, cache := w.cache ++ [(key, K)], hits := fun k => if k = key then 0 else w.hits k }
      let w ← invoke b w p.2 K F.outBuffer (bufs ++ outs)
      pure { w with hist := w.hist ++ [K] }

/-- A coarser step of a `materialize` call, on any backend: the next function is run completely. -/
def advanceWhole (b : Backend V) (j : Job V) (w : World V) : Except Err (Job V × World V) :=
  match j.todo with
  | p :: todo => (runWhole b j w p).map fun w => ({ j with todo := todo }, w)
  | [] => .ok (j, w)

/-- A thread's calls one after another: `n` steps of one `materialize` call without anyone else doing anything. -/
def alone (b : Backend V) : Nat → Job V → World V → Except Err (Job V × World V)
  | 0, j, w => .ok (j, w)
  | n + 1, j, w => (advance b j w).bind fun p => alone b n p.1 p.2

end Thr

/-- Whether the call is `materialize`. -/
def Call.isMat : Call V → Bool
  | .materialize _ => true
  | _ => false

/-- Whether the call is `materialize.reset()`. -/
def Call.isReset : Call V → Bool
  | .reset => true
  | _ => false

namespace Gen
variable {α β : Type}

/-- The next action of a program on the code generator object. -/
def act : Gen α → Text.W → Gen α × Text.W
  | .ret a, w => (.ret a, w)
  | .fail e, w => (.fail e, w)
  | .clear k, w => (k, { w with buf := [] })
  | .writeln s k, w => (k, w.writeln s)
  | .nest k, w => (k, w.nest)
  | .unnest k, w => (k, w.unnest)
  | .tmpvar k, w => (k w.tmpvar.1, w.tmpvar.2)
  | .render k, w => (k (LangSpec.join ['\n'] w.buf), w)

/-- Two threads that generate a kernel each on the one generator of the backend (backend.py:16-24 creates it with the backend, codegen.py:22-79 keeps everything in its fields); the list says whose action comes next (`true`: the first thread's). -/
def race : List Bool → Gen α → Gen β → Text.W → Gen α × Gen β × Text.W
  | [], k, l, w => (k, l, w)
  | true :: s, k, l, w => race s (k.act w).1 l (k.act w).2
  | false :: s, k, l, w => race s k (l.act w).1 (l.act w).2

end Gen

namespace Fill

/-- The buffer of an array that two threads compute: which list object it holds (`p.cpu`), and all list objects. -/
structure Obj (V : Type) where
  cpu : Option Nat
  lists : List (List V)
deriving DecidableEq

/-- Where a thread is: before the test of backend.py:35; before the assignment of backend.py:36 (`none` has been read); before `p.cpu.val` is fetched (backend_python.py:56, backend_clang.py:47); in the kernel, which has still to do some stores to the
list it was given; after it. -/
inductive Pc (V : Type)
  | test
  | assign
  | fetch
  | store (list : Nat) (ws : List (Int × V))
  | done
deriving DecidableEq

/-- The next action of a thread; `zeros` is the list made by backend.py:36, `ws` the stores of its kernel. -/
def act (zeros : List V) (ws : List (Int × V)) : Pc V → Obj V → Pc V × Obj V
  | .test, o => (if o.cpu.isNone then .assign else .fetch, o)
  | .assign, o => (.fetch, { cpu := some o.lists.length, lists := o.lists ++ [zeros] })
  | .fetch, o => (match o.cpu with | some r => .store r ws | none => .done, o)
  | .store r ((k, v) :: ws), o => (.store r ws, { o with lists := o.lists.modify r fun l => l.set k.toNat v })
  | .store _ [], o => (.done, o)
  | .done, o => (.done, o)

/-- Two threads; the list says whose action comes next. -/
def race (zeros : List V) (ws1 ws2 : List (Int × V)) : List Bool → Pc V → Pc V → Obj V → Pc V × Pc V × Obj V
  | [], p, q, o => (p, q, o)
  | true :: s, p, q, o => race zeros ws1 ws2 s (act zeros ws1 p o).1 q (act zeros ws1 p o).2
  | false :: s, p, q, o => race zeros ws1 ws2 s p (act zeros ws2 q o).1 (act zeros ws2 q o).2

/-- The content of the buffer. -/
def content (o : Obj V) : Option (List V) := o.cpu.bind fun r => o.lists[r]?

end Fill
end Whale
