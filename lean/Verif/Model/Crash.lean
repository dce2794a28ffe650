import Verif.Model.History
/-
Model of `materialize` being interrupted: the call raises somewhere in the middle (a kernel that divides by zero, Ctrl-C, a failing compiler, a full
disk, a CUDA error), the program catches the exception and goes on with the state as it was left.
-/
namespace Whale
namespace Mat
variable {V : Type}

/-- backend.py:33-38, 44-64, backend_python.py:55-56, backend_clang.py:41-47: the worlds in which `invoke_kernel` may be left.  A CPU backend has filled in the
missing CPU buffers of the first `k` parameters (`filling`), or some of the kernel's stores `ws` to `out` have happened (`running`; in C all or none, because
backend_clang.py:47 copies the result back at the end).  A GPU backend has allocated and copied the first `k` parameters (`copying`), and
possibly allocated the next one (`allocating`), or some stores have happened (`launched`).  (The numbers of the model are total, so a run that raises because an operation is undefined is a prefix of the run in which that operation has some result.) -/
inductive InvokePart (b : Backend V) (w : World V) (sch : Schedule) (K : Kernel) (out : Nat) (ins : List Nat) : World V → Prop
  | filling (k : Nat) : b.isGpu = false → InvokePart b w sch K out ins (((out :: ins).take k).foldl (fillCpu b.A) w)
  | running {w1 : World V} {o : List V} {is : List (List V)} {ws ws' : List (Int × V)} : b.isGpu = false → w1 = (out :: ins).foldl (fillCpu b.A) w → cpuBuf w1 out = some o →
      ins.mapM (cpuBuf w1) = some is → b.run w1.tick (machine b K o is) sch K.body = some ws → ws' <+: ws →
      InvokePart b w sch K out ins { w1 with cpu := upd w1.cpu out (Kern.applyWrites o ws'), tick := w1.tick + 1 }
  | copying {w1 : World V} (k : Nat) : b.isGpu = true → ((out :: ins).zipIdx.take k).foldlM (toDev b) w = .ok w1 → InvokePart b w sch K out ins w1
  | allocating {w1 w2 : World V} {q : Nat × Nat} (k : Nat) : b.isGpu = true → ((out :: ins).zipIdx.take k).foldlM (toDev b) w = .ok w1 → (out :: ins).zipIdx[k]? = some q → alloc b w1 q.1 = .ok w2 →
      InvokePart b w sch K out ins w2
  | launched {w1 : World V} {o : List V} {is : List (List V)} {ws ws' : List (Int × V)} : b.isGpu = true → (out :: ins).zipIdx.foldlM (toDev b) w = .ok w1 → w1.dev out = some o →
      ins.mapM w1.dev = some is → gpuRun b w1.tick (machine b K o is) sch K.body = some ws → ws' <+: ws →
      InvokePart b w sch K out ins { w1 with dev := upd w1.dev out (Kern.applyWrites o ws'), tick := w1.tick + 1, ev := w1.ev ++ [.launch out ins] }

/-- materialize.py:44-68: the worlds in which one iteration of the loop over the functions may be left, and the array (if any) whose kernel was
started.  `before`: while the parameters, the cache key or the code are made or compiled (codegen.py:24 the counter of temporaries may have advanced; that the indentation level may have too, codegen.py:23, is left out here, see `Model/Unfinished`: on the Python backend later kernels then do not compile); `hit`: the kernel was cached
(materialize.py:50-54); `miss`: it has been compiled and saved (materialize.py:64-65). -/
inductive RunPart (b : Backend V) (t : Tbl) (fuel : Nat) (w : World V) (p : Nat × Schedule) : Option Nat → World V → Prop
  | before (n : Nat) : RunPart b t fuel w p none { w with tmp := n }
  | hit {F : Func} {outs : List Nat} {key : Key} {K : Kernel} {w' : World V} : t p.1 = some F → outBufs t (Algo.args F.expr).2 = .ok outs → cacheKey w.g t fuel F p.2 = .ok key →
      w.cache.lookup key = some K →
      InvokePart b { w with hits := fun k => if k = key then w.hits k + 1 else w.hits k } p.2 K F.outBuffer ((Algo.args F.expr).1 ++ outs) w' →
      RunPart b t fuel w p (some F.outBuffer) w'
  | miss {F : Func} {outs : List Nat} {key : Key} {K : Kernel} {n : Nat} {w' : World V} : t p.1 = some F → outBufs t (Algo.args F.expr).2 = .ok outs → cacheKey w.g t fuel F p.2 = .ok key →
      w.cache.lookup key = none → Codegen.codegen w.g t F p.2 ⟨(Algo.args F.expr).1, (Algo.args F.expr).2⟩ w.tmp = .ok (K, n) →
      InvokePart b { w with tmp := n, cache := w.cache ++ [(key, K)], hits := fun k => if k = key then 0 else w.hits k } p.2 K F.outBuffer ((Algo.args F.expr).1 ++ outs) w' →
      RunPart b t fuel w p (some F.outBuffer) w'

/-- materialize.py:15-68: the worlds in which `a.materialize()` may be left by an exception, and the array (if any) whose kernel was running.  `early`: before
the first function is run (also: `a` is a constant).  `view`: the call recurses to the source of a view.  `kernel`: the functions `pre` have been run, `p` is
left in the middle.  The history variable `log` records the whole plan of the call. -/
inductive Interrupted (b : Backend V) (w : World V) : Nat → Option Nat → World V → Prop
  | early {a : Nat} : Interrupted b w a none w
  | view {a x : Nat} {rest : List Nat} {d : Option Nat} {w' : World V} : (w.g.ctx a).op.isConst = false → (w.g.ctx a).op.isView = true → (w.g.ctx a).inputs = x :: rest →
      Interrupted b w x d w' → Interrupted b w a d w'
  | kernel {a : Nat} {d : Option Nat} {funcs : List Nat} {t : Tbl} {scheds : List Schedule} {pre post : List (Nat × Schedule)} {p : Nat × Schedule} {w1 w' : World V} :
      (w.g.ctx a).op.isConst = false → (w.g.ctx a).op.isView = false → Algo.convert w.g a = .ok (funcs, t) → schedAll b.isGpu t funcs = .ok scheds →
      funcs.zip scheds = pre ++ p :: post →
      pre.foldlM (runFunc b t (a + 2)) { w with log := w.log ++ (funcs.zip scheds).filterMap (plan1 w.g t (a + 2)) } = .ok w1 →
      RunPart b t (a + 2) w1 p d w' → Interrupted b w a d w'

end Mat
end Whale
