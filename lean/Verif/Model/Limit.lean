import Verif.Model.Materialize
import Verif.Model.Backward
/-
Model of Python's recursion limit: the same functions as in `Model/Algo`, `Model/Materialize` and `Model/Backward`, but every recursive function may call itself only `L` levels deep, whatever
the size of the graph.  (`convert`, `materialize` and `backward` in those files choose a bound that is large enough for their argument.)

Simplification: the limit counts the levels of each recursive function separately.  Python counts the frames of all active functions together, and one level of recursion may use several
frames (list comprehensions, the recursion over the operands of one expression), so a limit of `L` levels stands for a recursion limit between `L` and a constant multiple of `L`.
-/
namespace Whale
variable {V : Type}

/-- algo.py:141-364 `convert` with at most `L` levels of recursion in `arr_to_func`, `count_refs`, `try_fuse` and `dfs` each. -/
def Algo.convertLim (g : Graph V) (L arr : Nat) : Except Err (List Nat × Tbl) := do
  let tbl ← arrToFunc g L arr Tbl.empty
  match tbl arr with
  | none => throw .attrError
  | some f =>
    let rc ← countRefs tbl L f.expr (fun _ => 0)
    let (e, tbl) ← tryFuse rc L f.expr tbl
    let root : Func := { outLoops := f.outLoops, outShape := f.outShape, outDtype := f.outDtype, expr := e, outBuffer := base g arr }
    let tbl := tbl.set arr root
    let (_, funcs) ← topo tbl L arr ([], [])
    pure (funcs, tbl)

namespace Mat

/-- materialize.py:15-68 `materialize` with at most `L` levels of recursion; the second argument counts those of `materialize` itself that are left. -/
def materializeLimF (b : Backend V) (L : Nat) : Nat → World V → Nat → Except Err (World V)
  | 0, _, _ => throw .recursion
  | fuel + 1, w, a =>
    if (w.g.ctx a).op.isConst then pure w
    else if (w.g.ctx a).op.isView then
      match (w.g.ctx a).inputs with
      | x :: _ => materializeLimF b L fuel w x
      | [] => throw .indexError
    else do
      let (funcs, t) ← Algo.convertLim w.g L a
      let scheds ← schedAll b.isGpu t funcs
      (funcs.zip scheds).foldlM (runFunc b t L) { w with log := w.log ++ (funcs.zip scheds).filterMap (plan1 w.g t L) }

/-- materialize.py:117-118 -/
def materializeLim (b : Backend V) (L : Nat) (w : World V) (a : Nat) : Except Err (World V) := materializeLimF b L L w a

end Mat

/-- ndarray.py:334-351 `backward` with at most `L` levels of recursion. -/
def Bwd.backwardLim (A : Scalar V) (L : Nat) (w : World V) (y : Nat) : Except Err (World V) := do
  let w := seed A w y
  let (_, funcs) ← dfs w.g L y ([], [])
  funcs.reverse.foldlM (visit A) w

end Whale
