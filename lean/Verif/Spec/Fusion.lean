import Verif.Spec.Backend
import Verif.Spec.Grid
/-
Conversion and materialization with an arbitrary fusion decision, to compare with what the code does.
-/
namespace Whale
open Algo Mat
variable {V : Type}

/-- Like `Algo.convert`, except that instead of the reference counts computed by `count_refs` the fusion pass is given arbitrary numbers `rc`:
a function without reduction is merged into its consumers where `rc` is 1 and kept as a kernel of its own where `rc` is larger.  Constants are always
read in place. -/
def convertBy (rc : RC) (g : Graph V) (arr : Nat) : Except Err (List Nat × Tbl) := do
  let fuel := arr + 2
  let tbl ← arrToFunc g fuel arr Tbl.empty
  match tbl arr with
  | none => throw .attrError
  | some f =>
    let (e, tbl) ← tryFuse rc fuel f.expr tbl
    let root : Func := { outLoops := f.outLoops, outShape := f.outShape, outDtype := f.outDtype, expr := e, outBuffer := base g arr }
    let tbl := tbl.set arr root
    let (_, funcs) ← topo tbl fuel arr ([], [])
    pure (funcs, tbl)

/-- The launch log entries of `convertBy`. -/
def launchLogBy (rc : RC) (isGpu : Bool) (g : Graph V) (a : Nat) : List (Key × Except Err (Kernel × Nat)) :=
  match convertBy rc g a with
  | .error _ => []
  | .ok (funcs, t) =>
    match schedAll isGpu t funcs with
    | .error _ => []
    | .ok scheds => (funcs.zip scheds).filterMap (plan1 g t (a + 2))

/-- Materializing the computed (neither constant nor view) array `a` with the fusion decision `rc`. -/
def materializeBy (rc : RC) (b : Backend V) (w : World V) (a : Nat) : Except Err (World V) := do
  let (funcs, t) ← convertBy rc w.g a
  let scheds ← schedAll b.isGpu t funcs
  (funcs.zip scheds).foldlM (runFunc b t (a + 2)) { w with log := w.log ++ (funcs.zip scheds).filterMap (plan1 w.g t (a + 2)) }

/-- Like `FitsGrid`, for the fusion decision `rc`. -/
def FitsGridBy (rc : RC) (g : Graph V) (a : Nat) : Prop := ∀ funcs t, convertBy rc g a = .ok (funcs, t) → ∀ f ∈ funcs, g.ctx f ≠ .const → GridOK (launchGrid (g.shape f))

/-- Number of operations (arithmetic, selection, reduction) in an expression. -/
def DExpr.ops : DExpr → Nat
  | .const _ => 0
  | .un _ e => e.ops + 1
  | .bin _ l r => l.ops + r.ops + 1
  | .tern _ _ t f => t.ops + f.ops + 1
  | .red _ e _ => e.ops + 1
  | .func _ _ => 0
  | .buf _ _ => 0

/-- Operations of one array: the array's own operation, if it computes anything. -/
def opsOf (g : Graph V) (i : Nat) : Nat := match g.ctx i with
  | .unary .. | .binary .. | .sum .. | .pad .. | .dilate .. => 1
  | _ => 0

end Whale
