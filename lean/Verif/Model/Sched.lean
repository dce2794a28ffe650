import Verif.Model.Algo
import Verif.Model.Names
/-
Model of `/repo/sched.py`.

`LoopVar` objects are compared by identity in Python (`l.lv == lv`, sched.py:131-132; LoopVar has no `__eq__`); the loop
variables of one SchedulerFunc have pairwise distinct names (theorem C35), so the model identifies them by name.
-/
namespace Whale

/-- sched.py:6-8 -/
inductive LoopKind
  | spatial
  | reduce
deriving DecidableEq, Repr, Inhabited

/-- sched.py:12-15 -/
structure LoopVar where
  name : VName
  extent : Int
deriving DecidableEq, Repr, Inhabited

/-- x, y, z of a GPU grid or block (sched.py:44,49). -/
inductive Dim3
  | x | y | z
deriving DecidableEq, Repr, Inhabited

/-- sched.py:31-51 -/
inductive LoopExec
  | sequential
  | parallel
  | vectorize
  | unroll (factor : Int)
  | gpuBlock (d : Dim3)
  | gpuThread (d : Dim3)
deriving DecidableEq, Repr, Inhabited

/-- sched.py:20-27 -/
structure SplitLoop where
  orig : LoopVar
  o : LoopVar
  i : LoopVar
  factor : Int
  tailGuard : Bool
deriving DecidableEq, Repr, Inhabited

/-- sched.py:53-57 -/
structure LoopSched where
  lv : LoopVar
  kind : LoopKind
  exec : LoopExec
deriving DecidableEq, Repr, Inhabited

/-- sched.py:61-64 `Schedule`; also the state of a `SchedulerFunc`. -/
structure Schedule where
  loops : List LoopSched
  splits : List SplitLoop
deriving DecidableEq, Repr, Inhabited

/-- The name of a loop index (algo.py:142-145, 154, 238). -/
def LoopIndex.name (l : LoopIndex) : VName := .loop l.red l.pos

namespace Sched

/-- sched.py:67-71 `SchedulerFunc.__init__` -/
def init (f : Func) : Schedule :=
  { loops := f.outLoops.map (fun l => ⟨⟨l.name, l.extent⟩, .spatial, .sequential⟩) ++
      (Algo.reducedVars f.expr).map (fun l => ⟨⟨l.name, l.extent⟩, .reduce, .sequential⟩)
    splits := [] }

/-- sched.py:129-132 `_index` -/
def index (s : Schedule) (lv : LoopVar) : Except Err Nat :=
  match s.loops.findIdx? (fun l => l.lv.name == lv.name) with
  | some i => pure i
  | none => throw .loopNotFound

/-- sched.py:74 `math.ceil(lv.extent / factor)`; Python computes it in floating point (exact below 2^53), the model exactly. -/
def ceilDiv (e f : Int) : Int := -((-e) / f)

/-- sched.py:73-82 `split` -/
def split (s : Schedule) (lv : LoopVar) (factor : Int) : Except Err ((LoopVar × LoopVar) × Schedule) := do
  if factor = 0 then throw .zeroDivision
  let outer : LoopVar := ⟨.splitO lv.name, ceilDiv lv.extent factor⟩
  let inner : LoopVar := ⟨.splitI lv.name, factor⟩
  let tail : Bool := decide (lv.extent % factor ≠ 0)
  let i ← index s lv
  let kind := (s.loops.getD i default).kind
  pure ((outer, inner),
    { loops := s.loops.take i ++ [⟨outer, kind, .sequential⟩, ⟨inner, kind, .sequential⟩] ++ s.loops.drop (i + 1)
      splits := s.splits ++ [⟨lv, outer, inner, factor, tail⟩] })

/-- sched.py:84-88 `reorder`: only the `lv` fields are exchanged, `kind` and `exec` stay with the position. -/
def reorder (s : Schedule) (lvs : List LoopVar) : Except Err Schedule := do
  let idx ← lvs.mapM (index s)
  let sorted := idx.pySort (fun a b => decide (b ≤ a))
  pure { s with loops := (sorted.zip lvs).foldl (fun ls p => ls.set p.1 { ls.getD p.1 default with lv := p.2 }) s.loops }

/-- sched.py:90-100, 108-122: `self._find(lv).exec = e` -/
def setExec (s : Schedule) (lv : LoopVar) (e : LoopExec) : Except Err Schedule := do
  let i ← index s lv
  pure { s with loops := s.loops.set i { s.loops.getD i default with exec := e } }

/-- sched.py:126-127 `spatial_loops` -/
def spatials (s : Schedule) : List LoopVar := (s.loops.filter (fun l => l.kind == .spatial)).map (·.lv)

/-- sched.py:139-146 `AutoScheduler.schedule_cpu` -/
def cpu (s : Schedule) : Except Err Schedule := do
  let sp := spatials s
  let s ← match sp.head? with
    | some lv => setExec s lv .parallel
    | none => pure s
  if 1 < sp.length then
    match sp.getLast? with
    | some lv => setExec s lv .vectorize
    | none => pure s
  else pure s

/-- sched.py:153 -/
def blockSize : Int := 256

/-- sched.py:149-171 `AutoScheduler.schedule_gpu` -/
def gpu (s : Schedule) : Except Err Schedule := do
  match spatials s with
  | [] => pure s
  | [a] =>
    let ((o, i), s) ← split s a blockSize
    let s ← setExec s o (.gpuBlock .x)
    setExec s i (.gpuThread .x)
  | [a, b] =>
    let ((o, i), s) ← split s b blockSize
    let s ← setExec s a (.gpuBlock .x)
    let s ← setExec s o (.gpuBlock .y)
    setExec s i (.gpuThread .x)
  | [a, b, c] =>
    let ((o, i), s) ← split s c blockSize
    let s ← setExec s a (.gpuBlock .x)
    let s ← setExec s b (.gpuBlock .y)
    let s ← setExec s o (.gpuBlock .z)
    setExec s i (.gpuThread .x)
  | sp =>
    let ((o, i), s) ← split s (sp.getLastD default) blockSize
    let s ← setExec s o (.gpuBlock .x)
    setExec s i (.gpuThread .x)

/-- sched.py:173-183 `schedule`, for one function -/
def schedule (isGpu : Bool) (f : Func) : Except Err Schedule := if isGpu then gpu (init f) else cpu (init f)

end Sched
end Whale
