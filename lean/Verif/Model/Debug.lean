import Verif.Model.Str
import Verif.Model.Source
/-
Model of debug mode: what `materialize` prints when the program is started with WHALE_DEBUG=1 (debug.py:6, materialize.py:16-71), following the program at the level of source text
(`Model/Source`).  Output is the list of the printed lines.

Simplifications: writing to standard output is assumed to succeed; when a call raises, what it had printed before is forgotten.
-/
namespace Whale
open Mat Hist
variable {V : Type}

namespace Dbg

/-- debug.py:14-15, 17-26: what `dbg_tree` goes through: `__str__()` of a node and its `inputs()`. -/
inductive RT
  | node (label : Str) (kids : List RT)
deriving Inhabited

mutual
/-- debug.py:18-24 `f`: the lines for a node; `depth > 0` is `inner`. -/
def RT.lines : RT → Bool → Str → Bool → List Str
  | .node label kids, inner, pre, last =>
    (pre ++ ((if inner then (if last then "└─ ".toList else "├─ ".toList) else []) ++ label)) :: kidLines kids (pre ++ (if last then "   ".toList else "│  ".toList))
/-- debug.py:23: the lines for the inputs; the last one gets another connector. -/
def kidLines : List RT → Str → List Str
  | [], _ => []
  | k :: ks, pre => k.lines true pre ks.isEmpty ++ kidLines ks pre
end

/-- debug.py:17-26 `dbg_tree` -/
def tree (t : RT) : List Str := t.lines false "        ".toList true

/-- debug.py:11-12 `dbg` -/
def dbg (msg : Str) : Str := "[debug] ".toList ++ msg

/-- ndarray.py:372-382: the tree of an array; `num` prints a number. Fuel bounds the recursion. -/
def arrTree (num : V → Str) (w : World V) : Nat → Nat → Except Err RT
  | 0, _ => throw .recursion
  | fuel + 1, a => do
    let label ← str num w a
    let kids ← (w.g.ctx a).inputs.mapM (arrTree num w fuel)
    pure (.node label kids)

/-- util.py:5 `strjoin(', ', …)` -/
def commas (l : List Str) : Str := LangSpec.join ", ".toList l

/-- algo.py:13 `LoopIndex.__str__`, sched.py:17 `LoopVar.__str__` -/
def loopText (n : VName) (extent : Int) : Str := n.chars ++ (":".toList ++ intText extent)

/-- algo.py:24, 31, 40 `__str__` of an index expression: only the outermost operation. -/
def idxText : IExpr → Str
  | .index l => "IndexExpr(".toList ++ (loopText l.name l.extent ++ ")".toList)
  | .const c => "ConstExpr(".toList ++ (intText c ++ ")".toList)
  | .bin op _ _ => "BinaryExpr(".toList ++ (opName op ++ ")".toList)

/-- algo.py:23-24, 30-31, 39-40: the tree of an index expression (the condition of a TernaryExpr). -/
def idxTree : IExpr → RT
  | .bin op l r => .node (idxText (.bin op l r)) [idxTree l, idxTree r]
  | e => .node (idxText e) []

/-- buffer.py:8-11 `CPUBuff.__repr__`; without a CPUBuff, Python's `None`. -/
def cpuText (num : V → Str) : Option (List V) → Str
  | none => "None".toList
  | some l => match l.head?, l[1]?, l.getLast? with
    | some x, some y, some z =>
      if l.length < 4 then listText num (.node (l.map .leaf)) ++ (" (".toList ++ (intText l.length ++ " items)".toList))
      else "[".toList ++ (num x ++ (", ".toList ++ (num y ++ (", ... ".toList ++ (num z ++ ("] (len=".toList ++ (intText l.length ++ ")".toList)))))))
    | some _, none, some _ => listText num (.node (l.map .leaf)) ++ (" (".toList ++ (intText l.length ++ " items)".toList))
    | _, _, _ => "None".toList

/-- algo.py:137 `Func.__str__` (there is no closing parenthesis) -/
def funcText (F : Func) : Str := "Func(out_loops=[".toList ++ (commas (F.outLoops.map fun l => loopText l.name l.extent) ++ ("] ".toList ++ dtName F.outDtype))

/-- algo.py:22-84: the tree of an expression; `visit` is the recursive call on a referenced Func (algo.py:74). -/
def exprTreeE (num : V → Str) (w : World V) (visit : Nat → Except Err RT) : DExpr → Except Err RT
  | .const c => pure (.node ("ConstExpr(".toList ++ (intText c ++ ")".toList)) [])
  | .un op e => do
    let k ← exprTreeE num w visit e
    pure (.node ("UnaryExpr(".toList ++ (opName op ++ ")".toList)) [k])
  | .bin op l r => do
    let k1 ← exprTreeE num w visit l
    let k2 ← exprTreeE num w visit r
    pure (.node ("BinaryExpr(".toList ++ (opName op ++ ")".toList)) [k1, k2])
  | .tern op c t f => do
    let k2 ← exprTreeE num w visit t
    let k3 ← exprTreeE num w visit f
    pure (.node ("TernaryExpr(".toList ++ (opName op ++ ")".toList)) [idxTree c, k2, k3])
  | .red op e rs => do
    let k ← exprTreeE num w visit e
    pure (.node ("ReduceExpr(".toList ++ (opName op ++ (" reduced=".toList ++ (commas (rs.map fun l => loopText l.name l.extent) ++ ")".toList)))) [k])
  | .func f idx => do
    let k ← visit f
    pure (.node ("FuncExpr(indices=[".toList ++ (commas (idx.map idxText) ++ "])".toList)) [k])
  | .buf n idx => pure (.node ("BufferExpr(indices=[".toList ++ (commas (idx.map idxText) ++ ("], cpu=".toList ++ (cpuText num (cpuBuf w n) ++ (", dev=".toList ++ (devText w n ++ ")".toList)))))) [])

/-- algo.py:137-139: the tree of a Func. -/
def funcTree (num : V → Str) (w : World V) (t : Tbl) : Nat → Nat → Except Err RT
  | 0, _ => throw .recursion
  | fuel + 1, f => match t f with
    | some F => do
      let k ← exprTreeE num w (funcTree num w t fuel) F.expr
      pure (.node (funcText F) [k])
    | none => throw .attrError

/-- sched.py:31-51 `LoopExec.__str__`: class name and argument. -/
def execText : LoopExec → Str
  | .sequential => "Sequential".toList
  | .parallel => "Parallel".toList
  | .vectorize => "Vectorize".toList
  | .unroll f => "Unroll(".toList ++ (intText f ++ ")".toList)
  | .gpuBlock d => "GPUBlock(".toList ++ (dimText d ++ ")".toList)
  | .gpuThread d => "GPUThread(".toList ++ (dimText d ++ ")".toList)
where
  /-- sched.py:43-51 -/
  dimText : Dim3 → Str
    | .x => "x".toList
    | .y => "y".toList
    | .z => "z".toList

/-- sched.py:10 `LoopKind.__str__` -/
def kindText : LoopKind → Str
  | .spatial => "Spatial".toList
  | .reduce => "Reduce".toList

/-- sched.py:59 `LoopSched.__str__` -/
def loopSchedText (l : LoopSched) : Str := loopText l.lv.name l.lv.extent ++ (" (".toList ++ (kindText l.kind ++ (":".toList ++ (execText l.exec ++ ")".toList))))

/-- sched.py:29 `SplitLoop.__str__` -/
def splitText (s : SplitLoop) : Str :=
  "SplitLoop: ".toList ++ (loopText s.orig.name s.orig.extent ++ (" -> ".toList ++ (loopText s.o.name s.o.extent ++ (", ".toList ++ loopText s.i.name s.i.extent))))

/-- debug.py:28-33 `dbg_schedule` -/
def schedule (s : Schedule) : List Str :=
  "        Schedule:".toList :: (s.loops.map (fun l => "          ".toList ++ loopSchedText l) ++ s.splits.map (fun p => "          ".toList ++ splitText p))

/-- Python `str.splitlines` on text whose only line ends are `\n`; `cur` is the current line. -/
def splitlinesFrom : Str → Str → List Str
  | cur, [] => if cur.isEmpty then [] else [cur]
  | cur, c :: r => if c = '\n' then cur :: splitlinesFrom [] r else splitlinesFrom (cur ++ [c]) r

/-- debug.py:35-37 `dbg_kernel` -/
def kernel (code : Str) : List Str := (splitlinesFrom [] code).map fun l => "        ".toList ++ l

/-- materialize.py:18, backend.py:15, 66-77: the class name of the backend without "Backend". -/
def backendName : Lang → Str
  | .python => "Python".toList
  | .clang => "Clang".toList
  | .cuda => "CUDA".toList

/-- materialize.py:16-20 -/
def start (R : Runtime V) (num : V → Str) (w : World V) (a : Nat) : Except SErr (List Str) := do
  let t ← Src.lift (arrTree num w (a + 1) a)
  pure ([dbg "materialization start".toList, dbg ("backend: ".toList ++ backendName R.L), dbg "materializing ndarray:".toList] ++ tree t)

/-- materialize.py:39-42: one function with its schedule. -/
def plan (num : V → Str) (w : World V) (t : Tbl) (fuel : Nat) (p : (Nat × Schedule) × Nat) : Except SErr (List Str) := do
  let r ← Src.lift (funcTree num w t fuel p.1.1)
  pure (dbg (intText (p.2 + 1) ++ ":".toList) :: (tree r ++ schedule p.1.2))

/-- materialize.py:44-71: one iteration of the loop over the functions, the second component of the state is what was printed.  `kern_invoke_hist` gets an entry whenever the cache does
(materialize.py:65, 68) and both start empty (materialize.py:11-13), so they have the same length. -/
def runFunc (R : Runtime V) (t : Tbl) (fuel : Nat) (st : SWorld V × List Str) (p : (Nat × Schedule) × Nat) : Except SErr (SWorld V × List Str) :=
  let s := st.1
  match t p.1.1 with
  | none => .error (.err .attrError)
  | some F => do
    let bufs := (Algo.args F.expr).1
    let fncs := (Algo.args F.expr).2
    let outs ← Src.lift (outBufs t fncs)
    let key ← Src.lift (cacheKey s.w.g t fuel F p.1.2)
    match s.texts.lookup key with
    | some text => do
      let s' ← Src.invoke R s p.1.2 text F.outBuffer (bufs ++ outs)
      pure (s', st.2 ++ [dbg "kernel cache hit".toList])
    | none => do
      let (text, n) ← Src.lift (Text.codegen R.L (Text.kernName (R.digest key)) s.w.g t F p.1.2 ⟨bufs, fncs⟩ s.w.tmp)
      let s' ← Src.invoke R { w := { s.w with tmp := n }, texts := s.texts ++ [(key, text)] } p.1.2 text F.outBuffer (bufs ++ outs)
      pure (s', st.2 ++ (dbg "kernel codegen:".toList :: dbg (intText (p.2 + 1) ++ ":".toList) :: (kernel text ++ [dbg ("kernel invocation count: ".toList ++ intText s'.texts.length)])))

/-- materialize.py:15-71 `materialize` in debug mode. -/
def materializeF (R : Runtime V) (num : V → Str) : Nat → SWorld V → Nat → Except SErr (SWorld V × List Str)
  | 0, _, _ => .error (.err .recursion)
  | fuel + 1, s, a => do
    let out ← start R num s.w a
    if (s.w.g.ctx a).op.isConst then pure (s, out ++ [dbg "materialization did not happend as it's constant".toList])
    else if (s.w.g.ctx a).op.isView then
      match (s.w.g.ctx a).inputs with
      | x :: _ => do
        let r ← materializeF R num fuel s x
        pure (r.1, out ++ (dbg "as it's view op, materializing the source ndarray...".toList :: r.2))
      | [] => .error (.err .indexError)
    else do
      let (funcs, t) ← Src.lift (Algo.convert s.w.g a)
      let scheds ← Src.lift (schedAll R.b.isGpu t funcs)
      let plans ← (funcs.zip scheds).zipIdx.mapM (plan num s.w t (a + 2))
      let s := { s with w := { s.w with log := s.w.log ++ (funcs.zip scheds).filterMap (plan1 s.w.g t (a + 2)) } }
      (funcs.zip scheds).zipIdx.foldlM (runFunc R t (a + 2)) (s, out ++ (dbg (intText funcs.length ++ " funcs and schedules:".toList) :: plans.flatten))

/-- materialize.py:117-118 in debug mode. -/
def materialize (R : Runtime V) (num : V → Str) (s : SWorld V) (a : Nat) : Except SErr (SWorld V × List Str) := materializeF R num (a + 1) s a

/-- One API call in debug mode, with what it prints: only `materialize` prints anything. -/
def step (R : Runtime V) (num : V → Str) (s : SWorld V) (c : Call V) : Except SErr ((Out V × SWorld V) × List Str) :=
  match c with
  | .materialize a => if a < s.w.g.length then (materialize R num s a).map fun r => ((.unit, r.1), r.2) else .error (.err .badRef)
  | c => (Src.step R s c).map fun r => (r, [])

end Dbg
end Whale
