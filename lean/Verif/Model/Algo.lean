import Verif.Model.NDArray
/-
Model of `/repo/algo.py`: loop expressions, conversion of an array graph into loop functions, fusion, ordering.

Simplification: the Python union type `Expr` is split into index expressions (`IExpr`, only ever built from
IndexExpr, ConstExpr and BinaryExpr: algo.py:163-209 indices and 258-278 conditions) and value expressions
(`DExpr`).  `convert` never builds any other nesting (the `is_ternary` branch, algo.py:213-219, is dead code: no API
function creates an array with a ternary op).  Recursive functions of algo.py that would walk into an index
expression (`try_fuse` and `has_reduce` on a condition, `count_refs`, `dependent_funcs`, `args`) leave it unchanged /
contribute nothing there, because it contains neither FuncExpr, BufferExpr nor ReduceExpr.
-/
namespace Whale

/-- algo.py:8-13 class `LoopIndex`.  Python compares LoopIndex objects by identity; the objects made for one array are
identified by (`owner` array, `red`uction or output loop, `pos`ition).  `name` is determined by `red`, `pos` (algo.py:142-145). -/
structure LoopIndex where
  owner : Nat
  red : Bool
  pos : Nat
  extent : Int
deriving DecidableEq, Repr, Inhabited

/-- algo.py:19-40 IndexExpr, ConstExpr, BinaryExpr as used for indices and conditions. -/
inductive IExpr
  | index (l : LoopIndex)
  | const (c : Int)
  | bin (op : Ops) (l r : IExpr)
deriving DecidableEq, Repr, Inhabited

/-- algo.py:26-85 expressions computing an element value.  `tern` is TernaryExpr (its first component is always an
index condition); `func f idx` is FuncExpr, `buf n idx` is BufferExpr. -/
inductive DExpr
  | const (c : Int)
  | un (op : Ops) (e : DExpr)
  | bin (op : Ops) (l r : DExpr)
  | tern (op : Ops) (c : IExpr) (t f : DExpr)
  | red (op : Ops) (e : DExpr) (reduced : List LoopIndex)
  | func (f : Nat) (idx : List IExpr)
  | buf (n : Nat) (idx : List IExpr)
deriving DecidableEq, Repr, Inhabited

/-- algo.py:87-93 class `Func`; `outBuffer` is the node owning the buffer. -/
structure Func where
  outLoops : List LoopIndex
  outShape : List Int
  outDtype : DType
  expr : DExpr
  outBuffer : Nat
deriving Repr, Inhabited

/-- The Func objects of one `convert` call, by the array they were made for (`memo`, algo.py:149-151). -/
abbrev Tbl := Nat → Option Func

def Tbl.empty : Tbl := fun _ => none
def Tbl.set (t : Tbl) (i : Nat) (f : Func) : Tbl := fun j => if j = i then some f else t j

namespace Algo
variable {V : Type}

/-- Python `l[k]`, negative positions count from the end. -/
def pyGet {α : Type} (l : List α) (k : Int) : Except Err α :=
  match pyPos l.length k with
  | some p => match l[p]? with
    | some v => pure v
    | none => throw .indexError
  | none => throw .indexError

/-- algo.py:154 `out_loops` -/
def outLoops (g : Graph V) (a : Nat) : List LoopIndex :=
  (g.shape a).zipIdx.map fun p => { owner := a, red := false, pos := p.2, extent := p.1 }

/-- `[IndexExpr(l) for l in out_loops]` -/
def loopIdx (ls : List LoopIndex) : List IExpr := ls.map .index

/-- algo.py:167-170 -/
def transposeIdx (ls : List LoopIndex) (axes : List Nat) : Except Err (List IExpr) :=
  let inv := argsort axes
  (List.range axes.length).mapM fun (k : Nat) => do
    let p ← pyGet inv (k : Int)
    let l ← pyGet ls (p : Int)
    pure (.index l)

/-- algo.py:172-177 -/
def broadcastIdx (ls : List LoopIndex) (inpShape target : List Int) : Except Err (List IExpr) :=
  let ndimDiff : Int := target.length - inpShape.length
  let padded := List.replicate ndimDiff.toNat (1 : Int) ++ inpShape
  ((irange ((target.length : Int) - ndimDiff)).map (· + ndimDiff)).mapM fun k => do
    let s ← pyGet padded k
    if s = 1 then pure (.const 0) else do
      let l ← pyGet ls k
      pure (.index l)

/-- algo.py:179-195: the loop over the normalised subscripts; `ls` are the remaining output loops. -/
def sliceIdxE : List LoopIndex → List Sub → Except Err (List IExpr)
  | _, [] => pure []
  | ls, .int s :: r => do
    let rest ← sliceIdxE ls r
    pure (.const s :: rest)
  | [], .slice .. :: _ => throw .indexError
  | l :: ls, .slice start _ step :: r => do
    let e : IExpr :=
      if start = 0 ∧ step = 1 then .index l
      else if start = 0 then .bin .Mul (.index l) (.const step)
      else if step = 1 then .bin .Add (.const start) (.index l)
      else .bin .Add (.const start) (.bin .Mul (.index l) (.const step))
    let rest ← sliceIdxE ls r
    pure (e :: rest)

/-- `functools.reduce(lambda x, y: BinaryExpr(Ops.Add, x, y), l)`; TypeError on an empty list. -/
def reduceAdd : List IExpr → Except Err IExpr
  | [] => throw .typeError
  | x :: xs => pure (xs.foldl (fun x y => .bin .Add x y) x)

/-- algo.py:202-209: the loop splitting a flat position along the input strides. -/
def unflatten : List Int → IExpr → List IExpr
  | [], _ => []
  | [_], remaining => [remaining]
  | s :: s' :: rest, remaining =>
    .bin .Floordiv remaining (.const s) :: unflatten (s' :: rest) (.bin .Mod remaining (.const s))

/-- algo.py:197-209 -/
def reshapeIdx (ls : List LoopIndex) (shape inpShape : List Int) : Except Err (List IExpr) := do
  let targetStrides := stridesFromShape shape
  let inpStrides := stridesFromShape inpShape
  let flat ← reduceAdd (List.zipWith (fun l s => IExpr.bin .Mul (.index l) (.const s)) ls targetStrides)
  pure (unflatten inpStrides flat)

/-- algo.py:238 the dict `reduced`: axis ↦ LoopIndex, in insertion order (a repeated axis overwrites the value). -/
def reducedDict (a : Nat) (inpShape : List Int) (sortedAxis : List Nat) : List (Nat × LoopIndex) :=
  sortedAxis.zipIdx.foldl (fun d p =>
    let l : LoopIndex := { owner := a, red := true, pos := p.2, extent := geti inpShape p.1 }
    if d.any (fun q => q.1 == p.1) then d.map (fun q => if q.1 == p.1 then (q.1, l) else q) else d ++ [(p.1, l)]) []

/-- algo.py:244 `input_indices`; `spatial` is the iterator `spatial_loopvars`. -/
def reduceIdx (reduced : List (Nat × LoopIndex)) (axis : List Nat) : List Nat → List LoopIndex → Except Err (List IExpr)
  | [], _ => pure []
  | dim :: dims, spatial =>
    if dim ∈ axis then
      match reduced.lookup dim with
      | some l => do
        let rest ← reduceIdx reduced axis dims spatial
        pure (.index l :: rest)
      | none => throw .keyError
    else match spatial with
      | l :: spatial => do
        let rest ← reduceIdx reduced axis dims spatial
        pure (.index l :: rest)
      | [] => throw .typeError

/-- algo.py:234-250 -/
def reduceExpr (g : Graph V) (a x : Nat) (axis : List Nat) (keepdims : Bool) (ls : List LoopIndex) : Except Err DExpr := do
  let reduced := reducedDict a (g.shape x) (axis.pySort)
  let spatial := if keepdims then (ls.zipIdx.filter (fun p => p.2 ∉ axis)).map (·.1) else ls
  let idx ← reduceIdx reduced axis (List.range (g.ndim x)) spatial
  pure (.red .Sum (.func x idx) (reduced.map (·.2)))

/-- algo.py:255-269 -/
def padExpr (g : Graph V) (x : Nat) (dim before : Int) (ls : List LoopIndex) : Except Err DExpr := do
  let l ← pyGet ls dim
  let n ← pyGet (g.shape x) dim
  let cond : IExpr := .bin .And (.bin .Ge (.index l) (.const before)) (.bin .Lt (.index l) (.const (before + n)))
  let idx := ls.zipIdx.map fun p => if (p.2 : Int) = dim then IExpr.bin .Sub (.index p.1) (.const before) else .index p.1
  pure (.tern .Where cond (.func x idx) (.const 0))

/-- algo.py:271-280 -/
def dilateExpr (x : Nat) (dim step : Int) (ls : List LoopIndex) : Except Err DExpr := do
  let l ← pyGet ls dim
  let cond : IExpr := .bin .Eq (.bin .Mod (.index l) (.const step)) (.const 0)
  let idx := ls.zipIdx.map fun p => if (p.2 : Int) = dim then IExpr.bin .Floordiv (.index p.1) (.const step) else .index p.1
  pure (.tern .Where cond (.func x idx) (.const 0))

/-- algo.py:163-283: the expression of one array in terms of its inputs. -/
def mkExpr (g : Graph V) (a : Nat) : Except Err DExpr :=
  let ls := outLoops g a
  match g.ctx a with
  | .const => pure (.buf a (loopIdx ls))
  | .transpose x axes => do
    let idx ← transposeIdx ls axes
    pure (.func x idx)
  | .broadcast x target => do
    let idx ← broadcastIdx ls (g.shape x) target
    pure (.func x idx)
  | .slice x subs => do
    let idx ← sliceIdxE ls subs
    pure (.func x idx)
  | .reshape x _ => do
    let idx ← reshapeIdx ls (g.shape a) (g.shape x)
    pure (.func x idx)
  | .binary op l r => pure (.bin op (.func l (loopIdx ls)) (.func r (loopIdx ls)))
  | .unary op x => pure (.un op (.func x (loopIdx ls)))
  | .sum x axis kd => reduceExpr g a x axis kd ls
  | .contiguous x => pure (.func x (loopIdx ls))
  | .pad x dim before _ => padExpr g x dim before ls
  | .dilate x dim step => dilateExpr x dim step ls

/-- algo.py:285 -/
def mkFunc (g : Graph V) (a : Nat) (e : DExpr) : Func :=
  { outLoops := outLoops g a, outShape := g.shape a, outDtype := g.dtype a, expr := e, outBuffer := a }

/-- algo.py:149-287 `arr_to_func`: depth first over the inputs, memoised.  Fuel bounds Python's recursion depth. -/
def arrToFunc (g : Graph V) : Nat → Nat → Tbl → Except Err Tbl
  | 0, _, _ => throw .recursion
  | fuel + 1, a, memo =>
    match memo a with
    | some _ => pure memo
    | none => do
      let memo ← (g.ctx a).inputs.foldlM (fun m x => arrToFunc g fuel x m) memo
      let e ← mkExpr g a
      pure (memo.set a (mkFunc g a e))

/-- algo.py:296-301 `has_reduce` -/
def hasReduce : DExpr → Bool
  | .red .. => true
  | .tern _ _ t f => hasReduce t || hasReduce f
  | .bin _ l r => hasReduce l || hasReduce r
  | .un _ e => hasReduce e
  | _ => false

/-- algo.py:346 the dict `index_replace`. -/
abbrev Repl := List (LoopIndex × IExpr)

/-- algo.py:303-311 `replace_index` on index expressions (KeyError when a loop index is not in the dict). -/
def replaceI (m : Repl) : IExpr → Except Err IExpr
  | .index l => match m.lookup l with
    | some e => pure e
    | none => throw .keyError
  | .const c => pure (.const c)
  | .bin op l r => do
    let l ← replaceI m l
    let r ← replaceI m r
    pure (.bin op l r)

/-- algo.py:303-311 `replace_index` -/
def replaceD (m : Repl) : DExpr → Except Err DExpr
  | .const c => pure (.const c)
  | .un op e => do
    let e ← replaceD m e
    pure (.un op e)
  | .bin op l r => do
    let l ← replaceD m l
    let r ← replaceD m r
    pure (.bin op l r)
  | .tern op c t f => do
    let c ← replaceI m c
    let t ← replaceD m t
    let f ← replaceD m f
    pure (.tern op c t f)
  | .red op e reduced => do
    let e ← replaceD m e
    pure (.red op e reduced)
  | .func f idx => do
    let idx ← idx.mapM (replaceI m)
    pure (.func f idx)
  | .buf n idx => do
    let idx ← idx.mapM (replaceI m)
    pure (.buf n idx)

/-- Reference counts, algo.py:321. -/
abbrev RC := Nat → Nat

/-- algo.py:314-319 `count_refs` on one expression; `visit` is the recursive call made on the first reference to a Func. -/
def countE (visit : Nat → RC → Except Err RC) : DExpr → RC → Except Err RC
  | .func f _, rc =>
    let rc : RC := fun x => if x = f then rc x + 1 else rc x
    if rc f = 1 then visit f rc else pure rc
  | .const _, rc => pure rc
  | .buf _ _, rc => pure rc
  | .un _ e, rc => countE visit e rc
  | .red _ e _, rc => countE visit e rc
  | .bin _ l r, rc => do
    let rc ← countE visit l rc
    countE visit r rc
  | .tern _ _ t f, rc => do
    let rc ← countE visit t rc
    countE visit f rc

/-- algo.py:314-319 `count_refs` -/
def countRefs (tbl : Tbl) : Nat → DExpr → RC → Except Err RC
  | 0, _, _ => throw .recursion
  | fuel + 1, e, rc => countE (fun f rc => match tbl f with
      | some F => countRefs tbl fuel F.expr rc
      | none => throw .attrError) e rc

/-- algo.py:324-351 `try_fuse` on one expression; `visit` handles a FuncExpr. -/
def fuseE (visit : Nat → List IExpr → Tbl → Except Err (DExpr × Tbl)) : DExpr → Tbl → Except Err (DExpr × Tbl)
  | .const c, tbl => pure (.const c, tbl)
  | .buf n idx, tbl => pure (.buf n idx, tbl)
  | .un op e, tbl => do
    let (e, tbl) ← fuseE visit e tbl
    pure (.un op e, tbl)
  | .bin op l r, tbl => do
    let (l, tbl) ← fuseE visit l tbl
    let (r, tbl) ← fuseE visit r tbl
    pure (.bin op l r, tbl)
  | .tern op c t f, tbl => do
    let (t, tbl) ← fuseE visit t tbl
    let (f, tbl) ← fuseE visit f tbl
    pure (.tern op c t f, tbl)
  | .red op e reduced, tbl => do
    let (e, tbl) ← fuseE visit e tbl
    pure (.red op e reduced, tbl)
  | .func f idx, tbl => visit f idx tbl

/-- algo.py:333 `isinstance(e.func.expr, BufferExpr)` -/
def isBufferExpr : DExpr → Bool
  | .buf .. => true
  | _ => false

/-- algo.py:324-351 `try_fuse`.  The assignment `e.func.expr = …` (line 339) updates the table. -/
def tryFuse (rc : RC) : Nat → DExpr → Tbl → Except Err (DExpr × Tbl)
  | 0, _, _ => throw .recursion
  | fuel + 1, e, tbl => fuseE (fun f idx tbl => match tbl f with
      | none => throw .attrError
      | some F =>
        if rc f = 0 then throw .keyError
        else if isBufferExpr F.expr || (!hasReduce F.expr && rc f == 1) then do
          let fused ← replaceD (F.outLoops.zip idx) F.expr
          tryFuse rc fuel fused tbl
        else do
          let (e', tbl) ← tryFuse rc fuel F.expr tbl
          pure (.func f idx, tbl.set f { F with expr := e' })) e tbl

/-- FuncExpr references of an expression, in traversal order. -/
def funcRefs : DExpr → List Nat
  | .const _ => []
  | .un _ e => funcRefs e
  | .bin _ l r => funcRefs l ++ funcRefs r
  | .tern _ _ t f => funcRefs t ++ funcRefs f
  | .red _ e _ => funcRefs e
  | .func f _ => [f]
  | .buf _ _ => []

/-- BufferExpr references of an expression, in traversal order. -/
def bufRefs : DExpr → List Nat
  | .const _ => []
  | .un _ e => bufRefs e
  | .bin _ l r => bufRefs l ++ bufRefs r
  | .tern _ _ t f => bufRefs t ++ bufRefs f
  | .red _ e _ => bufRefs e
  | .func _ _ => []
  | .buf n _ => [n]

/-- Keep first occurrences (`if x not in seen: seen.add(x); out.append(x)`). -/
def dedup : List Nat → List Nat := fun l => l.foldl (fun acc x => if x ∈ acc then acc else acc ++ [x]) []

/-- algo.py:95-107 `dependent_funcs` -/
def dependentFuncs (e : DExpr) : List Nat := dedup (funcRefs e)

/-- algo.py:109-116 `reduced_vars` -/
def reducedVars : DExpr → List LoopIndex
  | .red _ _ reduced => reduced
  | .bin _ l r => reducedVars l ++ reducedVars r
  | .tern _ _ t f => reducedVars t ++ reducedVars f
  | .un _ e => reducedVars e
  | _ => []

/-- algo.py:118-135 `args`: nodes read directly, and funcs read, each once, in order of first occurrence. -/
def args (e : DExpr) : List Nat × List Nat := (dedup (bufRefs e), dedup (funcRefs e))

/-- algo.py:355-362: the final `dfs`. -/
def topo (tbl : Tbl) : Nat → Nat → List Nat × List Nat → Except Err (List Nat × List Nat)
  | 0, _, _ => throw .recursion
  | fuel + 1, f, (seen, funcs) =>
    if f ∈ seen then pure (seen, funcs)
    else match tbl f with
      | none => throw .attrError
      | some F => do
        let (seen, funcs) ← (dependentFuncs F.expr).foldlM (fun st d => topo tbl fuel d st) (seen ++ [f], funcs)
        pure (seen, funcs ++ [f])

/-- algo.py:141-364 `convert`: the kernels to run, in order (with the final Func table). -/
def convert (g : Graph V) (arr : Nat) : Except Err (List Nat × Tbl) := do
  let fuel := arr + 2
  let tbl ← arrToFunc g fuel arr Tbl.empty
  match tbl arr with
  | none => throw .attrError
  | some f =>
    let rc ← countRefs tbl fuel f.expr (fun _ => 0)
    let (e, tbl) ← tryFuse rc fuel f.expr tbl
    let root : Func := { outLoops := f.outLoops, outShape := f.outShape, outDtype := f.outDtype, expr := e, outBuffer := base g arr }
    let tbl := tbl.set arr root
    let (_, funcs) ← topo tbl fuel arr ([], [])
    pure (funcs, tbl)

end Algo
end Whale
