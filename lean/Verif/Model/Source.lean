import Verif.Model.Text
import Verif.Model.History
import Verif.Spec.Semantics
/-
The program that really runs: `materialize` generates source text, keeps compiled sources in its cache and calls them.  Everything here follows /repo/materialize.py and /repo/backend*.py
again, like `Model/Materialize`, but kernels are texts (`Model/Text`), compiling is reading the text with the grammar of its language (`Spec/Syntax`), and running a kernel is calling the
function that was read, by the rules of its language (`Spec/Semantics`), with the buffers as arguments.  The statement trees of `Model/Kernel` and the `Backend.run` of `Model/Materialize` are not used.
-/
namespace Whale
open Mat Hist
variable {V : Type}

/-- A run time: the language with its numbers, the hexadecimal digest of cache keys (materialize.py:113), on a GPU the order in which the threads of the `tick`-th launch run.
`b` says whether it is a GPU backend, and which numbers the host uses (`b.run` is not used). -/
structure Runtime (V : Type) where
  b : Backend V
  L : Lang
  N : Sem.Num V
  digest : Key → Str
  order : Nat → Schedule → List Kern.Thread

/-- The state of a session: arrays, buffers and gradients as in `World` (whose kernel cache is not used here), and the cache of compiled sources. -/
structure SWorld (V : Type) where
  w : World V
  texts : List (Key × Str)

/-- What can go wrong: an exception of the library, a source that does not compile, a run time error of the compiled function. -/
inductive SErr
  | err (e : Err)
  | syntaxError
  | fault (f : Sem.Fault)
deriving DecidableEq, Repr

namespace Src

/-- An exception of the library. -/
def lift {α : Type} : Except Err α → Except SErr α
  | .ok x => .ok x
  | .error e => .error (.err e)

/-- backend_python.py:55-56, backend_clang.py:41-47, backend_cuda.py:69-81: call the function; on a GPU in every thread, one after the other. -/
def exec (R : Runtime V) (p : Syntax.Prog) (tick : Nat) (sch : Schedule) (out : List V) (ins : List (List V)) : Except SErr (List V) :=
  match (if R.b.isGpu then (R.order tick sch).foldlM (fun buf t => Sem.call R.L R.N (Sem.threadVars t) p (buf :: ins)) out
    else Sem.call R.L R.N (fun _ _ => none) p (out :: ins)) with
  | .ok l => .ok l
  | .error f => .error (.fault f)

/-- backend_python.py:49-52, backend_clang.py:32-38, backend_cuda.py:53-63 `compile`, then backend.py:33-64 `invoke_kernel`. -/
def invoke (R : Runtime V) (s : SWorld V) (sch : Schedule) (text : Str) (out : Nat) (ins : List Nat) : Except SErr (SWorld V) :=
  match Syntax.parse R.L text with
  | none => .error .syntaxError
  | some p =>
    if R.b.isGpu then do
      let w ← lift ((out :: ins).zipIdx.foldlM (toDev R.b) s.w)
      if Kern.launchOK sch = false then throw (.err .assertion)
      match w.dev out, ins.mapM w.dev with
      | some o, some is =>
        let l ← exec R p w.tick sch o is
        pure { s with w := { w with dev := upd w.dev out l, tick := w.tick + 1, ev := w.ev ++ [.launch out ins] } }
      | _, _ => throw (.err .attrError)
    else
      let w := (out :: ins).foldl (fillCpu R.b.A) s.w
      match cpuBuf w out, ins.mapM (cpuBuf w) with
      | some o, some is => do
        let l ← exec R p w.tick sch o is
        pure { s with w := { w with cpu := upd w.cpu out l, tick := w.tick + 1 } }
      | _, _ => throw (.err .attrError)

/-- materialize.py:44-68: one iteration of the loop over the functions. -/
def runFunc (R : Runtime V) (t : Tbl) (fuel : Nat) (s : SWorld V) (p : Nat × Schedule) : Except SErr (SWorld V) :=
  match t p.1 with
  | none => .error (.err .attrError)
  | some F => do
    let bufs := (Algo.args F.expr).1
    let fncs := (Algo.args F.expr).2
    let outs ← lift (outBufs t fncs)
    let key ← lift (cacheKey s.w.g t fuel F p.2)
    match s.texts.lookup key with
    | some text => invoke R s p.2 text F.outBuffer (bufs ++ outs)
    | none => do
      let (text, n) ← lift (Text.codegen R.L (Text.kernName (R.digest key)) s.w.g t F p.2 ⟨bufs, fncs⟩ s.w.tmp)
      invoke R { w := { s.w with tmp := n }, texts := s.texts ++ [(key, text)] } p.2 text F.outBuffer (bufs ++ outs)

/-- materialize.py:15-68 `materialize`; fuel bounds the recursion over views, `log` is the history variable. -/
def materializeF (R : Runtime V) : Nat → SWorld V → Nat → Except SErr (SWorld V)
  | 0, _, _ => .error (.err .recursion)
  | fuel + 1, s, a =>
    if (s.w.g.ctx a).op.isConst then .ok s
    else if (s.w.g.ctx a).op.isView then
      match (s.w.g.ctx a).inputs with
      | x :: _ => materializeF R fuel s x
      | [] => .error (.err .indexError)
    else do
      let (funcs, t) ← lift (Algo.convert s.w.g a)
      let scheds ← lift (schedAll R.b.isGpu t funcs)
      (funcs.zip scheds).foldlM (runFunc R t (a + 2)) { s with w := { s.w with log := s.w.log ++ (funcs.zip scheds).filterMap (plan1 s.w.g t (a + 2)) } }

/-- materialize.py:117-118 -/
def materialize (R : Runtime V) (s : SWorld V) (a : Nat) : Except SErr (SWorld V) := materializeF R (a + 1) s a

/-- Execution of one API call on existing arrays.  Calls other than `materialize` and `reset` (materialize.py:120) do not touch the cache of sources. -/
def exec1 (R : Runtime V) (s : SWorld V) (c : Call V) : Except SErr (Out V × SWorld V) :=
  match c with
  | .materialize a => (materialize R s a).map fun s => (.unit, s)
  | .reset => .ok (.unit, { w := { s.w with log := [], epoch := s.w.tick }, texts := [] })
  | c => (lift (Hist.exec1 R.b s.w c)).map fun p => (p.1, { s with w := p.2 })

/-- One API call. -/
def step (R : Runtime V) (s : SWorld V) (c : Call V) : Except SErr (Out V × SWorld V) :=
  if ∀ a ∈ c.arrays, a < s.w.g.length then exec1 R s c else .error (.err .badRef)

end Src
end Whale
