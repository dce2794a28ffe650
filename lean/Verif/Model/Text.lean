import Verif.Model.Kernel
/-
Model of the text of generated kernels: `/repo/codegen.py` writing lines through the language specifications in
`/repo/langspec.py`, `/repo/backend_python.py`, `/repo/backend_clang.py` and `/repo/backend_cuda.py`.

Texts are lists of characters.  `Model/Kernel` models the same functions with the statement tree as their result; here they write the lines
themselves, one by one, with the indentation counter and the counter of temporaries as in the code.
-/
namespace Whale

/-- The three target languages (backend_python.py, backend_clang.py, backend_cuda.py). -/
inductive Lang
  | python | clang | cuda
deriving DecidableEq, Repr, Inhabited

abbrev Str := List Char

/-- `str(i)` / `f"{i}"` of a Python int. -/
def intText (i : Int) : Str := if i < 0 then '-' :: Nat.toDigits 10 i.natAbs else Nat.toDigits 10 i.natAbs

namespace LangSpec

/-- backend_python.py:8, langspec.py:111 `default_library` through `import_lib` (backend_python.py:7, langspec.py:110) -/
def imports : Lang → List Str
  | .python => ["import math".toList]
  | _ => ["#include <stdint.h>".toList, "#include <math.h>".toList]

/-- langspec.py:104-109 -/
def typename : DType → Str
  | .int32 => "int32_t".toList
  | .int64 => "int64_t".toList
  | .float32 => "float".toList
  | .float64 => "double".toList

/-- `sep.join(l)` -/
def join (sep : Str) : List Str → Str
  | [] => []
  | [a] => a
  | a :: r => a ++ sep ++ join sep r

/-- `f'{self.typename(tp)}* {nm}'` (backend_clang.py:12, backend_cuda.py:14) -/
def cParam (p : Str × DType) : Str := typename p.2 ++ "* ".toList ++ p.1

/-- backend_python.py:10, backend_clang.py:12, backend_cuda.py:14 -/
def kernStart : Lang → Str → List (Str × DType) → Str
  | .python, name, ps => "def ".toList ++ name ++ "(".toList ++ join ", ".toList (ps.map (·.1)) ++ "):".toList
  | .clang, name, ps => "void ".toList ++ name ++ "(".toList ++ join ", ".toList (ps.map cParam) ++ ") {".toList
  | .cuda, name, ps => "extern \"C\" __global__ void ".toList ++ name ++ "(".toList ++ join ", ".toList (ps.map cParam) ++ ") {".toList

/-- backend_python.py:11,19,22, langspec.py:114,116,119: `kern_end`, `loop_end` and `if_end` -/
def blockEnd : Lang → Str
  | .python => []
  | _ => "}".toList

/-- backend_python.py:12-13, langspec.py:115 `sequential_loop_start(index, 0, n, 1)` -/
def seqLoop : Lang → Str → Int → Str
  | .python, x, n => "for ".toList ++ x ++ " in range(".toList ++ intText 0 ++ ", ".toList ++ intText n ++ ", ".toList ++ intText 1 ++ "):".toList
  | _, x, n => "for (int ".toList ++ x ++ " = ".toList ++ intText 0 ++ "; ".toList ++ x ++ " < ".toList ++ intText n ++ "; ".toList ++ x ++ " += ".toList ++ intText 1 ++ ") {".toList

/-- backend_python.py:20, langspec.py:117 -/
def ifStart : Lang → Str → Str
  | .python, c => "if ".toList ++ c ++ ":".toList
  | _, c => "if (".toList ++ c ++ ") {".toList

/-- backend_python.py:21, langspec.py:118 -/
def else_ : Lang → Str
  | .python => "else:".toList
  | _ => "} else {".toList

/-- backend_python.py:23, langspec.py:120 -/
def ret : Lang → Str
  | .python => "return".toList
  | _ => "return;".toList

/-- backend_python.py:24, langspec.py:121 -/
def index (a i : Str) : Str := a ++ "[".toList ++ i ++ "]".toList

/-- backend_python.py:26, langspec.py:123 -/
def assign : Lang → Str → Str → Str
  | .python, l, r => l ++ " = ".toList ++ r
  | _, l, r => l ++ " = ".toList ++ r ++ ";".toList

/-- backend_python.py:25, langspec.py:122 -/
def init : Lang → DType → Str → Str → Str
  | .python, _, l, r => l ++ " = ".toList ++ r
  | _, dt, l, r => typename dt ++ " ".toList ++ l ++ " = ".toList ++ r ++ ";".toList

/-- `f"{f}({a})"` -/
def call (f : String) (a : Str) : Str := f.toList ++ "(".toList ++ a ++ ")".toList

/-- backend_python.py:27-32, langspec.py:124-129, selected by codegen.py:136-142 -/
def un : Lang → Ops → Str → Except Err Str
  | _, .Neg, a => pure ("-(".toList ++ a ++ ")".toList)
  | .python, .Sin, a => pure (call "math.sin" a)
  | .python, .Cos, a => pure (call "math.cos" a)
  | .python, .Exp, a => pure (call "math.exp" a)
  | .python, .Log, a => pure (call "math.log" a)
  | .python, .Sqrt, a => pure (call "math.sqrt" a)
  | _, .Sin, a => pure (call "sin" a)
  | _, .Cos, a => pure (call "cos" a)
  | _, .Exp, a => pure (call "exp" a)
  | _, .Log, a => pure (call "log" a)
  | _, .Sqrt, a => pure (call "sqrt" a)
  | _, _, _ => throw .unknownOp

/-- `f"{l} {op} {r}"` -/
def infx (op : String) (l r : Str) : Str := l ++ " ".toList ++ op.toList ++ " ".toList ++ r

/-- `f"({l} {op} {r})"` -/
def paren (op : String) (l r : Str) : Str := "(".toList ++ infx op l r ++ ")".toList

/-- backend_python.py:33, langspec.py:130 -/
def add (l r : Str) : Str := infx "+" l r

/-- backend_python.py:35, langspec.py:132 -/
def mul (l r : Str) : Str := infx "*" l r

/-- backend_python.py:46, langspec.py:143 -/
def le : Lang → Str → Str → Str
  | .python, l, r => infx "<=" l r
  | _, l, r => paren "<=" l r

/-- backend_python.py:33-46, langspec.py:130-143, selected by codegen.py:152-166 -/
def bin : Lang → Ops → Str → Str → Except Err Str
  | _, .Add, l, r => pure (add l r)
  | _, .Sub, l, r => pure (infx "-" l r)
  | _, .Mul, l, r => pure (mul l r)
  | _, .Truediv, l, r => pure (infx "/" l r)
  | .python, .Floordiv, l, r => pure (infx "//" l r)
  | _, .Floordiv, l, r => pure (infx "/" l r)
  | _, .Mod, l, r => pure (infx "%" l r)
  | _, .Pow, l, r => pure ("pow(".toList ++ l ++ ", ".toList ++ r ++ ")".toList)
  | .python, .And, l, r => pure (infx "and" l r)
  | .python, .Or, l, r => pure (infx "or" l r)
  | .python, .Eq, l, r => pure (infx "==" l r)
  | .python, .Gt, l, r => pure (infx ">" l r)
  | .python, .Ge, l, r => pure (infx ">=" l r)
  | .python, .Lt, l, r => pure (infx "<" l r)
  | _, .And, l, r => pure (paren "&&" l r)
  | _, .Or, l, r => pure (paren "||" l r)
  | _, .Eq, l, r => pure (paren "==" l r)
  | _, .Gt, l, r => pure (paren ">" l r)
  | _, .Ge, l, r => pure (paren ">=" l r)
  | _, .Lt, l, r => pure (paren "<" l r)
  | L, .Le, l, r => pure (le L l r)
  | _, _, _, _ => throw .unknownOp

/-- `f"{idx}"` of the grid or block direction (sched.py:44,49) -/
def dimText : Dim3 → Str
  | .x => ['x']
  | .y => ['y']
  | .z => ['z']

/-- The lines that open a spatial loop, selected by codegen.py:92-106: backend_python.py:13-18, backend_clang.py:13-29, backend_cuda.py:15-23 with langspec.py:115.
The flag says whether a nested block was opened (`looped`). -/
def loopStart : Lang → LoopExec → Str → Int → Except Err (List Str × Bool)
  | L, .sequential, x, n => pure ([seqLoop L x n], true)
  | .python, .parallel, x, n => pure ([seqLoop .python x n], true)
  | .clang, .parallel, x, n => pure (["#pragma omp parallel for".toList, seqLoop .clang x n], true)
  | .cuda, .parallel, _, _ => throw .unsupportedLoop
  | .python, .vectorize, x, n => pure ([seqLoop .python x n], true)
  | .clang, .vectorize, x, n => pure (["#pragma clang loop vectorize(enable)".toList, seqLoop .clang x n], true)
  | .cuda, .vectorize, _, _ => throw .unsupportedLoop
  | .python, .unroll _, x, n => pure ([seqLoop .python x n], true)
  | .clang, .unroll k, x, n => pure (["#pragma clang loop unroll_count(".toList ++ intText k ++ ")".toList, seqLoop .clang x n], true)
  | .cuda, .unroll k, x, n => pure (["#pragma unroll ".toList ++ intText k, seqLoop .cuda x n], true)
  | .cuda, .gpuBlock d, x, _ => pure ([init .cuda .int64 x ("blockIdx.".toList ++ dimText d)], false)
  | .cuda, .gpuThread d, x, _ => pure ([init .cuda .int64 x ("threadIdx.".toList ++ dimText d)], false)
  | _, .gpuBlock _, _, _ => throw .unsupportedLoop
  | _, .gpuThread _, _, _ => throw .unsupportedLoop

end LangSpec

namespace Text
open LangSpec
variable {V : Type}

/-- codegen.py:12,23-24: `buff`, `indent_level`, `tmpvar_idx`.  (`indent_level` never becomes negative; the model's counter cannot.) -/
structure W where
  buf : List Str
  ind : Nat
  tmp : Nat
deriving Inhabited

/-- codegen.py:28 `writeln`, with the four-space `indent_str` (backend_python.py:9, langspec.py:112) -/
def W.writeln (w : W) (ln : Str) : W := { w with buf := w.buf ++ [List.replicate (4 * w.ind) ' ' ++ ln] }

/-- codegen.py:29-33 `write` of a list of lines -/
def W.writes (w : W) (lns : List Str) : W := lns.foldl W.writeln w

/-- codegen.py:26 -/
def W.nest (w : W) : W := { w with ind := w.ind + 1 }

/-- codegen.py:27 -/
def W.unnest (w : W) : W := { w with ind := w.ind - 1 }

/-- codegen.py:34-37 -/
def W.tmpvar (w : W) : Str × W := ((VName.tmp w.tmp).chars, { w with tmp := w.tmp + 1 })

/-- `functools.reduce(l.add, terms)` for a non-empty list -/
def sumText : Str → List Str → Str := List.foldl add

/-- codegen.py:39-41 `arr_idx_calc_expr` -/
def flatText (shape : List Int) (names : List Str) : Str :=
  if shape.isEmpty then ['0']
  else match List.zipWith (fun a st => mul a (intText st)) names (stridesFromShape shape) with
    | [] => ['0']      -- unreachable: as many names as dimensions
    | t :: ts => sumText t ts

/-- codegen.py:242-243 -/
def bufText (offset : Int) (strides : List Int) (names : List Str) : Str :=
  sumText (intText offset) (((names.zip strides).filter (fun p => p.2 ≠ 0)).map (fun p => mul p.1 (intText p.2)))

/-- codegen.py:121-131, 149-171: `render_expr` of an index expression with type int64: its text, after writing the lines it needs. -/
def renderI (L : Lang) : IExpr → W → Except Err (Str × W)
  | .index l, w => pure (l.name.chars, w)
  | .const c, w => pure (intText c, w)
  | .bin op l r, w => do
    if Codegen.renderBin op = false then throw .unknownOp
    let (a, w) ← renderI L l w
    let (b, w) ← renderI L r w
    let (x, w) := w.tmpvar
    let e ← bin L op a b
    pure (x, w.writeln (init L .int64 x e))

/-- `[self.render_expr(idx, args, dtype.int64) for idx in indices]` (codegen.py:239, 254) -/
def renderIs (L : Lang) : List IExpr → W → Except Err (List Str × W)
  | [], w => pure ([], w)
  | e :: es, w => do
    let (a, w) ← renderI L e w
    let (as, w) ← renderIs L es w
    pure (a :: as, w)

/-- codegen.py:213-215: the opening lines of the loops of a reduction -/
def openRed (L : Lang) : List LoopIndex → W → W
  | [], w => w
  | l :: ls, w => openRed L ls (w.writeln (seqLoop L l.name.chars l.extent)).nest

/-- codegen.py:114-117, 224-226: closing `k` loops -/
def closeLoops (L : Lang) : Nat → W → W
  | 0, w => w
  | k + 1, w => closeLoops L k (w.unnest.writeln (blockEnd L))

/-- codegen.py:121-254 `render_expr` of a value expression with result type `dt`. -/
def renderD (L : Lang) (g : Graph V) (tbl : Tbl) (args : Codegen.Args) (dt : DType) : DExpr → W → Except Err (Str × W)
  | .const c, w => pure (intText c, w)
  | .un op e, w => do
    if Codegen.renderUn op = false then throw .unknownOp
    let (a, w) ← renderD L g tbl args dt e w
    let (x, w) := w.tmpvar
    let t ← un L op a
    pure (x, w.writeln (init L dt x t))
  | .bin op l r, w => do
    if Codegen.renderBin op = false then throw .unknownOp
    let (a, w) ← renderD L g tbl args dt l w
    let (b, w) ← renderD L g tbl args dt r w
    let (x, w) := w.tmpvar
    let t ← bin L op a b
    pure (x, w.writeln (init L dt x t))
  | .tern op c t f, w => do
    if op ≠ .Where then throw .unknownOp
    let (x, w) := w.tmpvar
    let w := w.writeln (init L dt x (if dt.isInt then "0".toList else "0.0".toList))
    let (c, w) ← renderI L c w
    let w := (w.writeln (ifStart L c)).nest
    let (a, w) ← renderD L g tbl args dt t w
    let w := (w.writeln (assign L x a)).unnest
    let w := (w.writeln (else_ L)).nest
    let (b, w) ← renderD L g tbl args dt f w
    let w := (w.writeln (assign L x b)).unnest
    pure (x, w.writeln (blockEnd L))
  | .red op e reduced, w => do
    let acc := "acc".toList
    let w := w.writeln (init L dt acc "0".toList)
    let w := openRed L reduced w
    let (a, w) ← renderD L g tbl args dt e w
    if op ≠ .Sum then throw .unknownOp
    let w := w.writeln (assign L acc (add acc a))
    pure (acc, closeLoops L reduced.length w)
  | .func f idx, w => do
    let a ← Codegen.fncName args f
    let (names, w) ← renderIs L idx w
    match tbl f with
    | none => throw .attrError
    | some F => pure (index a.chars (flatText F.outShape names), w)
  | .buf b idx, w => do
    let a ← Codegen.bufName args b
    let (names, w) ← renderIs L idx w
    pure (index a.chars (bufText (g.offset b) (g.strides b) names), w)

/-- codegen.py:87-112 `render_loop`: opens the spatial loops; the number of loops to close is `loopcnt`. -/
def renderLoops (L : Lang) : List LoopSched → W → Except Err (Nat × W)
  | [], w => pure (0, w)
  | l :: ls, w =>
    if l.kind ≠ .spatial then renderLoops L ls w
    else do
      let (lns, looped) ← loopStart L l.exec l.lv.name.chars l.lv.extent
      let w := w.writes lns
      let (k, w) ← renderLoops L ls (if looped then w.nest else w)
      pure (if looped then k + 1 else k, w)

/-- codegen.py:58-60 -/
def splitLines (L : Lang) : List SplitLoop → W → W
  | [], w => w
  | sp :: r, w => splitLines L r (w.writeln (init L .int64 sp.orig.name.chars (add (mul sp.o.name.chars (intText sp.factor)) sp.i.name.chars)))

/-- codegen.py:62-68 -/
def guardLines (L : Lang) : List SplitLoop → W → W
  | [], w => w
  | sp :: r, w =>
    if sp.tailGuard then
      let w := (w.writeln (ifStart L (le L (intText sp.orig.extent) sp.orig.name.chars))).nest
      let w := (w.writeln (ret L)).unnest
      guardLines L r (w.writeln (blockEnd L))
    else guardLines L r w

/-- codegen.py:43-79 `codegen`: the text of the kernel `name`, and the next temporary. -/
def codegen (L : Lang) (name : Str) (g : Graph V) (tbl : Tbl) (f : Func) (sch : Schedule) (args : Codegen.Args) (n : Nat) : Except Err (Str × Nat) := do
  let w : W := ⟨[], 0, n⟩
  let w := w.writes (imports L)
  let w := (w.writeln (kernStart L name ((Codegen.params g tbl args f.outDtype).map fun p => (p.1.chars, p.2)))).nest
  let (loopcnt, w) ← renderLoops L sch.loops w
  let w := splitLines L sch.splits w
  let w := guardLines L sch.splits w
  let (res, w) ← renderD L g tbl args f.outDtype f.expr w
  let idx := flatText f.outShape (f.outLoops.map (·.name.chars))
  let w := w.writeln (assign L (index "out".toList idx) res)
  let w := closeLoops L loopcnt w
  let w := w.unnest.writeln (blockEnd L)
  pure (join ['\n'] w.buf, w.tmp)

/-- materialize.py:57: `f"kern_{cache_key[:16]}"`, the key being a hexadecimal digest (materialize.py:113) -/
def kernName (digest : Str) : Str := "kern_".toList ++ digest.take 16

end Text
end Whale
