import Verif.Model.Materialize
import Verif.Model.Text
/-
Model of the text that `func_cache_key` hashes: `str(key)` of a Python tuple (materialize.py:106-113).
-/
namespace Whale

/-- The Python values a cache key is made of: None, bool, int, str and tuples of such values. -/
inductive Py
  | none
  | bool (b : Bool)
  | int (i : Int)
  | str (s : List Char)
  | tuple (l : List Py)
deriving Inhabited

namespace Py

mutual
/-- Python's `repr` of these values, which is also their `str` inside of a tuple.  Simplification: a string is printed between single quotes as it is; Python escapes quotes, backslashes
and unprintable characters, which the strings of cache keys (names of loops, operations, dtypes, classes) do not contain (`C60_plain`). -/
def repr : Py → List Char
  | .none => "None".toList
  | .bool true => "True".toList
  | .bool false => "False".toList
  | .int i => intText i
  | .str s => '\'' :: (s ++ ['\''])
  | .tuple [] => "()".toList
  | .tuple [x] => '(' :: (repr x ++ ",)".toList)
  | .tuple (x :: y :: ys) => '(' :: (repr x ++ (", ".toList ++ (repr y ++ (reprMore ys ++ ")".toList))))
/-- The third and later elements of a tuple. -/
def reprMore : List Py → List Char
  | [] => []
  | x :: xs => ", ".toList ++ (repr x ++ reprMore xs)
end

end Py

namespace Mat

/-- ops.py:4-50 `op.name` -/
def opName : Ops → List Char
  | .Const => "Const".toList
  | .unary_start => "_unary_start".toList
  | .Neg => "Neg".toList
  | .Sin => "Sin".toList
  | .Cos => "Cos".toList
  | .Exp => "Exp".toList
  | .Log => "Log".toList
  | .Sqrt => "Sqrt".toList
  | .unary_end => "_unary_end".toList
  | .binary_start => "_binary_start".toList
  | .Add => "Add".toList
  | .Sub => "Sub".toList
  | .Mul => "Mul".toList
  | .Truediv => "Truediv".toList
  | .Floordiv => "Floordiv".toList
  | .Mod => "Mod".toList
  | .Pow => "Pow".toList
  | .And => "And".toList
  | .Or => "Or".toList
  | .Eq => "Eq".toList
  | .Gt => "Gt".toList
  | .Ge => "Ge".toList
  | .Lt => "Lt".toList
  | .Le => "Le".toList
  | .binary_end => "_binary_end".toList
  | .ternary_start => "_ternary_start".toList
  | .Where => "Where".toList
  | .ternary_end => "_ternary_end".toList
  | .reduce_start => "_reduce_start".toList
  | .Sum => "Sum".toList
  | .reduce_end => "_reduce_end".toList
  | .view_start => "_view_start".toList
  | .Reshape => "Reshape".toList
  | .Broadcast => "Broadcast".toList
  | .Slice => "Slice".toList
  | .Transpose => "Transpose".toList
  | .view_end => "_view_end".toList
  | .Matmul => "Matmul".toList
  | .Contiguous => "Contiguous".toList
  | .Pad => "Pad".toList
  | .Dilate => "Dilate".toList

/-- dtype.py:4-5 `__repr__`: the class name in lower case. -/
def dtName : DType → List Char
  | .int32 => "int32".toList
  | .int64 => "int64".toList
  | .float32 => "float32".toList
  | .float64 => "float64".toList

/-- A string constant. -/
def pyStr (s : String) : Py := .str s.toList

/-- A tuple of ints (shapes, strides). -/
def pyInts (l : List Int) : Py := .tuple (l.map .int)

/-- materialize.py:81, 107 `(v.name, v.extent)` -/
def pyVar (v : VName × Int) : Py := .tuple [.str v.1.chars, .int v.2]

/-- materialize.py:76-85 on index expressions -/
def ikeyPy : IKey → Py
  | .idx n e => .tuple [pyStr "Idx", .str n.chars, .int e]
  | .const c => .tuple [pyStr "Const", .int c]
  | .bin op l r => .tuple [pyStr "Bin", .str (opName op), ikeyPy l, ikeyPy r]

/-- materialize.py:74-92 the tuple for an expression -/
def ekeyPy : EKey → Py
  | .none => .none
  | .const c => .tuple [pyStr "Const", .int c]
  | .un op e => .tuple [pyStr "Un", .str (opName op), ekeyPy e]
  | .bin op l r => .tuple [pyStr "Bin", .str (opName op), ekeyPy l, ekeyPy r]
  | .red op vs e => .tuple [pyStr "Red", .str (opName op), .tuple (vs.map pyVar), ekeyPy e]
  | .fnc e idx => .tuple [pyStr "Fnc", ekeyPy e, .tuple (idx.map ikeyPy)]
  | .buf id shape strides offset dt idx =>
    .tuple [pyStr "Buf", .int id, pyInts shape, pyInts strides, .int offset, .str (dtName dt), .tuple (idx.map ikeyPy)]

/-- sched.py:40-51 `Literal["x", "y", "z"]` -/
def dimPy : Dim3 → Py
  | .x => pyStr "x"
  | .y => pyStr "y"
  | .z => pyStr "z"

/-- materialize.py:95-100 `exec_key` -/
def execPy : LoopExec → Py
  | .gpuBlock d => .tuple [pyStr "GPUBlock", dimPy d]
  | .gpuThread d => .tuple [pyStr "GPUThread", dimPy d]
  | .unroll f => .tuple [pyStr "Unroll", .int f]
  | .sequential => .tuple [pyStr "Sequential"]
  | .parallel => .tuple [pyStr "Parallel"]
  | .vectorize => .tuple [pyStr "Vectorize"]

/-- sched.py:6-8 `kind.name` -/
def kindPy : LoopKind → Py
  | .spatial => pyStr "Spatial"
  | .reduce => pyStr "Reduce"

/-- materialize.py:101 -/
def loopPy (l : VName × Int × LoopKind × LoopExec) : Py := .tuple [.str l.1.chars, .int l.2.1, kindPy l.2.2.1, execPy l.2.2.2]

/-- materialize.py:102 -/
def splitPy (s : VName × Int × Bool) : Py := .tuple [.str s.1.chars, .int s.2.1, .bool s.2.2]

/-- materialize.py:94-103 `_sched_key` -/
def skeyPy (s : SKey) : Py := .tuple [.tuple (s.loops.map loopPy), .tuple (s.splits.map splitPy)]

/-- materialize.py:106-112 the tuple `key` -/
def keyPy (k : Key) : Py := .tuple [.tuple (k.loops.map pyVar), pyInts k.shape, .str (dtName k.dt), ekeyPy k.expr, skeyPy k.sched]

/-- materialize.py:113 `str(key)`: the text that is hashed. -/
def keyText (k : Key) : List Char := (keyPy k).repr

end Mat
end Whale
