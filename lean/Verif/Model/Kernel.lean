import Verif.Model.Sched
/-
Model of the generated kernels: `/repo/codegen.py` with the statement forms of `/repo/langspec.py`,
`/repo/backend_python.py`, `/repo/backend_clang.py`, `/repo/backend_cuda.py`.

The code emits indented text lines; the model emits the statement tree these lines denote (`nest`/`unnest` is tree
nesting).  The text of expressions is modelled separately (`Model/Text`).
Index expressions and value expressions are separate sorts, see `Model/Algo`.
-/
namespace Whale

/-- Index-valued kernel expressions: variable, integer literal, binary operation (langspec.py:121, 130-143). -/
inductive KI
  | var (x : VName)
  | lit (c : Int)
  | bin (op : Ops) (l r : KI)
deriving DecidableEq, Repr, Inhabited

/-- Value kernel expressions; `zero b` is the literal `0` (b) or `0.0` (codegen.py:179), `read a i` is `a[i]`. -/
inductive KD
  | var (x : VName)
  | lit (c : Int)
  | zero (isInt : Bool)
  | un (op : Ops) (e : KD)
  | bin (op : Ops) (l r : KD)
  | read (a : VName) (idx : KI)
deriving DecidableEq, Repr, Inhabited

/-- Statements.  `initI`/`initD`: langspec `init` with dtype int64 / the kernel's dtype; `set`: `assign` to a variable;
`store i e`: `out[i] = e`; `loop`: a loop from 0 to `n` in steps of 1 with its execution mode; `ite`: if/else;
`guardRet c`: `if c: return`; `gpuIdx`: `int64_t x = blockIdx.d` / `threadIdx.d` (backend_cuda.py:22-23). -/
inductive Stmt
  | skip
  | seq (s t : Stmt)
  | initI (x : VName) (e : KI)
  | initD (dt : DType) (x : VName) (e : KD)
  | set (x : VName) (e : KD)
  | store (idx : KI) (e : KD)
  | loop (mode : LoopExec) (x : VName) (n : Int) (body : Stmt)
  | ite (c : KI) (t f : Stmt)
  | guardRet (c : KI)
  | gpuIdx (x : VName) (thread : Bool) (d : Dim3)
deriving DecidableEq, Repr, Inhabited

/-- A generated kernel: parameter list (`out` first, codegen.py:51-53) and body. -/
structure Kernel where
  params : List (VName × DType)
  body : Stmt
deriving DecidableEq, Repr, Inhabited

namespace Codegen
variable {V : Type}

/-- codegen.py:136-142: unary operations that can be rendered. -/
def renderUn : Ops → Bool
  | .Neg | .Sin | .Cos | .Exp | .Log | .Sqrt => true
  | _ => false

/-- codegen.py:152-166: binary operations that can be rendered. -/
def renderBin : Ops → Bool
  | .Add | .Sub | .Mul | .Truediv | .Floordiv | .Mod | .Pow | .And | .Or | .Eq | .Gt | .Ge | .Lt | .Le => true
  | _ => false

/-- codegen.py:121-131, 149-171: rendering of an index expression: emitted statements, resulting text, next temporary. -/
def genI : IExpr → Nat → Except Err (Stmt × KI × Nat)
  | .index l, n => pure (.skip, .var l.name, n)
  | .const c, n => pure (.skip, .lit c, n)
  | .bin op l r, n => do
    if renderBin op = false then throw .unknownOp
    let (s1, a, n) ← genI l n
    let (s2, b, n) ← genI r n
    pure (.seq s1 (.seq s2 (.initI (.tmp n) (.bin op a b))), .var (.tmp n), n + 1)

/-- `[self.render_expr(idx, args, dtype.int64) for idx in indices]` (codegen.py:239, 254) -/
def genIs : List IExpr → Nat → Except Err (Stmt × List KI × Nat)
  | [], n => pure (.skip, [], n)
  | e :: es, n => do
    let (s1, a, n) ← genI e n
    let (s2, as, n) ← genIs es n
    pure (.seq s1 s2, a :: as, n)

/-- `functools.reduce(l.add, terms)` for a non-empty list -/
def sumKI : KI → List KI → KI := List.foldl (fun x y => .bin .Add x y)

/-- codegen.py:39-41 `arr_idx_calc_expr` -/
def flatIdx (shape : List Int) (names : List KI) : KI :=
  if shape.isEmpty then .lit 0
  else match List.zipWith (fun a st => KI.bin .Mul a (.lit st)) names (stridesFromShape shape) with
    | [] => .lit 0      -- unreachable: as many names as dimensions
    | t :: ts => sumKI t ts

/-- codegen.py:242-243: address in a constant's buffer; terms with stride 0 are dropped. -/
def bufIdx (offset : Int) (strides : List Int) (names : List KI) : KI :=
  let terms := ((names.zip strides).filter (fun p => p.2 ≠ 0)).map (fun p => KI.bin .Mul p.1 (.lit p.2))
  sumKI (.lit offset) terms

/-- The arguments of a kernel: buffers of constants, then results of other functions (materialize.py:45,58 `bufs+fncs`). -/
structure Args where
  bufs : List Nat
  fncs : List Nat
deriving DecidableEq, Repr, Inhabited

/-- codegen.py:231-237: name of the argument holding constant `n`. -/
def bufName (args : Args) (n : Nat) : Except Err VName :=
  if n ∈ args.bufs then pure (.arg false (args.bufs.idxOf n)) else throw .assertion

/-- codegen.py:247-252: name of the argument holding the result of function `f`. -/
def fncName (args : Args) (f : Nat) : Except Err VName :=
  if f ∈ args.fncs then pure (.arg true (args.bufs.length + args.fncs.idxOf f)) else throw .assertion

/-- codegen.py:213-215, 224-226: the nested sequential loops of a reduction. -/
def redLoops : List LoopIndex → Stmt → Stmt
  | [], body => body
  | l :: ls, body => .loop .sequential l.name l.extent (redLoops ls body)

/-- codegen.py:121-254 `render_expr` for value expressions with result type `dt`: emitted statements, resulting
expression text, next temporary.  `tbl` gives `expr.func.out_shape`. -/
def genD (g : Graph V) (tbl : Tbl) (args : Args) (dt : DType) : DExpr → Nat → Except Err (Stmt × KD × Nat)
  | .const c, n => pure (.skip, .lit c, n)
  | .un op e, n => do
    if renderUn op = false then throw .unknownOp
    let (s, a, n) ← genD g tbl args dt e n
    pure (.seq s (.initD dt (.tmp n) (.un op a)), .var (.tmp n), n + 1)
  | .bin op l r, n => do
    if renderBin op = false then throw .unknownOp
    let (s1, a, n) ← genD g tbl args dt l n
    let (s2, b, n) ← genD g tbl args dt r n
    pure (.seq s1 (.seq s2 (.initD dt (.tmp n) (.bin op a b))), .var (.tmp n), n + 1)
  | .tern op c t f, n => do
    if op ≠ .Where then throw .unknownOp
    let res := VName.tmp n
    let (s1, c, n) ← genI c (n + 1)
    let (s2, a, n) ← genD g tbl args dt t n
    let (s3, b, n) ← genD g tbl args dt f n
    pure (.seq (.initD dt res (.zero dt.isInt)) (.seq s1 (.ite c (.seq s2 (.set res a)) (.seq s3 (.set res b)))), .var res, n)
  | .red op e reduced, n => do
    let (s, a, n) ← genD g tbl args dt e n
    if op ≠ .Sum then throw .unknownOp
    pure (.seq (.initD dt .acc (.zero true)) (redLoops reduced (.seq s (.set .acc (.bin .Add (.var .acc) a)))), .var .acc, n)
  | .func f idx, n => do
    let a ← fncName args f
    let (s, names, n) ← genIs idx n
    match tbl f with
    | none => throw .attrError
    | some F => pure (s, .read a (flatIdx F.outShape names), n)
  | .buf b idx, n => do
    let a ← bufName args b
    let (s, names, n) ← genIs idx n
    pure (s, .read a (bufIdx (g.offset b) (g.strides b) names), n)

/-- codegen.py:87-119 `render_loop`: the spatial loops around (or, for GPU indices, before) the rest of the kernel. -/
def genLoops : List LoopSched → Stmt → Stmt
  | [], body => body
  | l :: ls, body =>
    if l.kind ≠ .spatial then genLoops ls body
    else match l.exec with
      | .gpuBlock d => .seq (.gpuIdx l.lv.name false d) (genLoops ls body)
      | .gpuThread d => .seq (.gpuIdx l.lv.name true d) (genLoops ls body)
      | m => .loop m l.lv.name l.lv.extent (genLoops ls body)

/-- codegen.py:58-60 -/
def splitInits : List SplitLoop → Stmt
  | [] => .skip
  | sp :: r => .seq (.initI sp.orig.name (.bin .Add (.bin .Mul (.var sp.o.name) (.lit sp.factor)) (.var sp.i.name))) (splitInits r)

/-- codegen.py:62-68 -/
def splitGuards : List SplitLoop → Stmt
  | [] => .skip
  | sp :: r =>
    if sp.tailGuard then .seq (.guardRet (.bin .Le (.lit sp.orig.extent) (.var sp.orig.name))) (splitGuards r)
    else splitGuards r

/-- codegen.py:49-53: the parameter list. -/
def params (g : Graph V) (tbl : Tbl) (args : Args) (dt : DType) : List (VName × DType) :=
  (.out, dt) :: (args.bufs.zipIdx.map (fun p => (.arg false p.2, g.dtype p.1)) ++
    args.fncs.zipIdx.map (fun p => (.arg true (args.bufs.length + p.2), ((tbl p.1).map (·.outDtype)).getD .int64)))

/-- codegen.py:43-79 `codegen`; `n` is `tmpvar_idx`, which is never reset (codegen.py:24,34-37). -/
def codegen (g : Graph V) (tbl : Tbl) (f : Func) (sch : Schedule) (args : Args) (n : Nat) : Except Err (Kernel × Nat) := do
  let (s, res, n) ← genD g tbl args f.outDtype f.expr n
  let idx := flatIdx f.outShape (f.outLoops.map (fun l => KI.var l.name))
  let body := Stmt.seq (splitInits sch.splits) (.seq (splitGuards sch.splits) (.seq s (.store idx res)))
  pure ({ params := params g tbl args f.outDtype, body := genLoops sch.loops body }, n)

end Codegen

/-! ### Execution of kernels

The interpreter is partial: `none` means the program is stuck – reading an undeclared variable, declaring a variable
twice in nested scopes, an out-of-range access, reading an array that is not an input, division by zero, or using a
number of the wrong sort. -/

/-- A run-time value: an index or an element. -/
inductive Val (V : Type)
  | I (i : Int)
  | D (v : V)

abbrev KEnv (V : Type) := VName → Option (Val V)

namespace KEnv
variable {V : Type}
def set (σ : KEnv V) (x : VName) (v : Val V) : KEnv V := fun y => if y = x then some v else σ y
/-- Leaving a block: variables declared inside it disappear. -/
def leave (outer inner : KEnv V) : KEnv V := fun y => if (outer y).isSome then inner y else none
end KEnv

/-- The integer arithmetic of index expressions: Python's, C's, the strict one that is stuck where the two differ (used by C36 only), or the strict one that is also stuck when a
result is not between `-m` and `m` (used by C49 only). -/
inductive IntArith
  | python | c | strict | bounded (m : Int)
deriving DecidableEq, Repr, Inhabited

/-- The largest number the arithmetic can handle, if there is one. -/
def IntArith.lim : IntArith → Option Int
  | .bounded m => some m
  | _ => none

/-- What a kernel runs on: element arithmetic, integer arithmetic, input arrays by argument
name, the length of `out`, and, on a GPU, the indices of the current block and thread. -/
structure Machine (V : Type) where
  A : Scalar V
  ar : IntArith
  mem : VName → Option (List V)
  outLen : Nat
  gpu : Bool → Dim3 → Option Int

namespace Kern
variable {V : Type}

/-- Python integer operations as emitted by backend_python.py:33-46 (`//`, `%` floor; `and`/`or` return an operand;
comparisons give 0/1; `/` and `pow` do not occur on indices). -/
def pyOp : Ops → Int → Int → Option Int
  | .Add, a, b => some (a + b)
  | .Sub, a, b => some (a - b)
  | .Mul, a, b => some (a * b)
  | .Floordiv, a, b => if b = 0 then none else some (Int.fdiv a b)
  | .Mod, a, b => if b = 0 then none else some (Int.fmod a b)
  | .And, a, b => some (if a = 0 then a else b)
  | .Or, a, b => some (if a = 0 then b else a)
  | .Eq, a, b => some (if a = b then 1 else 0)
  | .Gt, a, b => some (if a > b then 1 else 0)
  | .Ge, a, b => some (if a ≥ b then 1 else 0)
  | .Lt, a, b => some (if a < b then 1 else 0)
  | .Le, a, b => some (if a ≤ b then 1 else 0)
  | _, _, _ => none

/-- C integer operations as emitted by langspec.py:130-143 (`/`, `%` truncate; `&&`/`||` give 0/1). -/
def cOp : Ops → Int → Int → Option Int
  | .Add, a, b => some (a + b)
  | .Sub, a, b => some (a - b)
  | .Mul, a, b => some (a * b)
  | .Floordiv, a, b => if b = 0 then none else some (Int.tdiv a b)
  | .Mod, a, b => if b = 0 then none else some (Int.tmod a b)
  | .And, a, b => some (if a ≠ 0 ∧ b ≠ 0 then 1 else 0)
  | .Or, a, b => some (if a ≠ 0 ∨ b ≠ 0 then 1 else 0)
  | .Eq, a, b => some (if a = b then 1 else 0)
  | .Gt, a, b => some (if a > b then 1 else 0)
  | .Ge, a, b => some (if a ≥ b then 1 else 0)
  | .Lt, a, b => some (if a < b then 1 else 0)
  | .Le, a, b => some (if a ≤ b then 1 else 0)
  | _, _, _ => none

/-- One index operation; the strict arithmetic has a result only where Python and C have the same one. -/
def iarith : IntArith → Ops → Int → Int → Option Int
  | .python, op, a, b => pyOp op a b
  | .c, op, a, b => cOp op a b
  | .strict, op, a, b => if pyOp op a b = cOp op a b then cOp op a b else none
  | .bounded m, op, a, b => if pyOp op a b = cOp op a b then (cOp op a b).filter (fun r => -m ≤ r ∧ r ≤ m) else none

def evalKI (ar : IntArith) (σ : KEnv V) : KI → Option Int
  | .var x => match σ x with
    | some (.I i) => some i
    | _ => none
  | .lit c => some c
  | .bin op l r => do
    let a ← evalKI ar σ l
    let b ← evalKI ar σ r
    iarith ar op a b

/-- `a[i]` with bounds check. -/
def fetch (l : List V) (i : Int) : Option V := if 0 ≤ i then l[i.toNat]? else none

def evalKD (m : Machine V) (σ : KEnv V) : KD → Option V
  | .var x => match σ x with
    | some (.D v) => some v
    | _ => none
  | .lit c => some (m.A.ofInt c)
  | .zero b => some (if b then m.A.ofInt 0 else m.A.fzero)
  | .un op e => do
    let v ← evalKD m σ e
    pure (m.A.un op v)
  | .bin op l r => do
    let a ← evalKD m σ l
    let b ← evalKD m σ r
    pure (m.A.bin op a b)
  | .read a idx => do
    let l ← m.mem a
    let i ← evalKI m.ar σ idx
    fetch l i

/-- State while running: variables, writes to `out` so far (address, value), whether the kernel has returned. -/
structure St (V : Type) where
  env : KEnv V
  writes : List (Int × V)
  ret : Bool

/-- Sequential execution (all loop modes in iteration order). -/
def exec (m : Machine V) : Stmt → KEnv V → Option (St V)
  | .skip, σ => some ⟨σ, [], false⟩
  | .seq s t, σ => do
    let r1 ← exec m s σ
    if r1.ret then pure r1 else do
      let r2 ← exec m t r1.env
      pure ⟨r2.env, r1.writes ++ r2.writes, r2.ret⟩
  | .initI x e, σ => do
    if (σ x).isSome then none
    let v ← evalKI m.ar σ e
    pure ⟨σ.set x (.I v), [], false⟩
  | .initD _ x e, σ => do
    if (σ x).isSome then none
    let v ← evalKD m σ e
    pure ⟨σ.set x (.D v), [], false⟩
  | .set x e, σ => do
    match σ x with
    | some (.D _) =>
      let v ← evalKD m σ e
      pure ⟨σ.set x (.D v), [], false⟩
    | _ => none
  | .store idx e, σ => do
    let i ← evalKI m.ar σ idx
    let v ← evalKD m σ e
    if 0 ≤ i ∧ i < m.outLen then pure ⟨σ, [(i, v)], false⟩ else none
  | .loop _ x n body, σ => do
    if (σ x).isSome then none
    (irange n).foldlM (fun (st : St V) i =>
      if st.ret then pure st else do
        let r ← exec m body (st.env.set x (.I i))
        pure ⟨KEnv.leave st.env r.env, st.writes ++ r.writes, r.ret⟩) ⟨σ, [], false⟩
  | .ite c t f, σ => do
    let b ← evalKI m.ar σ c
    let r ← if b ≠ 0 then exec m t σ else exec m f σ
    pure ⟨KEnv.leave σ r.env, r.writes, r.ret⟩
  | .guardRet c, σ => do
    let b ← evalKI m.ar σ c
    pure ⟨σ, [], b ≠ 0⟩
  | .gpuIdx x thread d, σ => do
    if (σ x).isSome then none
    let v ← m.gpu thread d
    pure ⟨σ.set x (.I v), [], false⟩

/-- Performing the writes on the output buffer. -/
def applyWrites (buf : List V) (ws : List (Int × V)) : List V := ws.foldl (fun b w => b.set w.1.toNat w.2) buf

end Kern
end Whale
