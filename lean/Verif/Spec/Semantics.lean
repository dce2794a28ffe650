import Verif.Spec.Syntax
import Verif.Spec.Reach
import Verif.Model.Parallel
/-
Specification vocabulary for C48: what it means to run a program of the subset of Python, C and CUDA C++ of `Spec/Syntax`, one statement after the other.

The semantics is that of the languages, not of the code generator: Python variables are local to the function and untyped, negative list positions count from the end, `and` and `or`
return an operand; C variables are typed, live to the end of their block, values are converted when stored into a variable or an array, `&&` and `||` give 0 or 1.
What the operators do to numbers is a parameter (`Num`).  Where the semantics does not say what happens – an undefined name, a position outside an array, a variable declared
again – the program is `stuck`; a number operation without a result (division by zero, a logarithm of a negative number, an overflow that is undefined in C) is `arith`.
-/
namespace Whale.Sem
open Whale Syntax

/-- Why a program stopped. -/
inductive Fault
  | arith | stuck
deriving DecidableEq, Repr

/-- The numbers of a language: integer and decimal literals, negation, binary operators, functions, truth, the integer a number is (to be used as a position), and conversion to
a type of C. `none`: no result. -/
structure Num (V : Type) where
  int : Nat → Option V
  dec : Nat → Nat → Option V
  neg : V → Option V
  bin : BOp → V → V → Option V
  call : Str → List V → Option V
  truth : V → Bool
  asInt : V → Option Int
  cast : Str → V → Option V

/-- An integer as a number. -/
def intV {V : Type} (N : Num V) (i : Int) : Option V := if i < 0 then (N.int i.natAbs).bind N.neg else N.int i.natAbs

/-- What a name stands for, with its declared type: a number or an array of numbers. -/
inductive Obj (V : Type)
  | num (ty : Option Str) (v : V)
  | arr (ty : Option Str) (l : List V)

abbrev Env (V : Type) := Str → Option (Obj V)

/-- What a program runs on: its language, the numbers, what it imports and, on a GPU, the position of the thread (`blockIdx`, `threadIdx`). -/
structure Ctx (V : Type) where
  L : Lang
  N : Num V
  imports : List Str
  gpu : Str → Str → Option Int

variable {V : Type}

def Env.set (ρ : Env V) (x : Str) (o : Obj V) : Env V := fun y => if y = x then some o else ρ y

/-- The end of a block: in C the variables declared in it disappear, in Python they do not. -/
def leave (L : Lang) (outer inner : Env V) : Env V := if L = .python then inner else fun y => if (outer y).isSome then inner y else none

def lift (o : Option V) : Except Fault V := match o with
  | some v => .ok v
  | none => .error .arith

def one : List V → Except Fault V
  | [v] => .ok v
  | _ => .error .stuck

def functions : List Str := ["sin".toList, "cos".toList, "exp".toList, "log".toList, "sqrt".toList]

/-- The function a callee denotes. A variable of that name would hide it. -/
def callee (c : Ctx V) (ρ : Env V) : Ex → Option Str
  | .name f =>
    if (ρ f).isSome then none
    else if c.L = .python then (if f = "pow".toList then some f else none)
    else if "include <math.h>".toList ∈ c.imports ∧ (f = "pow".toList ∨ f ∈ functions) then some f else none
  | .member (.name m) f =>
    if c.L = .python ∧ m = "math".toList ∧ m ∈ c.imports ∧ (ρ m).isNone ∧ f ∈ functions then some f else none
  | _ => none

/-- The element of an array at a position, if there is one. -/
def position (L : Lang) (n : Nat) (i : Int) : Option Nat :=
  if 0 ≤ i then (if i < n then some i.toNat else none)
  else if L = .python ∧ 0 ≤ (n : Int) + i then some ((n : Int) + i).toNat
  else none

/-- The values of an expression: one, or several if it is a list of arguments. -/
def evals (c : Ctx V) (ρ : Env V) : Ex → Except Fault (List V)
  | .name x => match ρ x with
    | some (.num _ v) => .ok [v]
    | _ => .error .stuck
  | .int n => do pure [← lift (c.N.int n)]
  | .dec a b => do pure [← lift (c.N.dec a b)]
  | .neg e => do
    let v ← one (← evals c ρ e)
    pure [← lift (c.N.neg v)]
  | .bin .comma l r => do
    let a ← evals c ρ l
    let b ← one (← evals c ρ r)
    pure (a ++ [b])
  | .bin .and l r => do
    let a ← one (← evals c ρ l)
    if c.L = .python then (if c.N.truth a then do pure [← one (← evals c ρ r)] else pure [a])
    else if c.N.truth a then do
      let b ← one (← evals c ρ r)
      pure [← lift (c.N.int (if c.N.truth b then 1 else 0))]
    else do pure [← lift (c.N.int 0)]
  | .bin .or l r => do
    let a ← one (← evals c ρ l)
    if c.L = .python then (if c.N.truth a then pure [a] else do pure [← one (← evals c ρ r)])
    else if c.N.truth a then do pure [← lift (c.N.int 1)]
    else do
      let b ← one (← evals c ρ r)
      pure [← lift (c.N.int (if c.N.truth b then 1 else 0))]
  | .bin op l r => do
    let a ← one (← evals c ρ l)
    let b ← one (← evals c ρ r)
    pure [← lift (c.N.bin op a b)]
  | .app f a => match callee c ρ f with
    | none => .error .stuck
    | some f => do
      let vs ← evals c ρ a
      pure [← lift (c.N.call f vs)]
  | .index (.name a) i => match ρ a with
    | some (.arr _ l) => do
      let k ← one (← evals c ρ i)
      match (c.N.asInt k).bind (position c.L l.length) with
      | some p => match l[p]? with
        | some v => .ok [v]
        | none => .error .stuck
      | none => .error .stuck
    | _ => .error .stuck
  | .index _ _ => .error .stuck
  | .member (.name s) d =>
    if c.L = .cuda ∧ (ρ s).isNone then match c.gpu s d with
      | some i => do pure [← lift (intV c.N i)]
      | none => .error .stuck
    else .error .stuck
  | .member _ _ => .error .stuck

/-- The value of an expression. -/
def eval (c : Ctx V) (ρ : Env V) (e : Ex) : Except Fault V := do one (← evals c ρ e)

def evalInt (c : Ctx V) (ρ : Env V) (e : Ex) : Except Fault Int := do
  match c.N.asInt (← eval c ρ e) with
  | some i => .ok i
  | none => .error .stuck

/-- Conversion to a declared type, if there is one. -/
def convert (N : Num V) (ty : Option Str) (v : V) : Option V := match ty with
  | none => some v
  | some t => N.cast t v

/-- The integers from `lo` (included) to `hi` (excluded) in steps of `st`. -/
def rangeList (lo hi st : Int) : List Int :=
  if 0 < st then (List.range ((hi - lo + st - 1) / st).toNat).map fun (k : Nat) => lo + k * st
  else (List.range ((lo - hi - st - 1) / (-st)).toNat).map fun (k : Nat) => lo + k * st

/-- Integer literals. -/
def isLit : Ex → Bool
  | .int _ => true
  | .neg (.int _) => true
  | _ => false

/-- One pass through the body of a loop. In C the body must not change the loop variable (in the subset a loop counts from one literal to another). -/
def pass (c : Ctx V) (ty : Option Str) (x : Str) (body : Env V → Except Fault (Env V × Bool)) (st : Env V × Bool) (i : Int) : Except Fault (Env V × Bool) :=
  if st.2 then .ok st
  else do
    let v ← lift ((intV c.N i).bind (convert c.N ty))
    let r ← body (st.1.set x (.num ty v))
    if r.2 = true ∨ c.L = .python then pure (leave c.L st.1 r.1, r.2)
    else match r.1 x with
      | some (.num _ v) => if c.N.asInt v = some i then pure (leave c.L st.1 r.1, r.2) else .error .stuck
      | _ => .error .stuck

/-- Running statements: the variables at the end, and whether the function returned. -/
def run (c : Ctx V) : Sx → Env V → Except Fault (Env V × Bool)
  | .done, ρ => .ok (ρ, false)
  | .ret _, ρ => .ok (ρ, true)
  | .decl ty x e k, ρ =>
    if c.L = .python ∨ (ρ x).isSome then .error .stuck
    else do
      let v ← lift (c.N.cast ty (← eval c ρ e))
      run c k (ρ.set x (.num (some ty) v))
  | .assign (.name x) e k, ρ =>
    if c.L = .python then do
      let v ← eval c ρ e
      run c k (ρ.set x (.num none v))
    else match ρ x with
      | some (.num ty _) => do
        let v ← lift (convert c.N ty (← eval c ρ e))
        run c k (ρ.set x (.num ty v))
      | _ => .error .stuck
  | .assign (.index (.name a) i) e k, ρ => match ρ a with
    | some (.arr ty l) => do
      let v ← eval c ρ e
      let i ← evalInt c ρ i
      let v ← lift (convert c.N ty v)
      match position c.L l.length i with
      | some p => run c k (ρ.set a (.arr ty (l.set p v)))
      | none => .error .stuck
    | _ => .error .stuck
  | .assign _ _ _, _ => .error .stuck
  | .cond e t f k, ρ => do
    let v ← eval c ρ e
    let r ← if c.N.truth v then run c t ρ else run c f ρ
    if r.2 then pure (leave c.L ρ r.1, true) else run c k (leave c.L ρ r.1)
  | .loop _ ty x lo hi st b k, ρ =>
    if c.L ≠ .python ∧ ((ρ x).isSome ∨ isLit lo = false ∨ isLit hi = false ∨ isLit st = false) then .error .stuck
    else do
      let lo ← evalInt c ρ lo
      let hi ← evalInt c ρ hi
      let st ← evalInt c ρ st
      if st ≤ 0 ∧ (c.L ≠ .python ∨ st = 0) then .error .stuck
      let r ← (rangeList lo hi st).foldlM (pass c ty x (fun ρ => run c b ρ)) (ρ, false)
      if r.2 then pure r else run c k r.1

/-- The variables a function starts with: its parameters, which are arrays. -/
def start : List (Option Str × Str) → List (List V) → Env V
  | p :: ps, l :: ls => (start ps ls).set p.2 (.arr p.1 l)
  | _, _ => fun _ => none

/-- Calling the function of a program with arrays: the contents of the first one afterwards. -/
def call (L : Lang) (N : Num V) (gpu : Str → Str → Option Int) (p : Prog) (arrays : List (List V)) : Except Fault (List V) :=
  if p.params.length = arrays.length ∧ (p.params.map (·.2)).Nodup then do
    let r ← run ⟨L, N, p.imports, gpu⟩ p.body (start p.params arrays)
    match p.params with
    | [] => .error .stuck
    | (_, x) :: _ => match r.1 x with
      | some (.arr _ l) => .ok l
      | _ => .error .stuck
  else .error .stuck

/-! ### What is assumed about the numbers -/

/-- Integer operators: `//` and `%` round down in Python, `/` and `%` round towards zero in C; `/` of integers is no integer in Python; comparisons give a truth value. -/
def intBin : Lang → BOp → Int → Int → Option Int
  | _, .add, a, b => some (a + b)
  | _, .sub, a, b => some (a - b)
  | _, .mul, a, b => some (a * b)
  | .python, .idiv, a, b => if b = 0 then none else some (a.fdiv b)
  | .python, .mod, a, b => if b = 0 then none else some (a.fmod b)
  | .python, .div, _, _ => none
  | _, .div, a, b => if b = 0 then none else some (a.tdiv b)
  | _, .mod, a, b => if b = 0 then none else some (a.tmod b)
  | _, .eq, a, b => some (if a = b then 1 else 0)
  | _, .gt, a, b => some (if a > b then 1 else 0)
  | _, .ge, a, b => some (if a ≥ b then 1 else 0)
  | _, .lt, a, b => some (if a < b then 1 else 0)
  | _, .le, a, b => some (if a ≤ b then 1 else 0)
  | _, _, _, _ => none

/-- Among the numbers, the integers behave like integers: an operation may have no result (overflow), but it has no wrong one. -/
structure IntLaws (L : Lang) (N : Num V) : Prop where
  int : ∀ n v, N.int n = some v → N.asInt v = some (n : Int)
  neg : ∀ a i v, N.asInt a = some i → N.neg a = some v → N.asInt v = some (-i)
  bin : ∀ op a b i j r v, N.asInt a = some i → N.asInt b = some j → intBin L op i j = some r → N.bin op a b = some v → N.asInt v = some r
  truth : ∀ a i, N.asInt a = some i → N.truth a = decide (i ≠ 0)
  cast : ∀ t a i v, t = "int".toList ∨ t = "int64_t".toList → N.asInt a = some i → N.cast t a = some v → N.asInt v = some i

/-- The declared type of the elements of a kernel of type `dt`. -/
def elemType (L : Lang) (dt : DType) : Option Str := if L = .python then none else some (LangSpec.typename dt)

/-- The numbers an element can be: converting them to the element type changes nothing. -/
def Elem (L : Lang) (N : Num V) (dt : DType) (v : V) : Prop := convert N (elemType L dt) v = some v

/-- One unary operation in the language. -/
def unVal (N : Num V) (op : Ops) (a : V) : Option V := if op = .Neg then N.neg a else N.call (fnName op) [a]

/-- One binary operation in the language (`and` and `or` return an operand in Python, a truth value in C). -/
def binVal (L : Lang) (N : Num V) (op : Ops) (a b : V) : Option V :=
  if op = .Pow then N.call "pow".toList [a, b]
  else if op = .And then (if L = .python then some (if N.truth a then b else a) else N.int (if N.truth a && N.truth b then 1 else 0))
  else if op = .Or then (if L = .python then some (if N.truth a then a else b) else N.int (if N.truth a || N.truth b then 1 else 0))
  else N.bin (opOf L op) a b

/-- The element arithmetic `A` of the model is that of the language, for elements of type `dt`: wherever the language has a result, converted to that type, it is that of `A`. -/
structure Agrees (L : Lang) (N : Num V) (dt : DType) (A : Scalar V) : Prop where
  conv : ∀ a v, convert N (elemType L dt) a = some v → Elem L N dt v
  int : ∀ i v, (intV N i).bind (convert N (elemType L dt)) = some v → A.ofInt i = v
  dec : ∀ v, (N.dec 0 0).bind (convert N (elemType L dt)) = some v → A.fzero = v
  un : ∀ op a v, Elem L N dt a → (unVal N op a).bind (convert N (elemType L dt)) = some v → A.un op a = v
  bin : ∀ op a b v, Elem L N dt a → Elem L N dt b → (binVal L N op a b).bind (convert N (elemType L dt)) = some v → A.bin op a b = v

/-- No operation fails: the integers with property `B` are numbers and operations on integers with a result of that property have it; zero is an element, and the element
operations `ops` always have a result. -/
structure Total (L : Lang) (N : Num V) (dt : DType) (B : Int → Prop) (ops : Ops → Prop) : Prop where
  int : ∀ i, B i → (intV N i).isSome
  intBin : ∀ op a b i j r, N.asInt a = some i → N.asInt b = some j → intBin L op i j = some r → B r → (N.bin op a b).isSome
  cast : ∀ t a i, t = "int".toList ∨ t = "int64_t".toList → N.asInt a = some i → B i → (N.cast t a).isSome
  lit : ((intV N 0).bind (convert N (elemType L dt))).isSome
  dec : ((N.dec 0 0).bind (convert N (elemType L dt))).isSome
  un : ∀ op a, ops op → op.isUnary = true → Elem L N dt a → ((unVal N op a).bind (convert N (elemType L dt))).isSome
  bin : ∀ op a b, ops op → op.isBinary = true → Elem L N dt a → Elem L N dt b → ((binVal L N op a b).bind (convert N (elemType L dt))).isSome

/-- The part of `Total` about elements: zero is an element, and the operations `ops` on elements always have a result. -/
structure ElementsTotal (L : Lang) (N : Num V) (dt : DType) (ops : Ops → Prop) : Prop where
  lit : ((intV N 0).bind (convert N (elemType L dt))).isSome
  dec : ((N.dec 0 0).bind (convert N (elemType L dt))).isSome
  un : ∀ op a, ops op → op.isUnary = true → Elem L N dt a → ((unVal N op a).bind (convert N (elemType L dt))).isSome
  bin : ∀ op a b, ops op → op.isBinary = true → Elem L N dt a → Elem L N dt b → ((binVal L N op a b).bind (convert N (elemType L dt))).isSome

/-- The operations on elements that one array is defined by. -/
def elementOps : Whale.Ctx → List Ops
  | .unary op _ => [op]
  | .binary op _ _ => [op]
  | .sum .. => [.Add]
  | _ => []

/-- The operations on elements that computing array `a` can take. -/
def Uses (g : Graph V) (a : Nat) (op : Ops) : Prop := ∃ i, Reach g a i ∧ op ∈ elementOps (g.ctx i)

/-- What the variables `blockIdx` and `threadIdx` hold in a thread. -/
def threadVars (t : Kern.Thread) (s d : Str) : Option Int :=
  if s = "blockIdx".toList then (dimOf d).map t.block else if s = "threadIdx".toList then (dimOf d).map t.thread else none
where
  dimOf (d : Str) : Option Dim3 := if d = "x".toList then some .x else if d = "y".toList then some .y else if d = "z".toList then some .z else none

end Whale.Sem
