import Verif.Spec.Semantics
/-
The numbers of Python and C, over any floating point arithmetic: how `Num` of `Spec/Semantics` is meant.
-/
namespace Whale.Sem
open Whale Syntax

/-- A floating point format. `none`: an exception (Python), or no value. -/
structure Floats (F : Type) where
  ofInt : Int → Option F
  dec : Nat → Nat → F
  neg : F → F
  bin : BOp → F → F → Option F
  cmp : BOp → F → F → Bool
  fn : Str → List F → Option F
  isZero : F → Bool
  trunc : F → Option Int

/-- A floating point format whose operations and functions always have a result, as those of IEEE 754 do (infinity and "not a number" are results). -/
structure Complete {F : Type} (O : Floats F) : Prop where
  ofInt : ∀ i, (O.ofInt i).isSome
  bin : ∀ op x y, op = .add ∨ op = .sub ∨ op = .mul ∨ op = .div → (O.bin op x y).isSome
  fn : ∀ f x, f ∈ functions → (O.fn f [x]).isSome
  pow : ∀ x y, (O.fn "pow".toList [x, y]).isSome

def isCmp : BOp → Bool
  | .eq | .gt | .ge | .lt | .le => true
  | _ => false

/-- Python numbers: unbounded integers and floating point numbers. -/
inductive Py (F : Type)
  | int (i : Int)
  | flt (x : F)
deriving DecidableEq, Repr

variable {F S D : Type}

def Py.toFloat (O : Floats F) : Py F → Option F
  | .int i => O.ofInt i
  | .flt x => some x

/-- Python: integers stay integers under all operators but `/`; other operands are converted to floating point; an integer to a non-negative integer power is an integer. -/
def pyNum (O : Floats F) : Num (Py F) where
  int n := some (.int n)
  dec a b := some (.flt (O.dec a b))
  neg
    | .int i => some (.int (-i))
    | .flt x => some (.flt (O.neg x))
  bin op a b := match a, b with
    | .int i, .int j => if op = .div then (do
          if j = 0 then none
          let r ← O.bin .div (← O.ofInt i) (← O.ofInt j)
          pure (.flt r))
        else (intBin .python op i j).map .int
    | a, b => do
      let x ← a.toFloat O
      let y ← b.toFloat O
      if isCmp op then pure (.int (if O.cmp op x y then 1 else 0)) else (O.bin op x y).map .flt
  call f args := match f, args with
    | ['p', 'o', 'w'], [.int i, .int j] => if 0 ≤ j then some (.int (i ^ j.toNat)) else (do
        let r ← O.fn f [← O.ofInt i, ← O.ofInt j]
        pure (.flt r))
    | f, args => do
      let xs ← args.mapM (Py.toFloat O)
      (O.fn f xs).map .flt
  truth
    | .int i => decide (i ≠ 0)
    | .flt x => !O.isZero x
  asInt
    | .int i => some i
    | .flt _ => none
  cast _ _ := none

/-- C numbers of the types `int`, `int64_t`, `float`, `double`. -/
inductive CVal (S D : Type)
  | i32 (i : Int)
  | i64 (i : Int)
  | f32 (x : S)
  | f64 (x : D)
deriving DecidableEq, Repr

/-- The two floating point formats of C and the conversions between them. -/
structure CFloats (S D : Type) where
  single : Floats S
  double : Floats D
  widen : S → D
  narrow : D → S

/-- An integer in 32 bits, in 64 bits: a result that does not fit is undefined. -/
def CVal.in32 (i : Int) : Option (CVal S D) := if -2147483648 ≤ i ∧ i < 2147483648 then some (.i32 i) else none
def CVal.in64 (i : Int) : Option (CVal S D) := if -9223372036854775808 ≤ i ∧ i < 9223372036854775808 then some (.i64 i) else none

def CVal.toDouble (O : CFloats S D) : CVal S D → Option D
  | .i32 i => O.double.ofInt i
  | .i64 i => O.double.ofInt i
  | .f32 x => some (O.widen x)
  | .f64 x => some x

def CVal.toSingle (O : CFloats S D) : CVal S D → Option S
  | .i32 i => O.single.ofInt i
  | .i64 i => O.single.ofInt i
  | .f32 x => some x
  | .f64 x => some (O.narrow x)

def CVal.isDouble : CVal S D → Bool
  | .f64 _ => true
  | _ => false

def CVal.isSingle : CVal S D → Bool
  | .f32 _ => true
  | _ => false

/-- Floating point operands: comparisons give an `int`. -/
def CVal.bin (O : CFloats S D) (op : BOp) (a b : CVal S D) : Option (CVal S D) :=
  if a.isDouble || b.isDouble then do
    let x ← a.toDouble O
    let y ← b.toDouble O
    if isCmp op then pure (.i32 (if O.double.cmp op x y then 1 else 0)) else (O.double.bin op x y).map .f64
  else do
    let x ← a.toSingle O
    let y ← b.toSingle O
    if isCmp op then pure (.i32 (if O.single.cmp op x y then 1 else 0)) else (O.single.bin op x y).map .f32

/-- C: operands are converted to the larger of their types; signed overflow is undefined, and so is a floating point number converted to an integer type it does not fit in.
The functions of `math.h` compute with `double`; with `overload` (CUDA C++) those of `float` arguments with `float`. -/
def cNum (overload : Bool) (O : CFloats S D) : Num (CVal S D) where
  int n := if n < 2147483648 then some (.i32 n) else if n < 9223372036854775808 then some (.i64 n) else none
  dec a b := some (.f64 (O.double.dec a b))
  neg
    | .i32 i => CVal.in32 (-i)
    | .i64 i => CVal.in64 (-i)
    | .f32 x => some (.f32 (O.single.neg x))
    | .f64 x => some (.f64 (O.double.neg x))
  bin op a b := match a, b with
    | .i32 i, .i32 j => (intBin .clang op i j).bind CVal.in32
    | .i32 i, .i64 j => (intBin .clang op i j).bind fun r => if isCmp op then CVal.in32 r else CVal.in64 r
    | .i64 i, .i32 j => (intBin .clang op i j).bind fun r => if isCmp op then CVal.in32 r else CVal.in64 r
    | .i64 i, .i64 j => (intBin .clang op i j).bind fun r => if isCmp op then CVal.in32 r else CVal.in64 r
    | a, b => CVal.bin O op a b
  call f args :=
    if overload && args.all CVal.isSingle then do
      let xs ← args.mapM (CVal.toSingle O)
      (O.single.fn f xs).map .f32
    else do
      let xs ← args.mapM (CVal.toDouble O)
      (O.double.fn f xs).map .f64
  truth
    | .i32 i => decide (i ≠ 0)
    | .i64 i => decide (i ≠ 0)
    | .f32 x => !O.single.isZero x
    | .f64 x => !O.double.isZero x
  asInt
    | .i32 i => some i
    | .i64 i => some i
    | _ => none
  cast t a :=
    if t = "int".toList ∨ t = "int32_t".toList then (match a with
      | .i32 i => CVal.in32 i
      | .i64 i => CVal.in32 i
      | .f32 x => (O.single.trunc x).bind CVal.in32
      | .f64 x => (O.double.trunc x).bind CVal.in32)
    else if t = "int64_t".toList then (match a with
      | .i32 i => CVal.in64 i
      | .i64 i => CVal.in64 i
      | .f32 x => (O.single.trunc x).bind CVal.in64
      | .f64 x => (O.double.trunc x).bind CVal.in64)
    else if t = "float".toList then (a.toSingle O).map .f32
    else if t = "double".toList then (a.toDouble O).map .f64
    else none

/-- The element arithmetic of the model that numbers of a language give rise to: operations and literals, with their result converted to the element type; `junk` where
there is no result. Python numbers put into constant arrays by the library have the element type `int64` or `float64`. -/
def scalarOf {V : Type} (L : Lang) (N : Num V) (dt : DType) (junk : V) : Scalar V where
  ofInt i := ((intV N i).bind (convert N (elemType L dt))).getD junk
  fone := ((N.dec 1 0).bind (convert N (elemType L .float64))).getD junk
  host i := ((intV N i).bind (convert N (elemType L .int64))).getD junk
  isInt v := (N.asInt v).isSome
  un op a := ((unVal N op a).bind (convert N (elemType L dt))).getD junk
  bin op a b := ((binVal L N op a b).bind (convert N (elemType L dt))).getD junk
  fzero := ((N.dec 0 0).bind (convert N (elemType L dt))).getD junk

/-- Rational numbers in place of floating point numbers, for examples. -/
def rat : Floats Rat where
  ofInt i := some i
  dec a _ := a
  neg x := -x
  bin op x y := match op with
    | .add => some (x + y)
    | .sub => some (x - y)
    | .mul => some (x * y)
    | .div => if y = 0 then none else some (x / y)
    | _ => none
  cmp op x y := match op with
    | .eq => decide (x = y)
    | .gt => decide (x > y)
    | .ge => decide (x ≥ y)
    | .lt => decide (x < y)
    | .le => decide (x ≤ y)
    | _ => false
  fn _ _ := none
  isZero x := decide (x = 0)
  trunc x := some (x.num.tdiv x.den)

end Whale.Sem
