import Verif.Model.Ctypes
import Verif.Spec.Source
import Verif.Spec.Related
/-
Vocabulary for C70: sessions whose host numbers are Python numbers and whose kernels compute with C numbers.
-/
namespace Whale
open Mat Hist
variable {H V : Type}

/-- The session as compiled code sees it: every Python number replaced by the C number `f` of it. -/
def Cty.lower (f : H → V) (s : CWorld H V) : World V :=
  { g := s.w.g.mapData f, cpu := fun i => (s.w.cpu i).map (List.map f), dev := s.dev, grad := s.w.grad, cache := [], hits := fun _ => 0, hist := [], tmp := s.w.tmp, tick := s.w.tick, log := s.w.log,
    ev := [], epoch := s.w.epoch }

/-- The conversions suit the elements of dtype `dt`: converting forth and back changes no number; a Python number that is an element of that type is converted to itself; C numbers of that type are the
C numbers of Python numbers; zero can be converted; integers are integers in both; and the constants of the library are the same. -/
structure Marshal.Suits (C : Marshal H V) (f : H → V) (R : Runtime V) (dt : DType) : Prop where
  back : ∀ h, C.get (f h) = h
  out : ∀ v, Sem.Elem R.L R.N dt v → f (C.get v) = v
  put : ∀ h, Sem.Elem R.L R.N dt (f h) → C.put dt h = .ok (f h)
  zero : ∃ v, C.put dt (C.A.host 0) = .ok v
  isInt : ∀ h, C.A.isInt h = R.b.A.isInt (f h)
  consts : SameConstants (fun h v => v = f h) C.A R.b.A

/-- The calls considered: the domain of the other theorems; the numbers of `arange` are C numbers; arrays that are computed or read back after having been computed are made from arrays of one element
type (`dt`), whose elements are numbers of that type. -/
def Cty.ArgsOK (R : Runtime V) (C : Marshal H V) (f : H → V) (dt : DType) (s : CWorld H V) (c : Call H) : Prop :=
  Whale.ArgsOK R.b (Cty.lower f s) (c.map f) ∧ (∀ n, c = .arange n → ∀ i, 0 ≤ i → i < n → R.b.A.host i = f (C.A.host i)) ∧
  ∀ a, c = .materialize a ∨ c = .tolist a → Computed (Cty.lower f s).g (base (Cty.lower f s).g a) → OneType R.L R.N dt (Cty.lower f s).g (base (Cty.lower f s).g a)

/-- Programs in which every call returns (and `backward` may be left in the middle). -/
inductive CRuns (R : Runtime V) (C : Marshal H V) (f : H → V) (dt : DType) (s : CWorld H V) : CWorld H V → Prop
  | refl : CRuns R C f dt s s
  | call {s1 s' : CWorld H V} {c : Call H} {o : Out H} : CRuns R C f dt s s1 → Cty.ArgsOK R C f dt s1 c → Cty.step R C s1 c = .ok (o, s') → CRuns R C f dt s s'
  | stopped {s1 : CWorld H V} {w' : World H} {y : Nat} : CRuns R C f dt s s1 → y < s1.w.g.length → Whale.ArgsOK R.b (Cty.lower f s1) (.backward y) → Bwd.Stopped C.A s1.w y w' →
      CRuns R C f dt s { s1 with w := w' }

/-- The states that programs reach. -/
def CReachable (R : Runtime V) (C : Marshal H V) (f : H → V) (dt : DType) (s : CWorld H V) : Prop := CRuns R C f dt Cty.init s

/-- What a call returns, with every number replaced. -/
def Out.map {W : Type} (f : H → W) : Out H → Out W
  | .arr i => .arr i
  | .list l => .list (l.map f)
  | .unit => .unit

/-- The session `w` of which all other properties speak, in C numbers, is the session `s` as compiled code sees it: arrays, memory, gradients, the compiled sources. -/
structure CMatches (R : Runtime V) (f : H → V) (s : CWorld H V) (w : World V) : Prop where
  same : Cty.lower f s = { w with cache := [], hits := fun _ => 0, hist := [], ev := [] }
  texts : List.Forall₂ (fun x y => x.1 = y.1 ∧ Syntax.parse R.L x.2 = some (y.2.program R.L (Text.kernName (R.digest y.1)))) s.texts w.cache

/-- The C number that a Python number is. -/
def Sem.toC {S D : Type} : Sem.Py D → Sem.CVal S D
  | .int i => .i64 i
  | .flt x => .f64 x

/-- The integers in the arguments of a call fit into 64 bits. -/
def SmallCall {D : Type} (c : Call (Sem.Py D)) : Prop := (∀ i, .int i ∈ c.numbers → Int64 i) ∧ ∀ n, c = .arange n → n ≤ 9223372036854775808

/-- The same program, of integers that fit into 64 bits, has been run with the Clang or the CUDA backend and, with the same interpreter, with the Python backend `b`. -/
inductive CBoth {S D : Type} (R : Runtime (Sem.CVal S D)) (C : Marshal (Sem.Py D) (Sem.CVal S D)) (b : Backend (Sem.Py D)) (dt : DType) : CWorld (Sem.Py D) (Sem.CVal S D) → World (Sem.Py D) → Prop
  | init : CBoth R C b dt Cty.init Mat.init
  | call {s s' : CWorld (Sem.Py D) (Sem.CVal S D)} {w w' : World (Sem.Py D)} {c : Call (Sem.Py D)} {o o' : Out (Sem.Py D)} : CBoth R C b dt s w → SmallCall c →
      Cty.ArgsOK R C Sem.toC dt s c → Cty.step R C s c = .ok (o, s') → ArgsOK b w c → step b w c = .ok (o', w') → CBoth R C b dt s' w'

end Whale
