import Verif.Model.Unfinished
import Verif.Spec.Source
/-
Vocabulary for C72: sessions in which generating a kernel may be interrupted.
-/
namespace Whale
open Mat Hist
variable {V : Type}

/-- The state of a fresh interpreter: the code generator has just been made (codegen.py:23). -/
def Unf.init : GWorld V := ⟨Src.init, 0⟩

/-- Sessions in which calls return, or `materialize` is left by an exception in the middle of generating a kernel. `P` restricts the calls (in the world where they are made). `clean`: the generator
is put in order after such an exception, which the code does not do. -/
inductive URuns (P : World V → Call V → Prop) (R : Runtime V) (clean : Bool) (x : GWorld V) : GWorld V → Prop
  | refl : URuns P R clean x x
  | call {x1 x' : GWorld V} {c : Call V} {o : Out V} : URuns P R clean x x1 → P x1.s.w c → Unf.step R x1 c = .ok (o, x') → URuns P R clean x x'
  | stopped {x1 x' : GWorld V} {a : Nat} : URuns P R clean x x1 → a < x1.s.w.g.length → P x1.s.w (.materialize a) → Unf.Stopped R clean x1 a x' → URuns P R clean x x'

/-- Two sessions no call can tell apart: the same arrays, buffers, gradients and counters; in the caches, for the same keys, sources with the same syntax tree. -/
structure Alike (L : Lang) (s s' : SWorld V) : Prop where
  same : s.w = s'.w
  texts : List.Forall₂ (fun x y => x.1 = y.1 ∧ Syntax.parse L x.2 = Syntax.parse L y.2) s.texts s'.texts

/-- The same exception, or the same result and sessions no call can tell apart. -/
def SameStep (L : Lang) : Except SErr (Out V × GWorld V) → Except SErr (Out V × GWorld V) → Prop
  | .error e, .error e' => e = e'
  | .ok (o, x), .ok (o', x') => o = o' ∧ Alike L x.s x'.s
  | _, _ => False

end Whale
