import Verif.Model.Refused
import Verif.Spec.Stale
import Verif.Spec.Crash
/-
Vocabulary for C66: programs that switch between the CPU backends without `materialize.reset()`, and go on when `materialize` raises.
-/
namespace Whale
open Mat Hist
variable {V : Type}

/-- A program that calls the API, calls `backend.reset(name)` for the Python and C backends at any time (`switch`), catches exceptions – also those out of the middle of `materialize` (`crash`; refused kernels are
one cause) and of `backward` (`stopped`) – and goes on.  `D` and `D'` are the arrays with incomplete data before and after, as in C51. -/
inductive RunsR (s : Sess V) (D : List Nat) : Sess V → List Nat → Prop
  | refl : RunsR s D s D
  | call {s1 s' : Sess V} {D1 : List Nat} {c : Call V} : RunsR s D s1 D1 → (∃ e, Stale.step s1 c = .error e) ∨ ArgsOK s1.b s1.w c → Stale.next s1 c = some s' → RunsR s D s' (repaired s1.w D1 c)
  | stopped {s1 : Sess V} {D1 : List Nat} {w' : World V} {y : Nat} : RunsR s D s1 D1 → y < s1.w.g.length → ArgsOK s1.b s1.w (.backward y) → Bwd.Stopped s1.b.A s1.w y w' → RunsR s D { s1 with w := w' } D1
  | crash {s1 s' : Sess V} {D1 : List Nat} {a : Nat} {d : Option Nat} : RunsR s D s1 D1 → a < s1.w.g.length → ArgsOK s1.b s1.w (.materialize a) → Stale.Interrupted s1 a d s' →
      RunsR s D s' (spoiled s1.w D1 d)
  | switch {s1 : Sess V} {D1 : List Nat} {e : Engine} {b : Backend V} : RunsR s D s1 D1 → Fits e b → b.isGpu = false → b.A = s1.b.A → RunsR s D { s1 with e := e, b := b } D1

/-- What programs that start in a fresh interpreter, on a CPU backend, can reach. -/
def ReachableR (s : Sess V) (D : List Nat) : Prop := ∃ e b, Fits e b ∧ b.isGpu = false ∧ RunsR ⟨e, b, Mat.init, []⟩ [] s D

end Whale
