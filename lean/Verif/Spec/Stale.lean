import Verif.Model.Stale
import Verif.Spec.Observe
/-
Vocabulary for C65: programs that call `backend.reset(name)` and not `materialize.reset()`.
-/
namespace Whale
open Mat Hist
variable {V : Type}

/-- `b` is what executor `e` is: it runs kernels as their language prescribes. -/
structure Fits (e : Engine) (b : Backend V) : Prop where
  faithful : Faithful b
  gpu : b.isGpu = match e with | .cuda _ => true | _ => false
  c : b.isC = match e with | .python => false | _ => true

/-- A program that calls the API, catches exceptions, and calls `backend.reset(name)` at any time (`switch`), with the same assumptions as in `RunsB` (C52): the backends do the same arithmetic, and a GPU
backend is only started when no device memory is in use. -/
inductive RunsS (s : Sess V) : Sess V → Prop
  | refl : RunsS s s
  | call {s1 s' : Sess V} {c : Call V} : RunsS s s1 → (∃ e, Stale.step s1 c = .error e) ∨ ArgsOK s1.b s1.w c → Stale.next s1 c = some s' → RunsS s s'
  | stopped {s1 : Sess V} {w' : World V} {y : Nat} : RunsS s s1 → y < s1.w.g.length → ArgsOK s1.b s1.w (.backward y) → Bwd.Stopped s1.b.A s1.w y w' → RunsS s { s1 with w := w' }
  | switch {s1 : Sess V} {e : Engine} {b : Backend V} : RunsS s s1 → Fits e b → b.A = s1.b.A → (b.isGpu = true → ∀ i, s1.w.dev i = none) → RunsS s { s1 with e := e, b := b }

/-- What programs that start in a fresh interpreter, on any backend, can reach. -/
def ReachableS (s : Sess V) : Prop := ∃ e b, Fits e b ∧ RunsS ⟨e, b, Mat.init, []⟩ s

/-- Executor `e` refuses to run a kernel compiled for `k`. -/
def Refuses (e k : Engine) : Prop := e ≠ k ∧ ¬ (e = .clang ∧ k = .python)

/-- Computing `a` needs a kernel whose key is in the cache, compiled for an executor whose kernels the current one refuses. -/
def HitsForeign (s : Sess V) (a : Nat) : Prop := ∃ p ∈ launchLog s.b.isGpu s.w.g a, ∃ k, s.by_.lookup p.1 = some k ∧ Refuses s.e k

end Whale
