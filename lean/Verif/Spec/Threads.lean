import Verif.Model.Threads
import Verif.Spec.Observe
import Verif.Spec.Related
/-
Vocabulary for C73: programs with several threads.
-/
namespace Whale
open Mat Hist
variable {V : Type}

/-- A fresh interpreter, in which no thread is in the middle of a `materialize`. -/
def Thr.init : TWorld V := ⟨Mat.init, fun _ => none⟩

/-- What happens in one step of a program with threads: thread `i` calls `a.materialize()`; thread `i` goes on with its `materialize`; the call `a.materialize()` of thread `i` returns; it is left by an exception; some other call is made by some thread. -/
inductive TEvent (V : Type)
  | began (i a : Nat)
  | worked (i : Nat)
  | returned (i a : Nat)
  | raised (i : Nat)
  | called (c : Call V)
  | stopped (a : Nat)

/-- One step.  A `materialize` call proceeds bit by bit (`adv` says what a bit is); other calls are one step.  `materialize.reset()` is only called when no `materialize` is under way.  (`backward` may be left in the middle, as in `Reachable`.) -/
inductive TStepBy (adv : Job V → World V → Except Err (Job V × World V)) (b : Backend V) (x : TWorld V) : TEvent V → TWorld V → Prop
  | begins {i a : Nat} {j : Job V} {w : World V} : x.job i = none → a < x.w.g.length → ArgsOK b x.w (.materialize a) → Thr.begin_ b a (a + 1) x.w a = .ok (j, w) →
      TStepBy adv b x (.began i a) ⟨w, upd x.job i j⟩
  | works {i : Nat} {j j' : Job V} {w : World V} : x.job i = some j → j.finished = false → adv j x.w = .ok (j', w) → TStepBy adv b x (.worked i) ⟨w, upd x.job i j'⟩
  | returns {i : Nat} {j : Job V} : x.job i = some j → j.finished = true → TStepBy adv b x (.returned i j.arr) ⟨x.w, fun k => if k = i then none else x.job k⟩
  | raises {i : Nat} : (x.job i).isSome → TStepBy adv b x (.raised i) ⟨x.w, fun k => if k = i then none else x.job k⟩
  | calls {c : Call V} {w : World V} : c.isMat = false → (c.isReset = true → ∀ i, x.job i = none) → Legal b x.w c → next b x.w c = some w → TStepBy adv b x (.called c) ⟨w, x.job⟩
  | stops {y : Nat} {w : World V} : y < x.w.g.length → ArgsOK b x.w (.backward y) → Bwd.Stopped b.A x.w y w → TStepBy adv b x (.stopped y) ⟨w, x.job⟩

/-- A program with threads, from `x` to `x'`, and what has happened, in order. -/
inductive TRunsBy (adv : Job V → World V → Except Err (Job V × World V)) (b : Backend V) (x : TWorld V) : List (TEvent V) → TWorld V → Prop
  | refl : TRunsBy adv b x [] x
  | step {x1 x' : TWorld V} {es : List (TEvent V)} {e : TEvent V} : TRunsBy adv b x es x1 → TStepBy adv b x1 e x' → TRunsBy adv b x (es ++ [e]) x'

/-- A bit is the lookup or generation of a kernel, its start, one of its stores, or its end (CPU backends). -/
abbrev TStep (b : Backend V) : TWorld V → TEvent V → TWorld V → Prop := TStepBy (Thr.advance b) b
abbrev TRuns (b : Backend V) : TWorld V → List (TEvent V) → TWorld V → Prop := TRunsBy (Thr.advance b) b

/-- A bit is a whole kernel (any backend). -/
abbrev KRuns (b : Backend V) : TWorld V → List (TEvent V) → TWorld V → Prop := TRunsBy (Thr.advanceWhole b) b

end Whale
