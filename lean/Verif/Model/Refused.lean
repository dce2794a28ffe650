import Verif.Model.Stale
import Verif.Model.Crash
/-
What is left behind when `materialize` raises in a session whose kernel cache has survived `backend.reset` (see Model/Stale): because an executor refuses a kernel of another one, or for any other
reason (see Model/Crash).  CPU backends.
-/
namespace Whale
open Mat Hist
variable {V : Type}
namespace Stale

/-- backend.py:33-38, materialize.py:49-55: the world in which an executor of a CPU backend is handed the kernel that it refuses: the hit has been counted (kernel.py:20-21) and all parameters have
been given buffers, those without data zeros. -/
def filled (A : Scalar V) (w : World V) (key : Key) (out : Nat) (ins : List Nat) : World V :=
  (out :: ins).foldl (fillCpu A) { w with hits := fun k => if k = key then w.hits k + 1 else w.hits k }

/-- materialize.py:44-68: one iteration of the loop over the functions, left by an exception; with the array (if any) whose kernel was handed to the executor.  `before`: before that; `cached`: while a kernel
from the cache was running; `compiled`: while a new kernel was running; `refused`: the executor refused a kernel from the cache. -/
inductive Part (t : Tbl) (fuel : Nat) (s : Sess V) (p : Nat × Schedule) : Option Nat → Sess V → Prop
  | before (n : Nat) : Part t fuel s p none { s with w := { s.w with tmp := n } }
  | cached {F : Func} {key : Key} {k : Engine} {py : Bool} {d : Option Nat} {w' : World V} : t p.1 = some F → cacheKey s.w.g t fuel F p.2 = .ok key → s.by_.lookup key = some k → s.e.runs k = some py →
      RunPart (if py then s.b.asPython else s.b) t fuel s.w p d w' → Part t fuel s p d { s with w := w' }
  | compiled {F : Func} {key : Key} {f : Nat} {w' : World V} : t p.1 = some F → cacheKey s.w.g t fuel F p.2 = .ok key → s.by_.lookup key = none →
      RunPart s.b t fuel s.w p (some f) w' → Part t fuel s p (some f) { s with w := w', by_ := s.by_ ++ [(key, s.e)] }
  | refused {F : Func} {outs : List Nat} {key : Key} {k : Engine} : t p.1 = some F → outBufs t (Algo.args F.expr).2 = .ok outs → cacheKey s.w.g t fuel F p.2 = .ok key → s.by_.lookup key = some k →
      s.e.runs k = none → Part t fuel s p (some F.outBuffer) { s with w := filled s.b.A s.w key F.outBuffer ((Algo.args F.expr).1 ++ outs) }

/-- materialize.py:15-68: `a.materialize()` left by an exception, as `Mat.Interrupted`. -/
inductive Interrupted (s : Sess V) : Nat → Option Nat → Sess V → Prop
  | early {a : Nat} : Interrupted s a none s
  | view {a x : Nat} {rest : List Nat} {d : Option Nat} {s' : Sess V} : (s.w.g.ctx a).op.isConst = false → (s.w.g.ctx a).op.isView = true → (s.w.g.ctx a).inputs = x :: rest →
      Interrupted s x d s' → Interrupted s a d s'
  | kernel {a : Nat} {d : Option Nat} {funcs : List Nat} {t : Tbl} {scheds : List Schedule} {pre post : List (Nat × Schedule)} {p : Nat × Schedule} {s1 s' : Sess V} :
      (s.w.g.ctx a).op.isConst = false → (s.w.g.ctx a).op.isView = false → Algo.convert s.w.g a = .ok (funcs, t) → schedAll s.b.isGpu t funcs = .ok scheds →
      funcs.zip scheds = pre ++ p :: post →
      pre.foldlM (runFunc t (a + 2)) { s with w := { s.w with log := s.w.log ++ (funcs.zip scheds).filterMap (plan1 s.w.g t (a + 2)) } } = .ok s1 →
      Part t (a + 2) s1 p d s' → Interrupted s a d s'

/-- materialize.py:44-68: where the loop over the functions is left if an executor refuses a kernel: the array that was to be computed, and the session. -/
def leftLoop (t : Tbl) (fuel : Nat) : Sess V → List (Nat × Schedule) → Option (Nat × Sess V)
  | _, [] => none
  | s, p :: ps =>
    match runFunc t fuel s p with
    | .ok s' => leftLoop t fuel s' ps
    | .error _ =>
      match t p.1 with
      | none => none
      | some F =>
        match outBufs t (Algo.args F.expr).2, cacheKey s.w.g t fuel F p.2 with
        | .ok outs, .ok key =>
          match s.by_.lookup key with
          | some k => if s.e.runs k = none then some (F.outBuffer, { s with w := filled s.b.A s.w key F.outBuffer ((Algo.args F.expr).1 ++ outs) }) else none
          | none => none
        | _, _ => none

/-- materialize.py:15-68: where `a.materialize()` is left if an executor refuses a kernel. -/
def left : Nat → Sess V → Nat → Option (Nat × Sess V)
  | 0, _, _ => none
  | fuel + 1, s, a =>
    if (s.w.g.ctx a).op.isConst then none
    else if (s.w.g.ctx a).op.isView then
      match (s.w.g.ctx a).inputs with
      | x :: _ => left fuel s x
      | [] => none
    else
      match Algo.convert s.w.g a with
      | .error _ => none
      | .ok (funcs, t) =>
        match schedAll s.b.isGpu t funcs with
        | .error _ => none
        | .ok scheds => leftLoop t (a + 2) { s with w := { s.w with log := s.w.log ++ (funcs.zip scheds).filterMap (plan1 s.w.g t (a + 2)) } } (funcs.zip scheds)

end Stale
end Whale
