import Verif.Model.Source
import Verif.Model.Writer
/-
Sessions of source texts (`Model/Source`) with the code generator as the object it is (`Model/Writer`): it is created with the backend and keeps its indentation level from call to call.  Generating a kernel may be
stopped between any two of its actions by an exception that the program catches (Ctrl-C, MemoryError, RecursionError).
-/
namespace Whale
open Mat Hist
variable {V : Type}

/-- The state of a session, with `indent_level` of the code generator of the backend (codegen.py:23).  (`tmpvar_idx` is in `s.w.tmp`; `buff` is emptied by every `codegen`, codegen.py:44.) -/
structure GWorld (V : Type) where
  s : SWorld V
  ind : Nat

namespace Unf

/-- materialize.py:44-68: one iteration of the loop over the functions, as `Src.runFunc`. -/
def runFunc (R : Runtime V) (t : Tbl) (fuel : Nat) (x : GWorld V) (p : Nat × Schedule) : Except SErr (GWorld V) :=
  match t p.1 with
  | none => .error (.err .attrError)
  | some F => do
    let bufs := (Algo.args F.expr).1
    let fncs := (Algo.args F.expr).2
    let outs ← Src.lift (outBufs t fncs)
    let key ← Src.lift (cacheKey x.s.w.g t fuel F p.2)
    match x.s.texts.lookup key with
    | some text => do
      let s ← Src.invoke R x.s p.2 text F.outBuffer (bufs ++ outs)
      pure { x with s := s }
    | none =>
      match (Gen.codegen R.L (Text.kernName (R.digest key)) x.s.w.g t F p.2 ⟨bufs, fncs⟩).run ⟨[], x.ind, x.s.w.tmp⟩ with
      | (.error e, _) => .error (.err e)
      | (.ok text, o) => do
        let s ← Src.invoke R { w := { x.s.w with tmp := o.tmp }, texts := x.s.texts ++ [(key, text)] } p.2 text F.outBuffer (bufs ++ outs)
        pure { s := s, ind := o.ind }

/-- materialize.py:15-68 `materialize`, as `Src.materializeF` -/
def materializeF (R : Runtime V) : Nat → GWorld V → Nat → Except SErr (GWorld V)
  | 0, _, _ => .error (.err .recursion)
  | fuel + 1, x, a =>
    if (x.s.w.g.ctx a).op.isConst then .ok x
    else if (x.s.w.g.ctx a).op.isView then
      match (x.s.w.g.ctx a).inputs with
      | y :: _ => materializeF R fuel x y
      | [] => .error (.err .indexError)
    else do
      let (funcs, t) ← Src.lift (Algo.convert x.s.w.g a)
      let scheds ← Src.lift (schedAll R.b.isGpu t funcs)
      (funcs.zip scheds).foldlM (runFunc R t (a + 2)) { x with s := { x.s with w := { x.s.w with log := x.s.w.log ++ (funcs.zip scheds).filterMap (plan1 x.s.w.g t (a + 2)) } } }

/-- materialize.py:117-118 -/
def materialize (R : Runtime V) (x : GWorld V) (a : Nat) : Except SErr (GWorld V) := materializeF R (a + 1) x a

/-- Execution of one API call on existing arrays.  Only `materialize` uses the code generator. -/
def exec1 (R : Runtime V) (x : GWorld V) (c : Call V) : Except SErr (Out V × GWorld V) :=
  match c with
  | .materialize a => (materialize R x a).map fun x => (.unit, x)
  | c => (Src.exec1 R x.s c).map fun p => (p.1, { x with s := p.2 })

/-- One API call. -/
def step (R : Runtime V) (x : GWorld V) (c : Call V) : Except SErr (Out V × GWorld V) :=
  if ∀ a ∈ c.arrays, a < x.s.w.g.length then exec1 R x c else .error (.err .badRef)

/-- The states in which `a.materialize()` may be left by an exception in the middle of generating a kernel (materialize.py:58): the kernels of the functions `pre` have been run, `p` needs a new
kernel, and its code generation was stopped after `n` actions.  `clean` says whether the indentation level is put back, which the code does not do. -/
inductive Stopped (R : Runtime V) (clean : Bool) (x : GWorld V) : Nat → GWorld V → Prop
  | view {a y : Nat} {rest : List Nat} {x' : GWorld V} : (x.s.w.g.ctx a).op.isConst = false → (x.s.w.g.ctx a).op.isView = true → (x.s.w.g.ctx a).inputs = y :: rest →
      Stopped R clean x y x' → Stopped R clean x a x'
  | kernel {a : Nat} {funcs : List Nat} {t : Tbl} {scheds : List Schedule} {pre post : List (Nat × Schedule)} {p : Nat × Schedule} {x1 : GWorld V} {F : Func} {outs : List Nat} {key : Key} (n : Nat) {o : Text.W} :
      (x.s.w.g.ctx a).op.isConst = false → (x.s.w.g.ctx a).op.isView = false → Algo.convert x.s.w.g a = .ok (funcs, t) → schedAll R.b.isGpu t funcs = .ok scheds →
      funcs.zip scheds = pre ++ p :: post →
      pre.foldlM (runFunc R t (a + 2)) { x with s := { x.s with w := { x.s.w with log := x.s.w.log ++ (funcs.zip scheds).filterMap (plan1 x.s.w.g t (a + 2)) } } } = .ok x1 →
      t p.1 = some F → outBufs t (Algo.args F.expr).2 = .ok outs → cacheKey x1.s.w.g t (a + 2) F p.2 = .ok key → x1.s.texts.lookup key = none →
      (Gen.codegen R.L (Text.kernName (R.digest key)) x1.s.w.g t F p.2 ⟨(Algo.args F.expr).1, (Algo.args F.expr).2⟩).stop n ⟨[], x1.ind, x1.s.w.tmp⟩ = o →
      Stopped R clean x a { s := { x1.s with w := { x1.s.w with tmp := o.tmp } }, ind := if clean then x1.ind else o.ind }

end Unf
end Whale
