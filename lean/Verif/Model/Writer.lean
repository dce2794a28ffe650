import Verif.Model.Text
import Verif.Model.Source
/-
The code generator as an object that lives as long as the backend (`/repo/backend.py` creates one per backend and keeps it): its fields `buff`, `indent_level` and `tmpvar_idx` are changed action by action, and
nothing resets `indent_level` or `tmpvar_idx` when a kernel is begun.  `Model/Text` models `codegen` as a function that starts without indentation and returns; here it is a program whose actions can be stopped between any
two (an exception such as Ctrl-C) or interleaved with those of another thread.
-/
namespace Whale

/-- A program for the code generator object: the actions of codegen.py on the fields of `self`, in order. -/
inductive Gen (α : Type)
  /-- the method returns -/
  | ret (a : α)
  /-- an exception is raised -/
  | fail (e : Err)
  /-- codegen.py:44 `self.buff = []` -/
  | clear (k : Gen α)
  /-- codegen.py:28 `self.buff.append(indent + ln)` -/
  | writeln (ln : Str) (k : Gen α)
  /-- codegen.py:26 -/
  | nest (k : Gen α)
  /-- codegen.py:27 -/
  | unnest (k : Gen α)
  /-- codegen.py:34-37 -/
  | tmpvar (k : Str → Gen α)
  /-- codegen.py:15 -/
  | render (k : Str → Gen α)

namespace Gen
open LangSpec Text
variable {V α β : Type}

/-- Python's sequencing. -/
def bind : Gen α → (α → Gen β) → Gen β
  | .ret a, f => f a
  | .fail e, _ => .fail e
  | .clear k, f => .clear (k.bind f)
  | .writeln s k, f => .writeln s (k.bind f)
  | .nest k, f => .nest (k.bind f)
  | .unnest k, f => .unnest (k.bind f)
  | .tmpvar k, f => .tmpvar fun x => (k x).bind f
  | .render k, f => .render fun x => (k x).bind f

instance : Monad Gen where
  pure := .ret
  bind := Gen.bind

def raise (e : Err) : Gen α := .fail e
def write (s : Str) : Gen Unit := .writeln s (.ret ())
def indent : Gen Unit := .nest (.ret ())
def dedent : Gen Unit := .unnest (.ret ())
def fresh : Gen Str := .tmpvar .ret
def join_ : Gen Str := .render .ret

/-- An operation that may raise but does not touch `self`. -/
def lift : Except Err α → Gen α
  | .ok a => .ret a
  | .error e => .fail e

/-- codegen.py:29-33 `write` of a list of lines -/
def writes : List Str → Gen Unit
  | [] => .ret ()
  | s :: l => .writeln s (writes l)

/-- codegen.py:121-131, 149-171 for index expressions, as `Text.renderI` -/
def renderI (L : Lang) : IExpr → Gen Str
  | .index l => .ret l.name.chars
  | .const c => .ret (intText c)
  | .bin op l r =>
    if Codegen.renderBin op = false then .fail .unknownOp
    else do
      let a ← renderI L l
      let b ← renderI L r
      let x ← fresh
      let e ← lift (bin L op a b)
      write (init L .int64 x e)
      pure x

/-- codegen.py:239, 254, as `Text.renderIs` -/
def renderIs (L : Lang) : List IExpr → Gen (List Str)
  | [] => .ret []
  | e :: es => do
    let a ← renderI L e
    let as ← renderIs L es
    pure (a :: as)

/-- codegen.py:213-215, as `Text.openRed` -/
def openRed (L : Lang) : List LoopIndex → Gen Unit
  | [] => .ret ()
  | l :: ls => do
    write (seqLoop L l.name.chars l.extent)
    indent
    openRed L ls

/-- codegen.py:114-117, 224-226, as `Text.closeLoops` -/
def closeLoops (L : Lang) : Nat → Gen Unit
  | 0 => .ret ()
  | k + 1 => do
    dedent
    write (blockEnd L)
    closeLoops L k

/-- codegen.py:121-254 for value expressions, as `Text.renderD` -/
def renderD (L : Lang) (g : Graph V) (tbl : Tbl) (args : Codegen.Args) (dt : DType) : DExpr → Gen Str
  | .const c => .ret (intText c)
  | .un op e =>
    if Codegen.renderUn op = false then .fail .unknownOp
    else do
      let a ← renderD L g tbl args dt e
      let x ← fresh
      let t ← lift (un L op a)
      write (init L dt x t)
      pure x
  | .bin op l r =>
    if Codegen.renderBin op = false then .fail .unknownOp
    else do
      let a ← renderD L g tbl args dt l
      let b ← renderD L g tbl args dt r
      let x ← fresh
      let t ← lift (bin L op a b)
      write (init L dt x t)
      pure x
  | .tern op c t f =>
    if op ≠ .Where then .fail .unknownOp
    else do
      let x ← fresh
      write (init L dt x (if dt.isInt then "0".toList else "0.0".toList))
      let c ← renderI L c
      write (ifStart L c)
      indent
      let a ← renderD L g tbl args dt t
      write (assign L x a)
      dedent
      write (else_ L)
      indent
      let b ← renderD L g tbl args dt f
      write (assign L x b)
      dedent
      write (blockEnd L)
      pure x
  | .red op e reduced => do
    write (init L dt "acc".toList "0".toList)
    openRed L reduced
    let a ← renderD L g tbl args dt e
    if op ≠ .Sum then raise .unknownOp
    else do
      write (assign L "acc".toList (add "acc".toList a))
      closeLoops L reduced.length
      pure "acc".toList
  | .func f idx => do
    let a ← lift (Codegen.fncName args f)
    let names ← renderIs L idx
    match tbl f with
    | none => raise .attrError
    | some F => pure (index a.chars (flatText F.outShape names))
  | .buf b idx => do
    let a ← lift (Codegen.bufName args b)
    let names ← renderIs L idx
    pure (index a.chars (bufText (g.offset b) (g.strides b) names))

/-- codegen.py:87-112, as `Text.renderLoops` -/
def renderLoops (L : Lang) : List LoopSched → Gen Nat
  | [] => .ret 0
  | l :: ls =>
    if l.kind ≠ .spatial then renderLoops L ls
    else do
      let p ← lift (loopStart L l.exec l.lv.name.chars l.lv.extent)
      writes p.1
      if p.2 then do
        indent
        let k ← renderLoops L ls
        pure (k + 1)
      else renderLoops L ls

/-- codegen.py:58-60, as `Text.splitLines` -/
def splitLines (L : Lang) : List SplitLoop → Gen Unit
  | [] => .ret ()
  | sp :: r => do
    write (init L .int64 sp.orig.name.chars (add (mul sp.o.name.chars (intText sp.factor)) sp.i.name.chars))
    splitLines L r

/-- codegen.py:62-68, as `Text.guardLines` -/
def guardLines (L : Lang) : List SplitLoop → Gen Unit
  | [] => .ret ()
  | sp :: r =>
    if sp.tailGuard then do
      write (ifStart L (le L (intText sp.orig.extent) sp.orig.name.chars))
      indent
      write (LangSpec.ret L)
      dedent
      write (blockEnd L)
      guardLines L r
    else guardLines L r

/-- codegen.py:54-76: what `codegen` does between the first `nest` and the last `unnest` -/
def body (L : Lang) (g : Graph V) (tbl : Tbl) (f : Func) (sch : Schedule) (args : Codegen.Args) : Gen Unit := do
  let k ← renderLoops L sch.loops
  splitLines L sch.splits
  guardLines L sch.splits
  let res ← renderD L g tbl args f.outDtype f.expr
  write (assign L (index "out".toList (flatText f.outShape (f.outLoops.map (·.name.chars)))) res)
  closeLoops L k

/-- codegen.py:43-79 `codegen` -/
def codegen (L : Lang) (name : Str) (g : Graph V) (tbl : Tbl) (f : Func) (sch : Schedule) (args : Codegen.Args) : Gen Str :=
  .clear do
    writes (imports L)
    write (kernStart L name ((Codegen.params g tbl args f.outDtype).map fun p => (p.1.chars, p.2)))
    indent
    body L g tbl f sch args
    dedent
    write (blockEnd L)
    join_

/-- What a program does to the object when nothing interferes: the result or exception, and the object afterwards. -/
def run : Gen α → W → Except Err α × W
  | .ret a, w => (.ok a, w)
  | .fail e, w => (.error e, w)
  | .clear k, w => k.run { w with buf := [] }
  | .writeln s k, w => k.run (w.writeln s)
  | .nest k, w => k.run w.nest
  | .unnest k, w => k.run w.unnest
  | .tmpvar k, w => (k w.tmpvar.1).run w.tmpvar.2
  | .render k, w => (k (join ['\n'] w.buf)).run w

/-- The object after `n` actions: what an exception (Ctrl-C) at that point leaves behind. -/
def stop : Nat → Gen α → W → W
  | 0, _, w => w
  | _ + 1, .ret _, w => w
  | _ + 1, .fail _, w => w
  | n + 1, .clear k, w => k.stop n { w with buf := [] }
  | n + 1, .writeln s k, w => k.stop n (w.writeln s)
  | n + 1, .nest k, w => k.stop n w.nest
  | n + 1, .unnest k, w => k.stop n w.unnest
  | n + 1, .tmpvar k, w => (k w.tmpvar.1).stop n w.tmpvar.2
  | n + 1, .render k, w => (k (join ['\n'] w.buf)).stop n w

/-- The number of actions of a program that is left alone. -/
def acts : Gen α → W → Nat
  | .ret _, _ => 0
  | .fail _, _ => 0
  | .clear k, w => k.acts { w with buf := [] } + 1
  | .writeln s k, w => k.acts (w.writeln s) + 1
  | .nest k, w => k.acts w.nest + 1
  | .unnest k, w => k.acts w.unnest + 1
  | .tmpvar k, w => (k w.tmpvar.1).acts w.tmpvar.2 + 1
  | .render k, w => (k (join ['\n'] w.buf)).acts w + 1

end Gen
end Whale
