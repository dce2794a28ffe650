import Verif.Spec.Backend
import Verif.Spec.Reach
/-
Specification vocabulary: the kernels of one `materialize` call.
-/
namespace Whale
open Algo Mat
variable {V : Type}

/-- `a` is an array whose elements have to be computed: neither a constant nor a view of another array. -/
def Computed (g : Graph V) (a : Nat) : Prop := a < g.length ∧ (g.ctx a).op.isView = false ∧ g.ctx a ≠ .const

/-- Materializing `a` runs, among others, kernel `K` with schedule `sch`; it computes array `f` and is passed the buffers of the arrays `ins`. -/
def Generates (isGpu : Bool) (g : Graph V) (a f : Nat) (ins : List Nat) (sch : Schedule) (K : Kernel) : Prop :=
  ∃ funcs t F n n', convert g a = .ok (funcs, t) ∧ f ∈ funcs ∧ t f = some F ∧ ins = (args F.expr).1 ++ (args F.expr).2 ∧
    Sched.schedule isGpu F = .ok sch ∧ Codegen.codegen g t F sch ⟨(args F.expr).1, (args F.expr).2⟩ n = .ok (K, n')

/-- Arrays read in index / value expressions and statements. -/
def KD.reads : KD → List VName
  | .un _ e => e.reads
  | .bin _ l r => l.reads ++ r.reads
  | .read a _ => [a]
  | _ => []

def Stmt.reads : Stmt → List VName
  | .seq s t => s.reads ++ t.reads
  | .initD _ _ e => e.reads
  | .set _ e => e.reads
  | .store _ e => e.reads
  | .loop _ _ _ b => b.reads
  | .ite _ t f => t.reads ++ f.reads
  | _ => []

/-- Output array and input arrays of the kernel launches in a device trace, in order. -/
def launches : List DevEvent → List (Nat × List Nat)
  | [] => []
  | .launch o is :: r => (o, is) :: launches r
  | _ :: r => launches r

end Whale
