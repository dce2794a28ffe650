import Verif.Model.Sched
import Verif.Model.Kernel
/-
Schedules other than the automatic ones: what a program may build with the scheduling primitives (sched.py:66-133) for a CPU backend.
-/
namespace Whale

/-- All schedules that can be built from the initial one with the primitives for a CPU: any mode, any positive factor, any loops. -/
inductive Primitive (F : Func) : Schedule → Prop
  | init : Primitive F (Sched.init F)
  | mode {s s' : Schedule} {lv : LoopVar} {e : LoopExec} : Primitive F s → (∀ d, e ≠ .gpuBlock d ∧ e ≠ .gpuThread d) → Sched.setExec s lv e = .ok s' → Primitive F s'
  | split {s s' : Schedule} {l : LoopSched} {factor : Int} {o i : LoopVar} : Primitive F s → l ∈ s.loops → 0 < factor → Sched.split s l.lv factor = .ok ((o, i), s') → Primitive F s'
  | reorder {s s' : Schedule} {lvs : List LoopVar} : Primitive F s → (∀ lv ∈ lvs, ∃ l ∈ s.loops, l.lv = lv) → Sched.reorder s lvs = .ok s' → Primitive F s'

/-- Schedules built from the initial one by choosing execution modes, splitting original output loops by a factor that divides their extent, and reordering output loops. -/
inductive Scheduled (F : Func) : Schedule → Prop
  | init : Scheduled F (Sched.init F)
  | mode {s s' : Schedule} {lv : LoopVar} {e : LoopExec} : Scheduled F s → (∀ d, e ≠ .gpuBlock d ∧ e ≠ .gpuThread d) → Sched.setExec s lv e = .ok s' → Scheduled F s'
  | split {s s' : Schedule} {l : LoopIndex} {factor : Int} {o i : LoopVar} : Scheduled F s → l ∈ F.outLoops → 0 < factor → factor ∣ l.extent →
      Sched.split s ⟨l.name, l.extent⟩ factor = .ok ((o, i), s') → Scheduled F s'
  | reorder {s s' : Schedule} {lvs : List LoopVar} : Scheduled F s → lvs.Nodup → (∀ lv ∈ lvs, ∃ l ∈ s.loops, l.kind = .spatial ∧ l.lv = lv) → Sched.reorder s lvs = .ok s' → Scheduled F s'

/-- Materializing `a` computes, among others, array `f`; with schedule `sch` the kernel for it is `K`, which is passed the buffers of the arrays `ins`. -/
def GeneratesWith {V : Type} (g : Graph V) (a f : Nat) (ins : List Nat) (P : Func → Schedule → Prop) (sch : Schedule) (K : Kernel) : Prop :=
  ∃ funcs t F n n', Algo.convert g a = .ok (funcs, t) ∧ f ∈ funcs ∧ t f = some F ∧ ins = (Algo.args F.expr).1 ++ (Algo.args F.expr).2 ∧
    P F sch ∧ Codegen.codegen g t F sch ⟨(Algo.args F.expr).1, (Algo.args F.expr).2⟩ n = .ok (K, n')

/-! ### GPU -/

/-- Schedules built from the initial one by running loops sequentially or unrolled or binding them to block or thread indices, splitting original output loops by any positive factor, and reordering output loops. -/
inductive GpuScheduled (F : Func) : Schedule → Prop
  | init : GpuScheduled F (Sched.init F)
  | mode {s s' : Schedule} {lv : LoopVar} {e : LoopExec} : GpuScheduled F s → e ≠ .parallel → e ≠ .vectorize → Sched.setExec s lv e = .ok s' → GpuScheduled F s'
  | split {s s' : Schedule} {l : LoopIndex} {factor : Int} {o i : LoopVar} : GpuScheduled F s → l ∈ F.outLoops → 0 < factor →
      Sched.split s ⟨l.name, l.extent⟩ factor = .ok ((o, i), s') → GpuScheduled F s'
  | reorder {s s' : Schedule} {lvs : List LoopVar} : GpuScheduled F s → lvs.Nodup → (∀ lv ∈ lvs, ∃ l ∈ s.loops, l.kind = .spatial ∧ l.lv = lv) → Sched.reorder s lvs = .ok s' → GpuScheduled F s'

/-- The index of the hardware a loop is bound to: a block index (`false`) or a thread index (`true`) in one of three dimensions. -/
def hwIndex : LoopExec → Option (Bool × Dim3)
  | .gpuBlock d => some (false, d)
  | .gpuThread d => some (true, d)
  | _ => none

/-- What a GPU schedule must observe in the end: different loops are bound to different indices, only output loops are bound, and if a factor leaves a remainder both parts of the split loop are bound. -/
structure WellBound (s : Schedule) : Prop where
  distinct : (s.loops.filterMap fun l => hwIndex l.exec).Nodup
  output : ∀ l ∈ s.loops, hwIndex l.exec ≠ none → l.kind = .spatial
  tails : ∀ sp ∈ s.splits, ¬ sp.factor ∣ sp.orig.extent → ∀ l ∈ s.loops, l.lv = sp.o ∨ l.lv = sp.i → hwIndex l.exec ≠ none

instance (s : Schedule) : Decidable (WellBound s) :=
  decidable_of_iff ((s.loops.filterMap fun l => hwIndex l.exec).Nodup ∧ (∀ l ∈ s.loops, hwIndex l.exec ≠ none → l.kind = .spatial) ∧
    ∀ sp ∈ s.splits, ¬ sp.factor ∣ sp.orig.extent → ∀ l ∈ s.loops, l.lv = sp.o ∨ l.lv = sp.i → hwIndex l.exec ≠ none)
    ⟨fun ⟨a, b, c⟩ => ⟨a, b, c⟩, fun ⟨a, b, c⟩ => ⟨a, b, c⟩⟩

end Whale
