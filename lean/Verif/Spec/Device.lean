import Verif.Model.Materialize
/-
Device memory discipline: when each device operation is legitimate, given what happened before.
-/
namespace Whale

/-- Event `e` happened, and the device memory of array `i` has not been freed since. -/
def Since (ev : List DevEvent) (i : Nat) (e : DevEvent) : Prop := ∃ pre post, ev = pre ++ e :: post ∧ .free i ∉ post

/-- The device memory of array `i` holds data: copied in, or computed by a kernel. -/
def Loaded (ev : List DevEvent) (i : Nat) : Prop := Since ev i (.copyIn i) ∨ ∃ ins, Since ev i (.launch i ins)

/-- `i` has device memory: allocated, and not freed since. -/
def Allocated (ev : List DevEvent) (i : Nat) : Prop := ∃ n, Since ev i (.alloc i n)

/-- An operation that is legitimate after `ev`: memory is allocated only where there is none and not empty, everything used or freed was allocated before (and not freed since), kernels only
read initialised memory, only results of kernels are copied back. -/
def EventOK (ev : List DevEvent) : DevEvent → Prop
  | .alloc i n => ¬ Allocated ev i ∧ 0 < n
  | .copyIn i => Allocated ev i
  | .launch out ins => Allocated ev out ∧ out ∉ ins ∧ ∀ i ∈ ins, Allocated ev i ∧ Loaded ev i
  | .copyOut i => Allocated ev i ∧ ∃ ins, Since ev i (.launch i ins)
  | .free i => Allocated ev i

/-- Every operation of the trace is legitimate after the ones before it. -/
inductive DevTraceOK : List DevEvent → Prop
  | nil : DevTraceOK []
  | snoc {ev : List DevEvent} {e : DevEvent} : DevTraceOK ev → EventOK ev e → DevTraceOK (ev ++ [e])

end Whale
