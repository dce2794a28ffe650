import Verif.Model.Address
import Verif.Spec.Observe
/-
Histories with device pointers, garbage collection and changing backends.
-/
namespace Whale
open Hist
variable {V : Type}

/-- The driver never gives out a block that is in use. -/
def FreshBlocks (al : Allocator V) : Prop := ∀ h n, al h n ∉ h.map (·.1)

/-- A program and its interpreter on one backend: as `RunsG`, with device pointers. -/
inductive RunsP (b : Backend V) (al : Allocator V) (s : PWorld V) (R G : List Nat) : PWorld V → List Nat → List Nat → Prop
  | refl : RunsP b al s R G s R G
  | call {s1 s' : PWorld V} {R1 G1 : List Nat} {c : Call V} {o : Out V} : RunsP b al s R G s1 R1 G1 → (∀ a ∈ c.arrays, a ∈ R1) → ArgsOK b s1.w c → Ptr.step b al s1 c = .ok (o, s') →
      RunsP b al s R G s' (held R1 o) G1
  | raise {s1 : PWorld V} {R1 G1 : List Nat} {c : Call V} {e : Err} : RunsP b al s R G s1 R1 G1 → (∀ a ∈ c.arrays, a ∈ R1) → Call.atomic c → Ptr.step b al s1 c = .error e →
      RunsP b al s R G s1 R1 G1
  | stopped {s1 : PWorld V} {w' : World V} {R1 G1 : List Nat} {y : Nat} : RunsP b al s R G s1 R1 G1 → y ∈ R1 → ArgsOK b s1.w (.backward y) → Bwd.Stopped b.A s1.w y w' →
      RunsP b al s R G { s1 with w := w' } R1 G1
  | drop {s1 : PWorld V} {R1 R2 G1 : List Nat} : RunsP b al s R G s1 R1 G1 → R2 ⊆ R1 → RunsP b al s R G s1 R2 G1
  | collect {s1 : PWorld V} {R1 G1 : List Nat} {i : Nat} : RunsP b al s R G s1 R1 G1 → i < s1.w.g.length → ¬ Live s1.w R1 i → i ∉ G1 → RunsP b al s R G (Ptr.collect b s1 i) R1 (i :: G1)

/-- The same with changes of the backend (`backend.reset(name); materialize.reset()`).  A CUDA context is only started when no array has a device pointer: every array that had one has been
collected. -/
inductive RunsPS (al : Allocator V) (b : Backend V) (s : PWorld V) (R G : List Nat) : Backend V → PWorld V → List Nat → List Nat → Prop
  | refl : RunsPS al b s R G b s R G
  | run {b1 : Backend V} {s1 s' : PWorld V} {R1 G1 R' G' : List Nat} : RunsPS al b s R G b1 s1 R1 G1 → RunsP b1 al s1 R1 G1 s' R' G' → RunsPS al b s R G b1 s' R' G'
  | switch {b1 b' : Backend V} {s1 : PWorld V} {R1 G1 : List Nat} : RunsPS al b s R G b1 s1 R1 G1 → b'.A = b1.A → Faithful b' → (b'.isGpu = true → ∀ i, s1.ptr i = none) →
      RunsPS al b s R G b' (Ptr.switch s1) R1 G1

/-- What programs that start in a fresh interpreter can reach. -/
def ReachableP (al : Allocator V) (b : Backend V) (s : PWorld V) (R G : List Nat) : Prop := ∃ b0, Faithful b0 ∧ RunsPS al b0 Ptr.init [] [] b s R G

/-- Whatever the program and the interpreter do from now on, on this backend: if the program then still refers to `a`, `a.materialize()` does not raise, and whatever they do after that, if the
program still refers to `a`, `a.tolist()` does not raise and returns `T` as a nested list. -/
def ComputesP (b : Backend V) (al : Allocator V) (s : PWorld V) (R G : List Nat) (a : Nat) (T : Tensor V) : Prop :=
  ∀ s1 R1 G1, RunsP b al s R G s1 R1 G1 → a ∈ R1 → ArgsOK b s1.w (.materialize a) → ∃ s2, Ptr.step b al s1 (.materialize a) = .ok (.unit, s2) ∧
    ∀ s3 R3 G3, RunsP b al s2 R1 G1 s3 R3 G3 → a ∈ R3 → ∃ s4, Ptr.step b al s3 (.tolist a) = .ok (.list T.toNested, s4)

end Whale
