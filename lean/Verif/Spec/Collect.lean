import Verif.Model.Collect
import Verif.Spec.Observe
/-
Histories with garbage collection.
-/
namespace Whale
open Hist
variable {V : Type}

/-- A program and its interpreter, leading from world `w`, in which the program refers to the arrays `R` and the arrays `G` have been collected, to `w'`, `R'`, `G'`.  The program calls the API with
arrays it refers to (`backward` may be left in the middle by an exception), and drops references whenever it likes; the interpreter collects arrays that are no longer alive, whenever and in whatever order it likes. -/
inductive RunsG (b : Backend V) (w : World V) (R G : List Nat) : World V → List Nat → List Nat → Prop
  | refl : RunsG b w R G w R G
  | call {w1 w' : World V} {R1 G1 : List Nat} {c : Call V} {o : Out V} : RunsG b w R G w1 R1 G1 → (∀ a ∈ c.arrays, a ∈ R1) → ArgsOK b w1 c → step b w1 c = .ok (o, w') →
      RunsG b w R G w' (held R1 o) G1
  | raise {w1 : World V} {R1 G1 : List Nat} {c : Call V} {e : Err} : RunsG b w R G w1 R1 G1 → (∀ a ∈ c.arrays, a ∈ R1) → Call.atomic c → step b w1 c = .error e →
      RunsG b w R G w1 R1 G1
  | stopped {w1 w' : World V} {R1 G1 : List Nat} {y : Nat} : RunsG b w R G w1 R1 G1 → y ∈ R1 → ArgsOK b w1 (.backward y) → Bwd.Stopped b.A w1 y w' → RunsG b w R G w' R1 G1
  | drop {w1 : World V} {R1 R2 G1 : List Nat} : RunsG b w R G w1 R1 G1 → R2 ⊆ R1 → RunsG b w R G w1 R2 G1
  | collect {w1 : World V} {R1 G1 : List Nat} {i : Nat} : RunsG b w R G w1 R1 G1 → i < w1.g.length → ¬ Live w1 R1 i → i ∉ G1 → RunsG b w R G (w1.collect i) R1 (i :: G1)

/-- What programs that start in a fresh interpreter can reach. -/
def ReachableG (b : Backend V) (w : World V) (R G : List Nat) : Prop := RunsG b Mat.init [] [] w R G

/-- Whatever the program and the interpreter do from now on: if the program then still refers to `a`, `a.materialize()` does not raise, and whatever they do after that, if the program still
refers to `a`, `a.tolist()` does not raise and returns `T` as a nested list. -/
def ComputesG (b : Backend V) (w : World V) (R G : List Nat) (a : Nat) (T : Tensor V) : Prop :=
  ∀ w1 R1 G1, RunsG b w R G w1 R1 G1 → a ∈ R1 → ArgsOK b w1 (.materialize a) → ∃ w2, step b w1 (.materialize a) = .ok (.unit, w2) ∧
    ∀ w3 R3 G3, RunsG b w2 R1 G1 w3 R3 G3 → a ∈ R3 → ∃ w4, step b w3 (.tolist a) = .ok (.list T.toNested, w4)

end Whale
