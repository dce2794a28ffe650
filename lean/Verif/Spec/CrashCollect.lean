import Verif.Spec.Collect
import Verif.Spec.CrashGpu
/-
Histories with garbage collection in which `materialize` may be interrupted.
-/
namespace Whale
open Hist
variable {V : Type}

/-- The arrays whose data are incomplete, after a call during whose kernel for array `d` an exception was raised, on any backend. -/
def spoiledOn (b : Backend V) (w : World V) (D : List Nat) (d : Option Nat) : List Nat := if b.isGpu then spoiledGpu w D d else spoiled w D d

/-- A program and its interpreter, leading from world `w`, in which the program refers to the arrays `R`, the arrays `G` have been collected, and the data of the arrays `D` are incomplete, to
`w'`, `R'`, `G'`, `D'`.  The program calls the API with arrays it refers to (`materialize` and `backward` may be left in the middle by an exception), and drops references whenever it likes; the
interpreter collects arrays that are no longer alive, whenever and in whatever order it likes.  On a GPU the program does not read an array (or a view of one) while its data are incomplete. -/
inductive RunsGX (b : Backend V) (w : World V) (R G D : List Nat) : World V → List Nat → List Nat → List Nat → Prop
  | refl : RunsGX b w R G D w R G D
  | call {w1 w' : World V} {R1 G1 D1 : List Nat} {c : Call V} {o : Out V} : RunsGX b w R G D w1 R1 G1 D1 → (∀ a ∈ c.arrays, a ∈ R1) → ArgsOK b w1 c →
      (b.isGpu = true → ∀ a, c = .tolist a → base w1.g a ∉ D1) → step b w1 c = .ok (o, w') → RunsGX b w R G D w' (held R1 o) G1 (repaired w1 D1 c)
  | raise {w1 : World V} {R1 G1 D1 : List Nat} {c : Call V} {e : Err} : RunsGX b w R G D w1 R1 G1 D1 → (∀ a ∈ c.arrays, a ∈ R1) → Call.atomic c → step b w1 c = .error e →
      RunsGX b w R G D w1 R1 G1 D1
  | stopped {w1 w' : World V} {R1 G1 D1 : List Nat} {y : Nat} : RunsGX b w R G D w1 R1 G1 D1 → y ∈ R1 → ArgsOK b w1 (.backward y) → Bwd.Stopped b.A w1 y w' → RunsGX b w R G D w' R1 G1 D1
  | crash {w1 w' : World V} {R1 G1 D1 : List Nat} {a : Nat} {d : Option Nat} : RunsGX b w R G D w1 R1 G1 D1 → a ∈ R1 → ArgsOK b w1 (.materialize a) → Mat.Interrupted b w1 a d w' →
      RunsGX b w R G D w' R1 G1 (spoiledOn b w1 D1 d)
  | drop {w1 : World V} {R1 R2 G1 D1 : List Nat} : RunsGX b w R G D w1 R1 G1 D1 → R2 ⊆ R1 → RunsGX b w R G D w1 R2 G1 D1
  | collect {w1 : World V} {R1 G1 D1 : List Nat} {i : Nat} : RunsGX b w R G D w1 R1 G1 D1 → i < w1.g.length → ¬ Live w1 R1 i → i ∉ G1 → RunsGX b w R G D (w1.collect i) R1 (i :: G1) D1

/-- What programs that start in a fresh interpreter can reach. -/
def ReachableGX (b : Backend V) (w : World V) (R G D : List Nat) : Prop := RunsGX b Mat.init [] [] [] w R G D

/-- The same without any collection: the histories of C51, on any backend. -/
def RunsXOn (b : Backend V) (w : World V) (D : List Nat) (w' : World V) (D' : List Nat) : Prop := if b.isGpu then RunsXG b w D w' D' else RunsX b w D w' D'

/-- What they can reach. -/
def ReachableXOn (b : Backend V) (w : World V) (D : List Nat) : Prop := RunsXOn b Mat.init [] w D

end Whale
