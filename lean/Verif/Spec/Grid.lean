import Verif.Model.Algo
/-
GPU launches: how many threads are started for an array, and which numbers a CUDA device accepts.
-/
namespace Whale
variable {V : Type}

/-- Number of blocks of 256 threads that cover `n` positions. -/
def blocks (n : Int) : Int := (n + 255) / 256

/-- Grid (x, y, z) of the launch that computes an array of shape `s`. -/
def launchGrid : List Int → Int × Int × Int
  | [] => (1, 1, 1)
  | [n] => (blocks n, 1, 1)
  | [m, n] => (m, blocks n, 1)
  | [l, m, n] => (l, m, blocks n)
  | s => (blocks (s.getLastD 0), 1, 1)

/-- Block (x, y, z) of that launch. -/
def launchBlock : List Int → Int × Int × Int
  | [] => (1, 1, 1)
  | _ => (256, 1, 1)

/-- Grids a CUDA device accepts (compute capability 3.0 and later). -/
def GridOK (d : Int × Int × Int) : Prop := (1 ≤ d.1 ∧ d.1 ≤ 2147483647) ∧ (1 ≤ d.2.1 ∧ d.2.1 ≤ 65535) ∧ (1 ≤ d.2.2 ∧ d.2.2 ≤ 65535)

/-- Blocks a CUDA device accepts. -/
def BlockOK (d : Int × Int × Int) : Prop := (1 ≤ d.1 ∧ d.1 ≤ 1024) ∧ (1 ≤ d.2.1 ∧ d.2.1 ≤ 1024) ∧ (1 ≤ d.2.2 ∧ d.2.2 ≤ 64) ∧ d.1 * d.2.1 * d.2.2 ≤ 1024

instance (d : Int × Int × Int) : Decidable (GridOK d) := by unfold GridOK; infer_instance
instance (d : Int × Int × Int) : Decidable (BlockOK d) := by unfold BlockOK; infer_instance

/-- Every array that materializing `a` launches a kernel for (constants do not need one) has a shape whose grid a CUDA device accepts. -/
def FitsGrid (g : Graph V) (a : Nat) : Prop := ∀ funcs t, Algo.convert g a = .ok (funcs, t) → ∀ f ∈ funcs, g.ctx f ≠ .const → GridOK (launchGrid (g.shape f))

end Whale
