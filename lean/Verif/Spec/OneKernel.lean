import Verif.Spec.Reference
/-
Vocabulary for C57: arrays that are computed by a single kernel, described by how the program built them, and sessions that materialize only such arrays.
-/
namespace Whale
open Hist
variable {V : Type}

/-- The array is the result of `pad` or of `dilate`. -/
def Conditional (g : Graph V) (i : Nat) : Prop := (∃ x d p q, g.ctx i = .pad x d p q) ∨ (∃ x d st, g.ctx i = .dilate x d st)

/-- The array is the result of `sum`. -/
def Summed (g : Graph V) (i : Nat) : Prop := ∃ x axis kd, g.ctx i = .sum x axis kd

/-- The array `a` was computed without `pad` and `dilate`, with no `sum` except possibly the very last operation, and every intermediate result
was used once (data arrays may be used any number of times). -/
structure OneKernel (g : Graph V) (a : Nat) : Prop where
  cond : ∀ i, Reach g a i → ¬ Conditional g i
  sum : ∀ i, Reach g a i → i ≠ a → ¬ Summed g i
  once : ∀ x, g.ctx x ≠ .const → ∀ i j, Reach g a i → Reach g a j → x ∈ (g.ctx i).inputs → x ∈ (g.ctx j).inputs → i = j
  single : ∀ x, g.ctx x ≠ .const → ∀ i, Reach g a i → (g.ctx i).inputs.count x ≤ 1

/-- Arguments for which a call is supposed to work, without any reference to generated code: `materialize` is called only on (views of) one-kernel arrays. -/
def ArgsSimple (b : Backend V) (w : World V) : Call V → Prop
  | .materialize a => NoScalarReshape w.g (base w.g a) ∧ OneKernel w.g (base w.g a) ∧
      (b.isGpu = true → NoEmpty w.g (base w.g a) ∧ GridOK (launchGrid (w.g.shape (base w.g a))))
  | c => ArgsOK b w c

/-- The worlds reached by programs whose calls raise or have simple arguments. -/
inductive ReachableSimple (b : Backend V) : World V → Prop
  | init : ReachableSimple b Mat.init
  | call {w w' : World V} {c : Call V} : ReachableSimple b w → ((∃ e, step b w c = .error e) ∨ ArgsSimple b w c) → next b w c = some w' → ReachableSimple b w'
  | stopped {w w' : World V} {y : Nat} : ReachableSimple b w → y < w.g.length → ArgsSimple b w (.backward y) → Bwd.Stopped b.A w y w' → ReachableSimple b w'

/-- Like `Tracks`, for programs whose calls have simple arguments. -/
inductive TracksSimple (b : Backend V) : World V → List (Nat × Tensor V) → Prop
  | init : TracksSimple b Mat.init []
  | returns {w w' H c r T} (ρ : Nat → Tensor V) : TracksSimple b w H → ArgsSimple b w c → (∀ a ∈ c.arrays, (a, ρ a) ∈ H) →
      step b w c = .ok (.arr r, w') → meaning b.A w.g.dtype ρ c = some T → TracksSimple b w' ((r, T) :: H)
  | other {w w' H c} : TracksSimple b w H → ((∃ e, step b w c = .error e) ∨ ArgsSimple b w c) → next b w c = some w' → TracksSimple b w' H
  | stopped {w w' H y} : TracksSimple b w H → y < w.g.length → ArgsSimple b w (.backward y) → Bwd.Stopped b.A w y w' → TracksSimple b w' H

end Whale
