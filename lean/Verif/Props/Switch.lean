import Verif.Proofs.Switch
import Verif.Proofs.DemoDev
import Verif.Props.Session
/-
C52: programs that switch the backend while running.
-/
namespace Whale.Props
open Whale Mat Hist
variable {V : Type}

/-- C52: in every program that calls the API and switches backends (with `materialize.reset()`), on the current backend every array is what the operations that built it say: it has that shape, `tolist`
returns its elements if it returns, and `materialize` succeeds and makes it readable for good. -/
theorem C52_is {b : Backend V} {w : World V} (hr : ReachableB b w) {a : Nat} (ha : a < w.g.length) : Is b w a (value b w a) := (hr.inv.2).is_value hr.inv.1 ha

/-- C52: a switch, and whatever is called on any backend, changes no array: shape, value. -/
theorem C52_keeps {b b' : Backend V} {w w' : World V} (hr : ReachableB b w) (hrun : RunsB b w b' w') {a : Nat} (ha : a < w.g.length) :
    a < w'.g.length ∧ w'.g.shape a = w.g.shape a ∧ w'.g.dtype a = w.g.dtype a ∧ value b' w' a = value b w a := by
  obtain ⟨_, hA, hi, hl⟩ := hrun.later hr.inv.1 hr.inv.2
  refine ⟨Nat.lt_of_lt_of_le ha hl.ext.length, hl.ext.shape ha, by unfold Graph.dtype; rw [hl.ext.nd ha], ?_⟩
  unfold value
  rw [hA]
  exact den_ext b.A hl.ext hi.winv.wf ha

/-- C52: an array that has been read once can be read ever after, with the same result, on every backend the program switches to. -/
theorem C52_stable {b b' : Backend V} {w w1 w' : World V} (hr : ReachableB b w) {a : Nat} {l : Nested V} (h : step b w (.tolist a) = .ok (.list l, w1)) (hrun : RunsB b w1 b' w') :
    ∃ w2, step b' w' (.tolist a) = .ok (.list l, w2) := by
  obtain ⟨hb, hi⟩ := hr.inv
  have ha : a < w.g.length := by
    unfold step at h
    split at h
    · rename_i hin; exact hin a (by simp [Call.arrays])
    · cases h
  have hn : next b w (.tolist a) = some w1 := by unfold next; rw [h]
  obtain ⟨hi1, hl1⟩ := next_ok (c := .tolist a) hb hi (.inr trivial) hn
  rw [step_tolist ha] at h
  obtain ⟨p, hp, e⟩ : ∃ p, tolist b w a = .ok p ∧ (p.1 = l ∧ p.2 = w1) := by
    cases ht : tolist b w a with
    | error e => rw [ht] at h; cases h
    | ok p => rw [ht] at h; exact ⟨p, rfl, by cases h; exact ⟨rfl, rfl⟩⟩
  obtain ⟨rfl, rfl⟩ := e
  obtain ⟨hg, hav1⟩ := tolist_cpuBuf hp
  obtain ⟨_, hA, hi2, hl2⟩ := hrun.later hb hi1
  have hbl := Nat.lt_of_le_of_lt (base_le hi.winv.wf ha) ha
  have hbl1 : base w.g a < p.2.g.length := by rw [hg]; exact hbl
  have ha1 : a < p.2.g.length := by rw [hg]; exact ha
  have ha2 : a < w'.g.length := Nat.lt_of_lt_of_le ha1 hl2.ext.length
  have hbe : base w'.g a = base w.g a := by rw [base_ext hl2.ext hi1.winv.wf ha1, hg]
  obtain ⟨l1, w3, t1, d1⟩ := tolist_data hi.winv ha (tolist_avail hp)
  rw [hp] at t1; cases t1
  obtain ⟨l2, w4, t2, d2⟩ := tolist_data hi2.winv ha2 (by rw [hbe]; exact .inl (cpuBuf_mono (hl2.ext.nd hbl1) (hl2.cpuMono _) hav1))
  rw [hbe, hA, den_ext b.A hl2.ext hi2.winv.wf hbl1, hl2.ext.shape ha1, hl2.ext.strides ha1, hl2.ext.offset ha1, hg, d1] at d2
  cases d2
  exact ⟨w4, by rw [step_tolist ha2, t2]; rfl⟩

/-! ### Demonstration: Python, then CUDA, then C. -/

namespace SwitchDemo

def prog : List (Call Int) := [.array Demo.m23, .transpose 0 [1, 0], .sum 1 (.tuple [0, -1]) false, .bin .add 1 2, .materialize 4]
def onPy : World Int := Demo.after prog
def fresh (b : Backend Int) (w : World Int) : World Int := (next b w .reset).getD Mat.init
/-- … and on the GPU `c = b + b; c.materialize()` -/
noncomputable def onGpu : World Int := (runL Demo.cuda (fresh Demo.py onPy) [.bin .add 4 4, .materialize 5]).getD Mat.init
noncomputable def onC : World Int := fresh Demo.cuda onGpu

theorem runsB_of {b : Backend Int} {w w1 : World Int} (hr : Runs b w w1) {b0 : Backend Int} {w0 : World Int} (h : RunsB b0 w0 b w) : RunsB b0 w0 b w1 := by
  induction hr with
  | refl => exact h
  | call _ hl hn ih => exact .call ih hl hn
  | stopped _ hy ha hs ih => exact .stopped ih hy ha hs

theorem runL_some {b : Backend Int} (hb : Faithful b) {w : World Int} (hi : Inv b w) {cs : List (Call Int)} (h : (runL b w cs).isSome = true) : Runs b w ((runL b w cs).getD Mat.init) := by
  obtain ⟨w', hw⟩ := Option.isSome_iff_exists.1 h
  rw [hw]
  exact runL_runs hb hi hw .refl

theorem no_dev {w : World Int} (h : EvInv w) (he : w.ev = []) (i : Nat) : w.dev i = none := by
  cases hd : w.dev i with
  | none => rfl
  | some l =>
    have := (h.dev i).1 (by rw [hd]; rfl)
    rw [he] at this
    obtain ⟨n, pre, post, hn, _⟩ := this
    simp at hn

theorem py_cuda : RunsB Demo.py Mat.init Demo.cuda (fresh Demo.py onPy) := by
  have h1 : RunsB Demo.py Mat.init Demo.py onPy := runsB_of (runL_some Demo.py_faithful (.init _) (cs := prog) (by decide +kernel)) .refl
  exact .switch h1 rfl Demo.cuda_faithful (fun _ => no_dev (h1.later Demo.py_faithful (.init _)).2.2.1.winv.ev (by decide +kernel)) rfl

theorem py_cuda_c : RunsB Demo.py Mat.init Demo.clang onC := by
  have h1 := py_cuda.later Demo.py_faithful (.init _)
  have h2 := runsB_of (runL_some h1.1 h1.2.2.1 (cs := [.bin .add 4 4, .materialize 5]) (by decide +kernel)) py_cuda
  exact .switch h2 rfl Demo.clang_faithful (fun h => by cases h) rfl

/-- The list that reading array `a` gives in world `w`. -/
def read (b : Backend Int) (w : World Int) (a : Nat) : Option (List Int × List Int) := match step b w (.tolist a) with
  | .ok (.list l, _) => some (shapeOf l, leaves l)
  | _ => none

end SwitchDemo

open SwitchDemo in
/-- Array 4 is computed by Python, array 5 from it on the GPU; on the C backend array 4 can be read. -/
example : ReachableB Demo.cuda onGpu ∧ ReachableB Demo.clang onC ∧ read Demo.cuda onGpu 5 = some ([3, 2], [44, 50, 46, 52, 48, 54]) ∧
    read Demo.clang onC 4 = some ([3, 2], [22, 25, 23, 26, 24, 27]) := by
  have h1 := py_cuda.later Demo.py_faithful (.init _)
  refine ⟨⟨_, Demo.py_faithful, runsB_of (runL_some h1.1 h1.2.2.1 (by decide +kernel)) py_cuda⟩, ⟨_, Demo.py_faithful, py_cuda_c⟩, ?_, ?_⟩ <;> decide +kernel

open SwitchDemo in
/-- An array computed on the GPU but not read there cannot be read after switching to a CPU backend (until it is materialized again): "once" in `C52_stable` means read, not computed. -/
theorem C52_counterexample : ReachableB Demo.clang onC ∧ (∃ w, step Demo.cuda onGpu (.tolist 5) = .ok w) ∧ step Demo.clang onC (.tolist 5) = .error .attrError := by
  refine ⟨⟨_, Demo.py_faithful, py_cuda_c⟩, ?_, ?_⟩
  · have : (match step Demo.cuda onGpu (.tolist 5) with | .ok _ => true | .error _ => false) = true := by decide +kernel
    split at this
    · rename_i w h; exact ⟨w, h⟩
    · cases this
  · have : (match step Demo.clang onC (.tolist 5) with | .ok _ => none | .error e => some e) = some Err.attrError := by decide +kernel
    split at this
    · cases this
    · rename_i e h; cases this; exact h

end Whale.Props
