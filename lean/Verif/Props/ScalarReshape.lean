import Verif.Props.Reshape
import Verif.Props.Compile
/-
C43: arrays reshaped to shape ().
-/
namespace Whale.Props
open Whale Mat Hist Algo
variable {V : Type}

/-- C43 as far as it holds: reshaping a one-element array to `()` succeeds; the result has shape `()` and is that one element – it is read back so after `materialize`
(unless the reshaped array is a view with an offset, C09).  Missing: any computation with it (`C43_fails_partial`, `C43_counterexample`). -/
theorem C43_readable_partial {b : Backend V} (hb : Faithful b) {w : World V} (hw : Reachable b w) {a : Nat} (ha : a < w.g.length) (hp : prod (w.g.shape a) = 1) :
    ∃ r w' v, step b w (.reshape a []) = .ok (.arr r, w') ∧ (value b w a).flatten = [v] ∧ Is b w' r ⟨[], fun _ => v⟩ := by
  obtain ⟨r, w', T, e, hi, hs, hf⟩ := C09_reshape_partial hb hw ha (s := []) (by simp [NonNeg]) (by rw [hp]; rfl)
  obtain ⟨sh, get⟩ := T
  simp only at hs
  subst hs
  have hval : (value b w a).flatten = [get []] := by rw [← hf]; rfl
  have heq : Tensor.Equiv (⟨[], get⟩ : Tensor V) ⟨[], fun _ => get []⟩ := ⟨rfl, fun i hi => by
    simp only [validIdx_nil] at hi; subst hi; rfl⟩
  have hn : (⟨[], get⟩ : Tensor V).toNested = (⟨[], fun _ => get []⟩ : Tensor V).toNested := rfl
  refine ⟨r, w', get [], e, hval, hi.exists_, hi.shape, ⟨hi.value.1.trans heq.1, fun i hv => ?_⟩, fun h => ?_, fun h => ?_⟩
  · exact (hi.value.2 i hv).trans (heq.2 i (by rw [← hi.value.1]; exact hv))
  · have := hi.shows h; unfold Shows at this ⊢; rwa [hn] at this
  · have := hi.computes h; unfold Computes at this ⊢; rwa [hn] at this

/-- What happens otherwise: materializing an array computed from anything that was reshaped to `()` raises TypeError, and nothing else does not work: all other arrays
convert. -/
theorem C43_fails_partial {b : Backend V} (hb : Faithful b) {w : World V} (hr : Reachable b w) {a : Nat} (ha : Computed w.g a) :
    ¬ NoScalarReshape w.g a ↔ step b w (.materialize a) = .error .typeError ∧ ∀ r, convert w.g a ≠ .ok r := by
  obtain ⟨h1, h2⟩ := C46_convert_total hb hr ha
  refine ⟨fun hn => ?_, fun ⟨_, hn⟩ hs => ?_⟩
  · have e := h2 hn
    refine ⟨?_, fun r hr => by rw [e] at hr; cases hr⟩
    unfold step
    rw [if_pos (by simpa [Call.arrays] using ha.1)]
    have hc : (w.g.ctx a).op.isConst = false := by
      have h3 := ha.2.2
      have this : ∀ op : Ops, op.isUnary = true ∨ op.isBinary = true → op.isConst = false := by intro op; cases op <;> decide
      have hwf := (hr.inv hb).winv.wf a ha.1
      unfold NodeOK at hwf
      unfold Graph.ctx at h3 ⊢
      cases hx : (w.g.nd a).ctx <;> rw [hx] at hwf h3 <;> first | rfl | exact absurd rfl h3 | skip
      · rename_i op x; exact this op (.inl hwf.2.1)
      · rename_i op l r; exact this op (.inr hwf.2.2.1)
    simp only [exec1, materialize, materializeF, hc, ha.2.1, e, Bool.false_eq_true, if_false]
    rfl
  · obtain ⟨r, e⟩ := h1 hs
    exact hn r e

/-- C43 is false in the code: `array([7]).reshape()` is an array of shape `()`, but `-array([7]).reshape()` cannot be materialized. -/
theorem C43_counterexample : ∃ (w : World Int) (a : Nat), Reachable Demo.py w ∧ a < w.g.length ∧ w.g.shape a = [] ∧
    step Demo.py w (.materialize a) = .error .typeError := by
  refine ⟨Demo.after [.array (.node [.leaf 7]), .reshape 0 [], .un .neg 1], 2, Demo.reach (by decide +kernel), by decide +kernel, by decide +kernel, ?_⟩
  have hc : Computed (Demo.after [.array (.node [.leaf 7]), .reshape 0 [], .un .neg 1]).g 2 := ⟨by decide +kernel, by decide +kernel, by decide +kernel⟩
  exact ((C43_fails_partial Demo.py_faithful (Demo.reach (by decide +kernel)) hc).1 (fun h => h 1 (.step .refl (by decide +kernel)) ⟨0, by decide +kernel⟩)).1

/-- A case of `C43_readable_partial`: the sum of a vector with keepdims, reshaped to `()`, materialized and read. -/
example : prod ((Demo.after [.arange 4, .sum 0 .none true]).g.shape 1) = 1 ∧
    Demo.listOf [.arange 4, .sum 0 .none true, .materialize 1, .reshape 1 []] (.tolist 2) = some ([], [6]) := by decide +kernel

end Whale.Props
