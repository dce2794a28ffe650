import Verif.Proofs.Limit
import Verif.Props.Nesting
/-
C63: the number of operations applied one after another is not limited.
-/
namespace Whale.Props
open Algo Hist Mat
variable {V : Type}

/-- C63, where it holds: if fewer operations than levels of recursion follow one another in the program that built `a`, `a.materialize()` does what it does without a recursion limit — the same
world or the same exception. -/
theorem C63_partial {b : Backend V} (hb : Faithful b) {w : World V} (hr : Reachable b w) {a : Nat} (ha : a < w.g.length) {L : Nat} (hL : chainLen w.g a < L) :
    materializeLim b L w a = materialize b w a :=
  materializeLimF_eq (hr.inv hb).winv.wf ha hL hL (Nat.lt_succ_self a)

/-- The same for `y.backward()`. -/
theorem C63_partial_backward {b : Backend V} (hb : Faithful b) {w : World V} (hr : Reachable b w) {y : Nat} (hy : y < w.g.length) {L : Nat} (hL : chainLen w.g y < L) :
    Bwd.backwardLim b.A L w y = Bwd.backward b.A w y :=
  backwardLim_eq b.A (hr.inv hb).winv.wf (hr.inv hb).nn (hr.inv hb).gs hy hL

/-- No chain of operations is longer than the program that built it. -/
theorem C63_calls {b : Backend V} (hb : Faithful b) {w : World V} (hr : Reachable b w) {a : Nat} (ha : a < w.g.length) : chainLen w.g a ≤ a :=
  chainLen_le (hr.inv hb).winv.wf a ha

/-- C63 is false: on every backend, the program `x = array([u, v])` followed by `n` times `x = -x` can be materialized, and differentiated, by the algorithm, but with `L` levels of recursion
both calls fail with `RecursionError` for every `n ≥ L`, and both work for `n < L`. -/
theorem C63_counterexample {b : Backend V} (hb : Faithful b) (u v : V) (n : Nat) (hn : 0 < n) :
    ∃ w w' w'', runAll b Mat.init (negations u v n) = .ok w ∧ w.g.length = n + 1 ∧ Reachable b w ∧ ArgsOK b w (.materialize n) ∧ ArgsOK b w (.backward n) ∧
      materialize b w n = .ok w' ∧ Bwd.backward b.A w n = .ok w'' ∧
      (∀ L, L ≤ n → materializeLim b L w n = .error .recursion ∧ Bwd.backwardLim b.A L w n = .error .recursion) ∧
      ∀ L, n < L → materializeLim b L w n = .ok w' ∧ Bwd.backwardLim b.A L w n = .ok w'' := by
  obtain ⟨w, e, hr, hd⟩ := negations_run hb u v n
  have hi := hr.inv hb
  have hw := hi.winv.wf
  have hlt : n < w.g.length := by rw [hd.len]; omega
  have hctx : w.g.ctx n = .unary .Neg (n - 1) := by
    have := hd.succ (n - 1) (by omega)
    rwa [show n - 1 + 1 = n by omega] at this
  have hv : (w.g.ctx n).op.isView = false := by rw [hctx]; rfl
  have hle : ∀ i, Reach w.g n i → i ≤ n := fun i hi => hi.le hw hlt
  have hcx : ∀ i, i ≤ n → w.g.ctx i = .const ∨ ∃ j, i = j + 1 ∧ w.g.ctx i = .unary .Neg j := by
    intro i hi
    cases i with
    | zero => exact .inl hd.zero
    | succ i => exact .inr ⟨i, rfl, hd.succ i (by omega)⟩
  have ha : Computed w.g n := ⟨hlt, hv, by rw [hctx]; simp⟩
  have hns : NoScalarReshape w.g n := fun i hi ⟨x, hx⟩ => by
    rcases hcx i (hle i hi) with h | ⟨j, _, h⟩ <;> rw [h] at hx <;> cases hx
  have hin : ∀ i, i ≤ n → ∀ x ∈ (w.g.ctx i).inputs, i = x + 1 := by
    intro i hi x hx
    rcases hcx i hi with h | ⟨j, hj, h⟩ <;> rw [h] at hx <;> simp [Ctx.inputs] at hx
    subst hx; exact hj
  have ho : Single w.g n := by
    refine ⟨fun i hi _ ⟨x, ax, kd, hx⟩ => ?_, fun x _ i j hi hj hxi hxj => ?_, fun x _ i hi => ?_⟩
    · rcases hcx i (hle i hi) with h | ⟨_, _, h⟩ <;> rw [h] at hx <;> cases hx
    · rw [hin i (hle i hi) x hxi, hin j (hle j hj) x hxj]
    · rcases hcx i (hle i hi) with h | ⟨j, _, h⟩ <;> rw [h] <;> simp [Ctx.inputs, List.count_cons]
      split <;> omega
  obtain ⟨hok, w', hs⟩ := single_ok hb hr ha hns ho (fun _ => ⟨fun i hi => by rw [hd.shape i (hle i hi)]; decide, fun funcs t ht f hf _ => by
    obtain ⟨fs', t', ec, _, _, _, hent⟩ := convert_ok hw hlt hns hv
    rw [ht] at ec; cases ec
    rw [hd.shape f (hle f (hent f hf).1)]; decide⟩) hd.log
  have hm : materialize b w n = .ok w' := by
    unfold step at hs
    rw [if_pos (by simpa [Call.arrays] using hlt)] at hs
    simp only [exec1] at hs
    cases hm : materialize b w n with
    | error x => rw [hm] at hs; cases hs
    | ok w1 => rw [hm] at hs; cases hs; rfl
  have hbo : BackwardOK w.g n := fun i hi => by
    unfold GradNode
    rcases hcx i (hle i hi) with h | ⟨_, _, h⟩ <;> rw [h] <;> trivial
  obtain ⟨w'', _, hw'', _⟩ := backward_ok b.A hw hi.nn hi.gs hlt hbo
  refine ⟨w, w', w'', e, hd.len, hr, hok, hbo, hm, hw'', fun L hL => ⟨materializeLim_deep hd hn hL, backwardLim_deep b.A hw hi.nn hi.gs hd hL⟩, fun L hL => ?_⟩
  have hc := hd.chainLen n (Nat.le_refl n)
  exact ⟨by rw [C63_partial hb hr hlt (by omega)]; exact hm, by rw [C63_partial_backward hb hr hlt (by omega)]; exact hw''⟩

/-! ### concrete cases -/

/-- `((x + y) * 2).sum()` needs three operations in a row, so four levels are enough and two are not. -/
def threeDeep : List (Call Int) := [.array Demo.m23, .array Demo.m23, .bin .add 0 1, .binScalar .mul 2 2, .sum 5 .none false]

example : Demo.runs threeDeep = true ∧ chainLen (Demo.after threeDeep).g 6 = 3 ∧ (materializeLim Demo.py 4 (Demo.after threeDeep) 6).isOk = true ∧
    (materializeLim Demo.py 2 (Demo.after threeDeep) 6).isOk = false := by decide +kernel

/-- Five negations with four and with six levels. -/
example : (match runAll Demo.py Mat.init (negations 1 2 5) with
    | .ok w => [(materializeLim Demo.py 4 w 5).isOk, (materializeLim Demo.py 6 w 5).isOk, (Bwd.backwardLim Demo.Z 5 w 5).isOk, (Bwd.backwardLim Demo.Z 6 w 5).isOk]
    | .error _ => []) = [false, true, false, true] := by decide +kernel

end Whale.Props
