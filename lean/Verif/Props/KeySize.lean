import Verif.Proofs.KeySize
import Verif.Proofs.DemoDev
import Verif.Props.OneKernel
import Mathlib.Data.List.Nodup
/-
C58: the cache keys of one `materialize` call are not larger than the program that built the array.
-/
namespace Whale.Props
open Whale Hist Mat Algo
variable {V : Type}

/-- C58, exactly: for an array built without `pad` and `dilate`, the cache key of every kernel that `materialize` looks up contains the formula of the kernel's array with every intermediate
result written out as often as it is used. -/
theorem C58_key_size {b : Backend V} (hb : Faithful b) {w : World V} (hr : Reachable b w) {a : Nat} (ha : Computed w.g a) (hns : NoScalarReshape w.g a)
    (hcond : ∀ i, Reach w.g a i → ¬ Conditional w.g i) :
    ∃ funcs t, convert w.g a = .ok (funcs, t) ∧ a ∈ funcs ∧ (launchLog b.isGpu w.g a).map (fun p => p.1.expr.ops) = funcs.map (formulaOps w.g) :=
  launchLog_ops (hr.inv hb).winv.wf ha.1 ha.2.1 ha.2.2 hns hcond

/-- C58 is false: on every backend, the program that creates `[u, v]`, doubles it `n` times (`n + 1` calls, `n + 1` arrays) and materializes the result works and looks up a kernel under a cache
key with `2 ^ n - 1` operations. -/
theorem C58_counterexample {b : Backend V} (hb : Faithful b) (u v : V) (n : Nat) (hn : 0 < n) :
    ∃ w w', runAll b Mat.init (doubling u v n) = .ok w ∧ w.g.length = n + 1 ∧ Reachable b w ∧ ArgsOK b w (.materialize n) ∧ step b w (.materialize n) = .ok (.unit, w') ∧
      ∃ p ∈ w'.log, p.1.expr.ops = 2 ^ n - 1 := by
  obtain ⟨w, e, hr, hd⟩ := doubling_run hb u v n
  have hi := hr.inv hb
  have hw := hi.winv.wf
  have hlt : n < w.g.length := by rw [hd.len]; omega
  have hctx : w.g.ctx n = .binary .Add (n - 1) (n - 1) := by
    have := hd.succ (n - 1) (by omega)
    rwa [show n - 1 + 1 = n by omega] at this
  have hv : (w.g.ctx n).op.isView = false := by rw [hctx]; rfl
  have hbn : base w.g n = n := base_nonview hv
  have hle : ∀ i, Reach w.g n i → i ≤ n := fun i hi => hi.le hw hlt
  have hcx : ∀ i, Reach w.g n i → w.g.ctx i = .const ∨ ∃ j, w.g.ctx i = .binary .Add j j := by
    intro i hi
    cases i with
    | zero => exact .inl hd.zero
    | succ i => exact .inr ⟨i, hd.succ i (by have := hle _ hi; omega)⟩
  have hns : NoScalarReshape w.g n := fun i hi ⟨x, hx⟩ => by
    rcases hcx i hi with h | ⟨j, h⟩ <;> rw [h] at hx <;> cases hx
  have hcond : ∀ i, Reach w.g n i → ¬ Conditional w.g i := fun i hi hc => by
    rcases hc with ⟨_, _, _, _, e⟩ | ⟨_, _, _, e⟩ <;> rcases hcx i hi with h | ⟨j, h⟩ <;> rw [h] at e <;> cases e
  obtain ⟨funcs, t, hcv, han, hops⟩ := C58_key_size hb hr ⟨hlt, hv, by rw [hctx]; simp⟩ hns hcond
  obtain ⟨fs', t', ec, hnd, _, _, hent⟩ := convert_ok hw hlt hns hv
  rw [hcv] at ec; cases ec
  have hfl : ∀ f ∈ funcs, f ≤ n := fun f hf => hle f (hent f hf).1
  have hndo : ((launchLog b.isGpu w.g n).map (fun p => p.1.expr.ops)).Nodup := by
    rw [hops]
    refine List.Nodup.map_on (fun x hx y hy hxy => ?_) hnd
    have h1 := hd.formula hw x (hfl x hx)
    have h2 := hd.formula hw y (hfl y hy)
    exact Nat.pow_right_injective (Nat.le_refl 2) (by simp only; omega)
  have hok : ArgsOK b w (.materialize n) := by
    refine ⟨by rwa [hbn], ?_, fun _ => ⟨fun i hi => ?_, fun funcs' t' ht f hf _ => ?_⟩⟩
    · rw [hd.log, List.nil_append]
      intro p hp q hq hpq
      have : p = q := List.inj_on_of_nodup_map hndo hp hq (by rw [hpq])
      rw [this]
    · rw [hbn] at hi
      rw [hd.shape i (hle i hi)]; decide
    · rw [hbn, hcv] at ht; cases ht
      rw [hd.shape f (hfl f hf)]; decide
  obtain ⟨w', hw', hres⟩ := materialize_ok hb hi.winv hlt hok.1 hok.2.1 (fun hg => kernelSizes_of hw hlt hok.1 (hok.2.2 hg))
  have hs : step b w (.materialize n) = .ok (.unit, w') := by
    unfold step
    rw [if_pos (by simpa [Call.arrays] using hlt)]
    simp only [exec1, hw']; rfl
  refine ⟨w, w', e, hd.len, hr, hok, hs, ?_⟩
  have hl : w'.log = w.log ++ launchLog b.isGpu w.g n := hres.log
  have hm : 2 ^ n - 1 ∈ (launchLog b.isGpu w.g n).map (fun p => p.1.expr.ops) := by
    rw [hops, List.mem_map]
    exact ⟨n, han, by have := hd.formula hw n (Nat.le_refl n); omega⟩
  obtain ⟨p, hp, hpe⟩ := List.mem_map.1 hm
  exact ⟨p, by rw [hl]; exact List.mem_append_right _ hp, hpe⟩

/-- C58, where it holds: if every intermediate result is used once (and there are no intermediate sums), `materialize` looks up one key, and it contains at most one operation for every array. -/
theorem C58_partial {b : Backend V} (hb : Faithful b) {w : World V} (hr : Reachable b w) {a : Nat} (ha : Computed w.g a) (hns : NoScalarReshape w.g a) (ho : OneKernel w.g a) :
    ∃ (p : Key × Except Err (Kernel × Nat)) (arrays : List Nat), launchLog b.isGpu w.g a = [p] ∧ arrays.Nodup ∧ (∀ i ∈ arrays, Reach w.g a i) ∧ p.1.expr.ops ≤ arrays.length := by
  have hw := (hr.inv hb).winv.wf
  obtain ⟨funcs, t, hcv, _, hops⟩ := C58_key_size hb hr ha hns ho.cond
  obtain ⟨hfs, F, hF, hrefs, _⟩ := convert_one hw ha.1 hns ha.2.1 ha.2.2 ho hcv
  obtain ⟨R, h1, h2, _, h4⟩ := convert_linear hw ha.1 hns ha.2.1 ha.2.2 hcv
  have h5 := convert_written hw ha.1 hns hcv a F hF
  subst hfs
  match hL : launchLog b.isGpu w.g a with
  | [] => simp [hL] at hops
  | _ :: _ :: _ => simp [hL] at hops
  | [p] =>
    rw [hL] at hops
    refine ⟨p, R, rfl, h1, h2, ?_⟩
    have h6 : p.1.expr.ops = formulaOps w.g a := by simpa using hops
    simp only [List.map_cons, List.map_nil, List.sum_cons, List.sum_nil, hF] at h4
    simp only [written, hrefs, List.map_nil, List.sum_nil] at h5
    have h7 : (R.map (opsOf w.g)).sum ≤ R.length := by
      clear * -
      induction R with
      | nil => simp
      | cons x R ih =>
        have : opsOf w.g x ≤ 1 := by unfold opsOf; split <;> omega
        simp only [List.map_cons, List.sum_cons, List.length_cons]; omega
    omega

/-! ### concrete cases -/

/-- The hypotheses of `C58_counterexample`, `n = 3`: seven operations for three additions. -/
example : ∃ w w', runAll Demo.py Mat.init (doubling 1 2 3) = .ok w ∧ w.g.length = 4 ∧ step Demo.py w (.materialize 3) = .ok (.unit, w') ∧ ∃ p ∈ w'.log, p.1.expr.ops = 7 :=
  let ⟨w, w', h1, h2, _, _, h3, h4⟩ := C58_counterexample Demo.py_faithful 1 2 3 (by omega)
  ⟨w, w', h1, h2, h3, h4⟩

/-- `(x + y) * 2` summed: one key with three operations. -/
def onceOnly : List (Call Int) := [.array Demo.m23, .array Demo.m23, .bin .add 0 1, .binScalar .mul 2 2, .sum 5 .none false]

example : Demo.runs onceOnly = true ∧ oneKernelB (Demo.after onceOnly).g 6 = true ∧
    (launchLog false (Demo.after onceOnly).g 6).map (fun p => p.1.expr.ops) = [3] := by decide +kernel

end Whale.Props
