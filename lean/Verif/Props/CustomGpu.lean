import Verif.Proofs.CustomGpu
import Verif.Proofs.DemoDev
/-
C68: GPU kernels with schedules a program builds from the scheduling primitives (sched.py:66-133) instead of the automatic one.
-/
namespace Whale.Props
open Whale Mat Hist Kern Codegen
variable {V : Type}

/-- C68: take any schedule built by splitting output loops (each at most once) by any positive factors, reordering output loops and making loops sequential or unrolled or binding them to block or
thread indices, in any number and order, such that in the end no two loops are bound to the same index, only output loops are bound, and both parts of a split that leaves a remainder are bound.
In every execution of the launch – the threads in any interleaving – no thread faults, every cell of the output is stored to exactly once, and the output holds the elements of the array. -/
theorem C68_schedule {b : Backend V} (hb : Faithful b) (hgpu : b.isGpu = true) {w : World V} (hr : Reachable b w) {a : Nat} (ha : Computed w.g a) (hns : NoScalarReshape w.g a)
    {f : Nat} {ins : List Nat} {sch : Schedule} {K : Kernel} (hG : GeneratesWith w.g a f ins GpuScheduled sch K) (hwb : WellBound sch)
    {out : List V} (hout : (out.length : Int) = prod (w.g.shape f)) {r : Option (List (Int × V))}
    (hrun : Allowed b (machine b K out (ins.map fun i => (value b w i).flatten)) sch K.body r) :
    ∃ ws, r = some ws ∧ (ws.map (·.1)).Perm (irange out.length) ∧ applyWrites out ws = (value b w f).flatten := by
  have hi := (hr.inv hb).winv
  obtain ⟨t, F, n, n', _, hf, _, hE, hR, rfl, hs, hK⟩ := hG.ready hi.wf ha hns
  have hnn := hi.nn f hf
  have hm := memOK_machine (b := b) (o := out) hi.wf hE hK
  unfold Allowed at hrun
  rw [if_pos hgpu] at hrun
  obtain ⟨ws, rfl, hp⟩ := (kernel_customGpu hi.wf hE hR hm (by simpa [machine] using hout) hs hwb hK).1 r hrun
  refine ⟨ws, rfl, ?_, applyWrites_stores hi.wf hf hnn hp hout⟩
  rw [hout, ← storesOf_addr (A := b.A) hnn]
  exact hp.map _

/-- C68: there is such an execution. -/
theorem C68_runs {b : Backend V} (hb : Faithful b) (hgpu : b.isGpu = true) {w : World V} (hr : Reachable b w) {a : Nat} (ha : Computed w.g a) (hns : NoScalarReshape w.g a)
    {f : Nat} {ins : List Nat} {sch : Schedule} {K : Kernel} (hG : GeneratesWith w.g a f ins GpuScheduled sch K) (hwb : WellBound sch)
    {out : List V} (hout : (out.length : Int) = prod (w.g.shape f)) :
    ∃ r, Allowed b (machine b K out (ins.map fun i => (value b w i).flatten)) sch K.body r := by
  have hi := (hr.inv hb).winv
  obtain ⟨t, F, n, n', _, hf, _, hE, hR, rfl, hs, hK⟩ := hG.ready hi.wf ha hns
  have hm := memOK_machine (b := b) (o := out) hi.wf hE hK
  obtain ⟨r, hr⟩ := (kernel_customGpu hi.wf hE hR hm (by simpa [machine] using hout) hs hwb hK).2
  exact ⟨r, by unfold Allowed; rw [if_pos hgpu]; exact hr⟩

/-- C68: the automatic GPU schedule is one of them, for every array that can be materialized. -/
theorem C68_auto {b : Backend V} (hb : Faithful b) {w : World V} (hr : Reachable b w) {a : Nat} (ha : Computed w.g a) (hns : NoScalarReshape w.g a)
    {f : Nat} {ins : List Nat} {sch : Schedule} {K : Kernel} (hG : Generates true w.g a f ins sch K) : GeneratesWith w.g a f ins GpuScheduled sch K ∧ WellBound sch := by
  obtain ⟨funcs, t, F, n, n', e, hf, hF, hi, hs, hK⟩ := hG
  have hW : GeneratesWith w.g a f ins GpuScheduled sch K := ⟨funcs, t, F, n, n', e, hf, hF, hi, gpu_scheduled hs, hK⟩
  have hG' : GeneratesWith w.g a f ins (fun F s => Sched.schedule true F = .ok s) sch K := ⟨funcs, t, F, n, n', e, hf, hF, hi, hs, hK⟩
  obtain ⟨_, F', _, _, _, _, _, hE, _, _, hs', _⟩ := hG'.ready (hr.inv hb).winv.wf ha hns
  exact ⟨hW, gpu_wellBound hE hs'⟩

/-- A 4 × 6 matrix times itself. -/
def gpuDemo : List (Call Int) := [.arange 24, .reshape 0 [4, 6], .bin .mul 1 1]

/-- A two-dimensional tiling: rows in blocks of 3 (with a remainder), columns in blocks of 2, blocks on the grid, elements within a block on threads, the columns within a block unrolled. -/
def gpuOps : List SOp := [.split 0 3, .split 2 2, .reorder [3, 1, 2, 0], .mode 0 (.gpuBlock .y), .mode 1 (.gpuBlock .x), .mode 2 (.gpuThread .z), .mode 3 (.unroll 2)]

/-- The hypotheses are met, for the schedule above and for the automatic one. -/
example : Reachable Demo.cuda (Demo.afterOn Demo.cuda gpuDemo) ∧ Computed (Demo.afterOn Demo.cuda gpuDemo).g 2 ∧ NoScalarReshape (Demo.afterOn Demo.cuda gpuDemo).g 2 ∧
    prod ((Demo.afterOn Demo.cuda gpuDemo).g.shape 2) = 24 ∧
    (∃ ins sch K, GeneratesWith (Demo.afterOn Demo.cuda gpuDemo).g 2 2 ins GpuScheduled sch K ∧ WellBound sch ∧
      sch.loops = [⟨⟨.splitO (.loop false 0), 2⟩, .spatial, .gpuBlock .y⟩, ⟨⟨.splitO (.loop false 1), 3⟩, .spatial, .gpuBlock .x⟩, ⟨⟨.splitI (.loop false 0), 3⟩, .spatial, .gpuThread .z⟩, ⟨⟨.splitI (.loop false 1), 2⟩, .spatial, .unroll 2⟩]) ∧
    ∃ ins sch K, Generates true (Demo.afterOn Demo.cuda gpuDemo).g 2 2 ins sch K := by
  refine ⟨Demo.reachOn Demo.cuda_faithful (by decide +kernel), ⟨by decide +kernel, by decide +kernel, by decide +kernel⟩,
    noScalarReshape_of ((Demo.reachOn (cs := gpuDemo) Demo.cuda_faithful (by decide +kernel)).inv Demo.cuda_faithful).winv.wf (by decide +kernel) (by decide +kernel), by decide +kernel, ?_,
    genOf_exists (by decide +kernel)⟩
  have h : ((genG (Demo.afterOn Demo.cuda gpuDemo).g 2 2 gpuOps).map fun r => (decide (WellBound r.2.1), r.2.1.loops)) = some (true, [⟨⟨.splitO (.loop false 0), 2⟩, .spatial, .gpuBlock .y⟩, ⟨⟨.splitO (.loop false 1), 3⟩, .spatial, .gpuBlock .x⟩, ⟨⟨.splitI (.loop false 0), 3⟩, .spatial, .gpuThread .z⟩, ⟨⟨.splitI (.loop false 1), 2⟩, .spatial, .unroll 2⟩]) := by decide +kernel
  obtain ⟨r, hr, e⟩ := Option.map_eq_some_iff.1 h
  exact ⟨_, _, _, genG_scheduled hr, by simpa using congrArg Prod.fst e, congrArg Prod.snd e⟩

/-! ### what goes wrong with other schedules -/

/-- The addresses the threads store to, thread by thread, when the kernel of array `f` runs with the schedule made by `os`. -/
noncomputable def grun (cs : List (Call Int)) (f : Nat) (os : List SOp) (n : Nat) : Option (List Int) := (genG (Demo.afterOn Demo.cuda cs).g f f os).bind fun r =>
  let m := machine Demo.cuda r.2.2 (List.replicate n (-1)) (r.1.map fun i => (value Demo.cuda (Demo.afterOn Demo.cuda cs) i).flatten)
  if noPar r.2.2.body && (threads r.2.1).all (fun t => (exec (onThread m t) r.2.2.body (fun _ => none)).isSome) then
    some ((threads r.2.1).flatMap fun t => (writesOf (exec (onThread m t) r.2.2.body (fun _ => none))).map (·.1)) else none

theorem grun_generates {cs : List (Call Int)} {f : Nat} {os : List SOp} {n : Nat} {o : List Int} (h : grun cs f os n = some o) :
    ∃ ins sch K, GeneratesWith (Demo.afterOn Demo.cuda cs).g f f ins GpuScheduled sch K ∧
      ∀ r, Allowed Demo.cuda (machine Demo.cuda K (List.replicate n (-1)) (ins.map fun i => (value Demo.cuda (Demo.afterOn Demo.cuda cs) i).flatten)) sch K.body r →
        ∃ ws, r = some ws ∧ (ws.map (·.1)).Perm o := by
  unfold grun at h
  obtain ⟨r, hr, e⟩ := Option.bind_eq_some_iff.1 h
  refine ⟨_, _, _, genG_scheduled hr, fun r' hr' => ?_⟩
  simp only at e
  split at e
  · rename_i hc
    rw [Bool.and_eq_true, List.all_eq_true] at hc
    obtain ⟨ws, rfl, hp⟩ := launch_det hc.1 hc.2 (show launch _ _ _ r' from hr')
    cases e
    refine ⟨ws, rfl, ?_⟩
    have := hp.map (·.1)
    rw [List.map_flatMap] at this
    exact this
  · cases e

/-- C68 counterexample, two loops bound to the same index: of a 3 × 2 result only two elements are computed. -/
theorem C68_counterexample_same : Reachable Demo.cuda (Demo.afterOn Demo.cuda [.arange 6, .reshape 0 [3, 2], .bin .mul 1 1]) ∧
    ∃ ins sch K, GeneratesWith (Demo.afterOn Demo.cuda [.arange 6, .reshape 0 [3, 2], .bin .mul 1 1]).g 2 2 ins GpuScheduled sch K ∧
      ∀ r, Allowed Demo.cuda (machine Demo.cuda K (List.replicate 6 (-1)) (ins.map fun i => (value Demo.cuda (Demo.afterOn Demo.cuda [.arange 6, .reshape 0 [3, 2], .bin .mul 1 1]) i).flatten)) sch K.body r →
        ∃ ws, r = some ws ∧ (ws.map (·.1)).Perm [0, 3] :=
  ⟨Demo.reachOn Demo.cuda_faithful (by decide +kernel), grun_generates (os := [.mode 0 (.gpuBlock .x), .mode 1 (.gpuBlock .x)]) (by decide +kernel)⟩

/-- C68 counterexample, a split with remainder of which one part is sequential: the tail guard ends the thread, and the last element of a 2 × 3 result is not computed. -/
theorem C68_counterexample_tail : Reachable Demo.cuda (Demo.afterOn Demo.cuda [.array Demo.m23, .bin .mul 0 0]) ∧
    ∃ ins sch K, GeneratesWith (Demo.afterOn Demo.cuda [.array Demo.m23, .bin .mul 0 0]).g 1 1 ins GpuScheduled sch K ∧
      ∀ r, Allowed Demo.cuda (machine Demo.cuda K (List.replicate 6 (-1)) (ins.map fun i => (value Demo.cuda (Demo.afterOn Demo.cuda [.array Demo.m23, .bin .mul 0 0]) i).flatten)) sch K.body r →
        ∃ ws, r = some ws ∧ (ws.map (·.1)).Perm [0, 1, 3, 4, 2] :=
  ⟨Demo.reachOn Demo.cuda_faithful (by decide +kernel), grun_generates (os := [.split 1 2, .mode 1 (.gpuBlock .x)]) (by decide +kernel)⟩

/-- C68 counterexample, the loop of a reduction bound to a thread index: every element is computed and stored once for each thread. -/
theorem C68_counterexample_reduce : Reachable Demo.cuda (Demo.afterOn Demo.cuda [.array Demo.m23, .sum 0 (.tuple [1]) false]) ∧
    ∃ ins sch K, GeneratesWith (Demo.afterOn Demo.cuda [.array Demo.m23, .sum 0 (.tuple [1]) false]).g 1 1 ins GpuScheduled sch K ∧
      ∀ r, Allowed Demo.cuda (machine Demo.cuda K (List.replicate 2 (-1)) (ins.map fun i => (value Demo.cuda (Demo.afterOn Demo.cuda [.array Demo.m23, .sum 0 (.tuple [1]) false]) i).flatten)) sch K.body r →
        ∃ ws, r = some ws ∧ (ws.map (·.1)).Perm [0, 1, 0, 1, 0, 1] :=
  ⟨Demo.reachOn Demo.cuda_faithful (by decide +kernel), grun_generates (os := [.mode 1 (.gpuThread .x)]) (by decide +kernel)⟩

end Whale.Props
