import Verif.Proofs.Custom
import Verif.Proofs.DemoDev
/-
C53: CPU kernels with schedules a program builds from the scheduling primitives (sched.py:66-133) instead of the automatic one.
-/
namespace Whale.Props
open Whale Mat Hist Kern Codegen
variable {V : Type}

/-- C53, as far as it holds: take any schedule built by choosing execution modes, splitting output loops (each at most once) by factors dividing their extent and reordering
output loops, in any number and order.  Every execution of the kernel the backend allows – the iterations of parallel and vectorized loops in any interleaving – ends without a fault,
stores to every cell of the output exactly once, and leaves the elements of the array there.  The missing part is false: see the counterexamples below. -/
theorem C53_schedule_partial {b : Backend V} (hb : Faithful b) (hcpu : b.isGpu = false) {w : World V} (hr : Reachable b w) {a : Nat} (ha : Computed w.g a) (hns : NoScalarReshape w.g a)
    {f : Nat} {ins : List Nat} {sch : Schedule} {K : Kernel} (hG : GeneratesWith w.g a f ins Scheduled sch K)
    {out : List V} (hout : (out.length : Int) = prod (w.g.shape f)) {r : Option (List (Int × V))}
    (hrun : Allowed b (machine b K out (ins.map fun i => (value b w i).flatten)) sch K.body r) :
    ∃ ws, r = some ws ∧ (ws.map (·.1)).Perm (irange out.length) ∧ applyWrites out ws = (value b w f).flatten := by
  have hi := (hr.inv hb).winv
  obtain ⟨t, F, n, n', _, hf, _, hE, hR, rfl, hs, hK⟩ := hG.ready hi.wf ha hns
  have hnn := hi.nn f hf
  have hm := memOK_machine (b := b) (o := out) hi.wf hE hK
  obtain ⟨ws0, hN, hp0⟩ := kernel_custom hi.wf hE hR hm (by simpa [machine] using hout) hs hK
  obtain ⟨ws, rfl, hp⟩ : ∃ ws, r = some ws ∧ ws.Perm ws0 := by
    unfold Allowed at hrun
    rw [if_neg (by simp [hcpu])] at hrun
    split at hrun
    · obtain ⟨o, ho, rfl⟩ := hrun
      obtain ⟨σ', ws', rfl, _, hp⟩ := hN.par o ho
      exact ⟨ws', rfl, hp⟩
    · obtain ⟨σ', e, _⟩ := hN.seq
      exact ⟨ws0, by rw [hrun]; exact congrArg (Option.map (·.writes)) e, List.Perm.refl _⟩
  have hp := hp.trans hp0
  refine ⟨ws, rfl, ?_, applyWrites_stores hi.wf hf hnn hp hout⟩
  rw [hout, ← storesOf_addr (A := b.A) hnn]
  exact hp.map _

/-- C53: code can be generated for each of these schedules, and for the others. -/
theorem C53_code {b : Backend V} (hb : Faithful b) {w : World V} (hr : Reachable b w) {a : Nat} (ha : Computed w.g a) (hns : NoScalarReshape w.g a)
    {funcs : List Nat} {t : Tbl} {f : Nat} {F : Func} (hc : Algo.convert w.g a = .ok (funcs, t)) (hf : f ∈ funcs) (hF : t f = some F) (sch : Schedule) :
    ∃ ins K, GeneratesWith w.g a f ins (fun F' s => F' = F ∧ s = sch) sch K := by
  have hi := (hr.inv hb).winv
  obtain ⟨ha, hv, hcc⟩ := ha
  obtain ⟨funcs', t', e', hnd, hpre, hord, htg, _⟩ := convert_good hi.wf ha hns hv hcc
  rw [hc] at e'; cases e'
  obtain ⟨_, hfc, F', hF', hE, hrefs⟩ := htg.entry f hf
  rw [hF] at hF'; cases hF'
  have hR : RefsOK w.g t F := by
    intro d hd
    obtain ⟨_, _, D, hD, hED, _⟩ := htg.entry d (hrefs d hd).1
    exact ⟨D, hD, hED.shape⟩
  obtain ⟨s, k, n', hg, _⟩ := genRoot_gen (dt := F.outDtype) hE.wf (argsOK_of hR) 0
  exact ⟨_, _, funcs, t, F, 0, n', hc, hf, hF, rfl, ⟨rfl, rfl⟩, by simp only [argsOf] at hg; simp only [codegen, hg, bind, Except.bind, pure, Except.pure]; rfl⟩

/-- A 4 × 6 matrix times itself, negated; array 2 is the root. -/
def cdemo : List (Call Int) := [.arange 24, .reshape 0 [4, 6], .bin .mul 1 1]

/-- A schedule that splits both loops, reorders the four loops and runs one in parallel and one vectorized. -/
def cops : List SOp := [.split 0 2, .split 2 3, .reorder [2, 0, 3, 1], .mode 0 .parallel, .mode 3 .vectorize]

/-- The hypotheses are met, on the Python and on the C backend. -/
example : Reachable Demo.py (Demo.after cdemo) ∧ Computed (Demo.after cdemo).g 2 ∧ NoScalarReshape (Demo.after cdemo).g 2 ∧ prod ((Demo.after cdemo).g.shape 2) = 24 ∧
    ∃ ins sch K, GeneratesWith (Demo.after cdemo).g 2 2 ins Scheduled sch K ∧ sch.loops.map (·.lv.extent) = [2, 3, 2, 2] := by
  refine ⟨Demo.reach (by decide +kernel), ⟨by decide +kernel, by decide +kernel, by decide +kernel⟩,
    noScalarReshape_of ((Demo.reach (cs := cdemo) (by decide +kernel)).inv Demo.py_faithful).winv.wf (by decide +kernel) (by decide +kernel), by decide +kernel, ?_⟩
  have h : ((genWith (Demo.after cdemo).g 2 2 true cops).map fun r => r.2.1.loops.map (·.lv.extent)) = some [2, 3, 2, 2] := by decide +kernel
  obtain ⟨r, hr, e⟩ := Option.map_eq_some_iff.1 h
  exact ⟨_, _, _, genWith_scheduled hr, e⟩

example : Reachable Demo.clang (Demo.afterOn Demo.clang cdemo) ∧ Computed (Demo.afterOn Demo.clang cdemo).g 2 ∧ NoScalarReshape (Demo.afterOn Demo.clang cdemo).g 2 ∧
    ∃ ins sch K, GeneratesWith (Demo.afterOn Demo.clang cdemo).g 2 2 ins Scheduled sch K ∧ sch.loops.map (·.exec) = [.parallel, .sequential, .sequential, .vectorize] := by
  refine ⟨Demo.reachOn Demo.clang_faithful (by decide +kernel), ⟨by decide +kernel, by decide +kernel, by decide +kernel⟩,
    noScalarReshape_of ((Demo.reachOn (cs := cdemo) Demo.clang_faithful (by decide +kernel)).inv Demo.clang_faithful).winv.wf (by decide +kernel) (by decide +kernel), ?_⟩
  have h : ((genWith (Demo.afterOn Demo.clang cdemo).g 2 2 true cops).map fun r => r.2.1.loops.map (·.exec)) = some [.parallel, .sequential, .sequential, .vectorize] := by decide +kernel
  obtain ⟨r, hr, e⟩ := Option.map_eq_some_iff.1 h
  exact ⟨_, _, _, genWith_scheduled hr, e⟩

/-! ### what goes wrong with other schedules -/

/-- Result of running the kernel of array `f` with the schedule made by `os` on a fresh output buffer of `n` elements. -/
def crun (cs : List (Call Int)) (f : Nat) (os : List SOp) (n : Nat) : Option (Option (List Int)) := (genWith (Demo.after cs).g f f false os).map fun r =>
  (exec (machine Demo.py r.2.2 (List.replicate n (-1)) (r.1.map fun i => (value Demo.py (Demo.after cs) i).flatten)) r.2.2.body (fun _ => none)).map fun s => applyWrites (List.replicate n (-1)) s.writes

theorem crun_generates {cs : List (Call Int)} {f : Nat} {os : List SOp} {n : Nat} {o : Option (List Int)} (h : crun cs f os n = some o) :
    ∃ ins sch K, GeneratesWith (Demo.after cs).g f f ins Primitive sch K ∧ ∀ r, Allowed Demo.py (machine Demo.py K (List.replicate n (-1)) (ins.map fun i => (value Demo.py (Demo.after cs) i).flatten)) sch K.body r →
      r.map (applyWrites (List.replicate n (-1))) = o := by
  unfold crun at h
  obtain ⟨r, hr, e⟩ := Option.map_eq_some_iff.1 h
  refine ⟨_, _, _, genWith_primitive hr, fun r' hr' => ?_⟩
  have : r' = (exec (machine Demo.py r.2.2 (List.replicate n (-1)) (r.1.map fun i => (value Demo.py (Demo.after cs) i).flatten)) r.2.2.body (fun _ => none)).map (·.writes) := hr'
  rw [this, ← e, Option.map_map]
  rfl

/-- C53 counterexample, a factor that does not divide the extent: the tail guard returns from the kernel instead of skipping one iteration.  Splitting the last loop of a
2 × 3 result by 2 leaves the second row unwritten. -/
theorem C53_counterexample_tail : Reachable Demo.py (Demo.after [.array Demo.m23, .bin .mul 0 0]) ∧
    (value Demo.py (Demo.after [.array Demo.m23, .bin .mul 0 0]) 1).flatten = [1, 4, 9, 16, 25, 36] ∧
    ∃ ins sch K, GeneratesWith (Demo.after [.array Demo.m23, .bin .mul 0 0]).g 1 1 ins Primitive sch K ∧
      ∀ r, Allowed Demo.py (machine Demo.py K (List.replicate 6 (-1)) (ins.map fun i => (value Demo.py (Demo.after [.array Demo.m23, .bin .mul 0 0]) i).flatten)) sch K.body r →
        r.map (applyWrites (List.replicate 6 (-1))) = some [1, 4, 9, -1, -1, -1] :=
  ⟨Demo.reach (by decide +kernel), by decide +kernel, crun_generates (os := [.split 1 2]) (by decide +kernel)⟩

/-- C53 counterexample, splitting a loop that came from a split: the kernel uses the split variable before declaring it. -/
theorem C53_counterexample_nested : Reachable Demo.py (Demo.after cdemo) ∧
    ∃ ins sch K, GeneratesWith (Demo.after cdemo).g 2 2 ins Primitive sch K ∧
      ∀ r, Allowed Demo.py (machine Demo.py K (List.replicate 24 (-1)) (ins.map fun i => (value Demo.py (Demo.after cdemo) i).flatten)) sch K.body r →
        r.map (applyWrites (List.replicate 24 (-1))) = none :=
  ⟨Demo.reach (by decide +kernel), crun_generates (os := [.split 0 2, .split 0 2]) (by decide +kernel)⟩

/-- C53 counterexample, splitting the loop of a reduction: the kernel declares the loop variable of the reduction outside of any loop, from variables that do not exist. -/
theorem C53_counterexample_reduce : Reachable Demo.py (Demo.after [.array Demo.m23, .sum 0 (.tuple [1]) false]) ∧
    ∃ ins sch K, GeneratesWith (Demo.after [.array Demo.m23, .sum 0 (.tuple [1]) false]).g 1 1 ins Primitive sch K ∧
      ∀ r, Allowed Demo.py (machine Demo.py K (List.replicate 2 (-1)) (ins.map fun i => (value Demo.py (Demo.after [.array Demo.m23, .sum 0 (.tuple [1]) false]) i).flatten)) sch K.body r →
        r.map (applyWrites (List.replicate 2 (-1))) = none :=
  ⟨Demo.reach (by decide +kernel), crun_generates (os := [.split 1 3]) (by decide +kernel)⟩

/-- Reordering an output loop and the loop of a reduction exchanges the loops but not their kinds. -/
theorem C53_counterexample_reorder : Reachable Demo.py (Demo.after [.array Demo.m23, .sum 0 (.tuple [1]) false]) ∧
    ∃ ins sch K, GeneratesWith (Demo.after [.array Demo.m23, .sum 0 (.tuple [1]) false]).g 1 1 ins Primitive sch K ∧
      ∀ r, Allowed Demo.py (machine Demo.py K (List.replicate 2 (-1)) (ins.map fun i => (value Demo.py (Demo.after [.array Demo.m23, .sum 0 (.tuple [1]) false]) i).flatten)) sch K.body r →
        r.map (applyWrites (List.replicate 2 (-1))) = none :=
  ⟨Demo.reach (by decide +kernel), crun_generates (os := [.reorder [0, 1]]) (by decide +kernel)⟩

end Whale.Props
