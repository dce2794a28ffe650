import Verif.Proofs.CrashGpu
import Verif.Props.Crash
/-
C51 on a GPU: programs that catch an exception raised in the middle of `materialize`, and do not read an array while its data are incomplete.
-/
namespace Whale.Props
open Whale Mat Hist
variable {V : Type}

theorem tolist_step {b : Backend V} {w w' : World V} {a : Nat} {o : Out V} (hs : step b w (.tolist a) = .ok (o, w')) : a < w.g.length ∧ ∃ l, o = .list l ∧ tolist b w a = .ok (l, w') := by
  have ha : a < w.g.length := by
    unfold step at hs
    split at hs
    · rename_i hin; exact hin a (by simp [Call.arrays])
    · cases hs
  rw [step_eq (by simpa [Call.arrays] using ha)] at hs
  simp only [exec1] at hs
  cases ht : tolist b w a with
  | error e => rw [ht] at hs; cases hs
  | ok p => rw [ht] at hs; cases hs; exact ⟨ha, p.1, rfl, rfl⟩

theorem tolist_stepG {b : Backend V} (hg : b.isGpu = true) {D : List Nat} {w : World V} (h : InvXG b D w) {a : Nat} (ha : a < w.g.length) (hD : base w.g a ∉ D) (hno : NoOffsetReshape w.g a)
    (hav : AvailG D w (base w.g a)) : ∃ w', step b w (.tolist a) = .ok (.list (value b w a).toNested, w') := by
  obtain ⟨w', e⟩ := tolistG hg h ha hD hno hav
  exact ⟨w', by rw [step_eq (by simpa [Call.arrays] using ha)]; simp only [exec1, e]; rfl⟩

/-- C51 (GPU backends): after any history with interruptions, an array whose own computation was not interrupted is never read back wrongly. -/
theorem C51_safe_gpu {b : Backend V} (hb : Faithful b) (hg : b.isGpu = true) {w : World V} {D : List Nat} (hr : ReachableXG b w D) {a : Nat} (hD : base w.g a ∉ D)
    (hno : NoOffsetReshape w.g a) {o : Out V} {w' : World V} (hs : step b w (.tolist a) = .ok (o, w')) : o = .list (value b w a).toNested := by
  have hi := hr.inv hb hg
  obtain ⟨ha, l, rfl, ht⟩ := tolist_step hs
  obtain ⟨w2, e⟩ := tolistG hg hi ha hD hno (tolist_invG hi hD ht).2.2
  rw [ht] at e; cases e; rfl

/-- C51 (GPU backends): an array that could be read can still be read after further calls and interruptions, with the same result, even if recomputing it was interrupted. -/
theorem C51_stays_gpu {b : Backend V} (hb : Faithful b) (hg : b.isGpu = true) {w w' : World V} {D D' : List Nat} (hr : ReachableXG b w D) {a : Nat} (hD : base w.g a ∉ D) (hno : NoOffsetReshape w.g a)
    {o : Out V} {w1 : World V} (hs : step b w (.tolist a) = .ok (o, w1)) (hrun : RunsXG b w D w' D') : base w.g a ∉ D' ∧ ∃ w2, step b w' (.tolist a) = .ok (o, w2) := by
  have hi := hr.inv hb hg
  have hwf : WF w.g := hi.inv.winv.wf
  obtain ⟨ha, l, rfl, ht⟩ := tolist_step hs
  have hav := (tolist_invG hi hD ht).2.2
  have hbl := Nat.lt_of_le_of_lt (base_le hwf ha) ha
  obtain ⟨h2, l2⟩ := hrun.later hb hg hi
  have hD2 := hrun.notMem hb hg hi hbl hD hav
  have hbase : base w'.g a = base w.g a := base_ext l2.ext hwf ha
  have ha2 : a < w'.g.length := Nat.lt_of_lt_of_le ha l2.ext.length
  refine ⟨hD2, ?_⟩
  obtain ⟨w2, e⟩ := tolist_stepG hg h2 ha2 (by rw [hbase]; exact hD2) (hno.ext l2.ext hwf ha) (by rw [hbase]; exact l2.avail hbl hD2 hav)
  refine ⟨w2, ?_⟩
  rw [C51_safe_gpu hb hg hr hD hno hs, e]
  unfold value
  rw [den_ext b.A l2.ext h2.inv.winv.wf ha]

/-- C51 (GPU backends): materializing (again) after any history with interruptions succeeds, and from then on, whatever is called or interrupted, the array is read back as its value. -/
theorem C51_recover_gpu {b : Backend V} (hb : Faithful b) (hg : b.isGpu = true) {w : World V} {D : List Nat} (hr : ReachableXG b w D) {a : Nat} (ha : a < w.g.length) (hargs : ArgsOK b w (.materialize a))
    (hno : NoOffsetReshape w.g a) : ∃ w2, step b w (.materialize a) = .ok (.unit, w2) ∧
      ∀ w3 D3, RunsXG b w2 (D.filter (· ≠ base w.g a)) w3 D3 → ∃ w4, step b w3 (.tolist a) = .ok (.list (value b w a).toNested, w4) := by
  have hi := hr.inv hb hg
  obtain ⟨w2, e, r⟩ := materializeG hb hg hi.inv.winv hi.data ha hargs
  have es : step b w (.materialize a) = .ok (.unit, w2) := by
    rw [step_eq (by simpa [Call.arrays] using ha)]
    simp only [exec1, e]; rfl
  refine ⟨w2, es, fun w3 D3 h3 => ?_⟩
  have hr2 : ReachableXG b w2 (D.filter (· ≠ base w.g a)) := RunsXG.call (c := .materialize a) hr (.inr hargs) (by simp) (by unfold next; rw [es])
  have hi2 := hr2.inv hb hg
  have ha2 : a < w2.g.length := by rw [r.g]; exact ha
  have hD2 : base w2.g a ∉ D.filter (· ≠ base w.g a) := by rw [r.g]; exact fun hm => (mem_without.1 hm).2 rfl
  have hno2 : NoOffsetReshape w2.g a := by rw [r.g]; exact hno
  obtain ⟨w2', et⟩ := tolist_stepG hg hi2 ha2 hD2 hno2 (by rw [r.g]; exact r.avail)
  have hv : value b w2 a = value b w a := by unfold value; rw [r.g]
  rw [← hv]
  exact (C51_stays_gpu hb hg hr2 hD2 hno2 et h3).2

/-- C51 (GPU backends): the device memory discipline survives interruptions.  Whatever was interrupted, every device operation is legitimate after the ones before it: no array is allocated twice (so the
memory an interrupted call left behind is used again, not leaked), kernels only read memory that was copied in or computed, and only results of kernels are copied back. -/
theorem C51_discipline_gpu {b : Backend V} (hb : Faithful b) (hg : b.isGpu = true) {w : World V} {D : List Nat} (hr : ReachableXG b w D) :
    DevTraceOK w.ev ∧ ∀ i, Allocated w.ev i ↔ (w.dev i).isSome := by
  have h := (hr.inv hb hg).data.ev
  exact ⟨h.ok, fun i => (h.dev i).symm⟩

namespace CrashDemo

theorem left_reachG {b : Backend Int} (hb : Faithful b) (hr : Demo.runsOn b prog = true) {k j f : Nat} (hc : (crashAt b (Demo.afterOn b prog) 4 k j).map (·.1) = some f)
    (hok : argsOKb b (Demo.afterOn b prog) (.materialize 4) = true) (hlen : 4 < (Demo.afterOn b prog).g.length) :
    ReachableXG b (left b k j) (spoiledGpu (Demo.afterOn b prog) [] (some f)) :=
  have hre := Demo.reachOn hb hr
  RunsXG.crash hre.xg hlen (argsOKb_sound (by simpa [Call.arrays] using hlen) (hre.inv hb).winv.wf hok) (left_reach hb hr hc hok hlen).1

theorem cuda_left : ReachableXG Demo.cuda (left Demo.cuda 2 3) [4] := by
  have := left_reachG (k := 2) (j := 3) (f := 4) Demo.cuda_faithful (by decide +kernel) (by decide +kernel) (by decide +kernel) (by decide +kernel)
  simpa [spoiledGpu, show (cpuBuf (Demo.afterOn Demo.cuda prog) 4).isSome = false by decide +kernel, show ((Demo.afterOn Demo.cuda prog).dev 4).isSome = false by decide +kernel] using this

end CrashDemo

open CrashDemo in
/-- The world left by an interruption on CUDA meets the hypotheses of `C51_safe_gpu`, `C51_stays_gpu` (array 2, the sum, was complete) and `C51_recover_gpu` (array 4, whose kernel was left after three of
its six stores): materialized again without a read in between, it is read back right. -/
example : ReachableXG Demo.cuda (left Demo.cuda 2 3) [4] ∧ base (left Demo.cuda 2 3).g 2 ∉ [4] ∧
    read Demo.cuda (left Demo.cuda 2 3) 2 = some ([], [21]) ∧ base (left Demo.cuda 2 3).g 4 ∈ [4] ∧
    argsOKb Demo.cuda (left Demo.cuda 2 3) (.materialize 4) = true ∧
    read Demo.cuda (after Demo.cuda (left Demo.cuda 2 3) (.materialize 4)) 4 = some ([3, 2], [22, 25, 23, 26, 24, 27]) := by
  refine ⟨cuda_left, ?_, ?_, ?_, ?_, ?_⟩ <;> decide +kernel

end Whale.Props
