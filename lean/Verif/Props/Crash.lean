import Verif.Proofs.Crash
import Verif.Proofs.DemoDev
import Verif.Proofs.RelatedW
/-
C51: programs that catch an exception raised in the middle of `materialize`.
-/
namespace Whale.Props
open Whale Mat Hist
variable {V : Type}

/-- C51: whatever happens in the middle of `materialize`, on every backend: no array is added, removed or changed (shape, dtype, the operations that built it), and no gradient. -/
theorem C51_keeps {b : Backend V} {w w' : World V} {a : Nat} {d : Option Nat} (h : Interrupted b w a d w') : w'.g = w.g ∧ w'.grad = w.grad := interrupted_same h

/-- C51 (CPU backends): after any history with interruptions, an array whose own computation was not interrupted is never read back wrongly, and reading changes nothing. -/
theorem C51_safe {b : Backend V} (hb : Faithful b) (hg : b.isGpu = false) {w : World V} {D : List Nat} (hr : ReachableX b w D) {a : Nat} (ha : a < w.g.length) (hD : base w.g a ∉ D)
    (hno : NoOffsetReshape w.g a) {o : Out V} {w' : World V} (hs : step b w (.tolist a) = .ok (o, w')) : o = .list (value b w a).toNested ∧ w' = w := by
  have hi := hr.inv hb hg
  rw [step_eq (by simpa [Call.arrays] using ha)] at hs
  simp only [exec1] at hs
  cases ht : tolist b w a with
  | error e => rw [ht] at hs; cases hs
  | ok p =>
    obtain ⟨_, data, hd⟩ := tolist_cpu hg ht
    rw [tolistX hi ha hD hno (by rw [hd]; rfl)] at hs
    cases hs
    exact ⟨rfl, rfl⟩

/-- C51 (CPU backends): an array that could be read can still be read after further calls and interruptions, with the same result, even if recomputing it was interrupted. -/
theorem C51_stays {b : Backend V} (hb : Faithful b) (hg : b.isGpu = false) {w w' : World V} {D D' : List Nat} (hr : ReachableX b w D) {a : Nat} (hD : base w.g a ∉ D) (hno : NoOffsetReshape w.g a)
    {o : Out V} {w1 : World V} (hs : step b w (.tolist a) = .ok (o, w1)) (hrun : RunsX b w D w' D') : base w.g a ∉ D' ∧ step b w' (.tolist a) = .ok (o, w') := by
  have ha : a < w.g.length := by
    unfold step at hs
    split at hs
    · rename_i hin; exact hin a (by simp [Call.arrays])
    · cases hs
  have hi := hr.inv hb hg
  have hwf : WF w.g := hi.inv.winv.wf
  have hbl := Nat.lt_of_le_of_lt (base_le hwf ha) ha
  have hav : (cpuBuf w (base w.g a)).isSome := by
    rw [step_eq (by simpa [Call.arrays] using ha)] at hs
    simp only [exec1] at hs
    cases ht : tolist b w a with
    | error e => rw [ht] at hs; cases hs
    | ok p =>
      obtain ⟨_, data, hd⟩ := tolist_cpu hg ht
      rw [hd]; rfl
  obtain ⟨rfl, _⟩ := C51_safe hb hg hr ha hD hno hs
  have later : ∀ {w2 : World V} {D2 : List Nat}, RunsX b w D w2 D2 → InvX b D2 w2 ∧ Ext w.g w2.g ∧ (cpuBuf w2 (base w.g a)).isSome ∧ base w.g a ∉ D2 := by
    intro w2 D2 hx
    obtain ⟨h2, l2⟩ := hx.later hb hg hi
    refine ⟨h2, l2.ext, cpuBuf_mono (l2.ext.nd hbl) (l2.mono _) hav, ?_⟩
    clear h2 l2
    induction hx with
    | refl => exact hD
    | @call w1 w' D1 c h1 _ _ ih =>
      intro hm
      cases c <;> first | exact ih hm | exact ih (mem_without.1 hm).1
    | stopped _ _ _ _ ih => exact ih
    | @crash w1 w' D1 a' d h1 _ _ _ ih =>
      intro hm
      have hav1 : (cpuBuf w1 (base w.g a)).isSome := by
        obtain ⟨_, l1⟩ := h1.later hb hg hi
        exact cpuBuf_mono (l1.ext.nd hbl) (l1.mono _) hav
      cases d with
      | none => exact ih hm
      | some f =>
        simp only [spoiled] at hm
        split at hm
        · exact ih hm
        · rename_i hn
          rcases List.mem_cons.1 hm with e | hm
          · rw [← e] at hn; exact hn hav1
          · exact ih hm
  obtain ⟨h2, e2, hav2, hD2⟩ := later hrun
  have ha2 : a < w'.g.length := Nat.lt_of_lt_of_le ha e2.length
  have hbase : base w'.g a = base w.g a := base_ext e2 hwf ha
  refine ⟨hD2, ?_⟩
  rw [step_eq (by simpa [Call.arrays] using ha2)]
  simp only [exec1]
  rw [tolistX h2 ha2 (by rw [hbase]; exact hD2) (hno.ext e2 hwf ha) (by rw [hbase]; exact hav2), den_ext b.A e2 h2.inv.winv.wf ha]
  rfl

/-- C51 (CPU backends): materializing (again) after any history with interruptions succeeds, and from then on, whatever is called or interrupted, the array is read back as its value. -/
theorem C51_recover {b : Backend V} (hb : Faithful b) (hg : b.isGpu = false) {w : World V} {D : List Nat} (hr : ReachableX b w D) {a : Nat} (ha : a < w.g.length) (hargs : ArgsOK b w (.materialize a))
    (hno : NoOffsetReshape w.g a) : ∃ w2, step b w (.materialize a) = .ok (.unit, w2) ∧
      ∀ w3 D3, RunsX b w2 (D.filter (· ≠ base w.g a)) w3 D3 → step b w3 (.tolist a) = .ok (.list (value b w a).toNested, w3) := by
  have hi := hr.inv hb hg
  obtain ⟨w2, e, r⟩ := materializeX hb hg hi.inv.winv hi.dirty ha hargs.1 hargs.2.1
  have es : step b w (.materialize a) = .ok (.unit, w2) := by
    rw [step_eq (by simpa [Call.arrays] using ha)]
    simp only [exec1, e]; rfl
  refine ⟨w2, es, fun w3 D3 h3 => ?_⟩
  have hr2 : ReachableX b w2 (D.filter (· ≠ base w.g a)) := RunsX.call (c := .materialize a) hr (.inr hargs) (by unfold next; rw [es])
  have hi2 := hr2.inv hb hg
  have ha2 : a < w2.g.length := by rw [r.g]; exact ha
  have hD2 : base w2.g a ∉ D.filter (· ≠ base w.g a) := by rw [r.g]; exact fun hm => (mem_without.1 hm).2 rfl
  have hno2 : NoOffsetReshape w2.g a := by rw [r.g]; exact hno
  have hav : (cpuBuf w2 (base w2.g a)).isSome := by
    have := r.avail
    rw [cpuBuf_clean (by rw [r.g] at hD2; exact hD2)] at this
    rw [r.g]; exact this
  have et : step b w2 (.tolist a) = .ok (.list (value b w a).toNested, w2) := by
    rw [step_eq (by simpa [Call.arrays] using ha2)]
    simp only [exec1]
    rw [tolistX hi2 ha2 hD2 hno2 hav]
    unfold value; rw [r.g]; rfl
  exact (C51_stays hb hg hr2 hD2 hno2 et h3).2

/-- C51 (CPU backends): what reading an array whose computation was interrupted gives – no exception, and every element is right or 0. -/
theorem C51_incomplete {b : Backend V} (hb : Faithful b) (hg : b.isGpu = false) {w : World V} {D : List Nat} (hr : ReachableX b w D) {a : Nat} (ha : a < w.g.length) (hD : base w.g a ∈ D)
    (hno : NoOffsetReshape w.g a) {o : Out V} {w' : World V} (hs : step b w (.tolist a) = .ok (o, w')) :
    w' = w ∧ ∃ l, o = .list l ∧ RelatedLists (fun x y => x = y ∨ x = b.A.host 0) l (value b w a).toNested := by
  have hi := hr.inv hb hg
  have hwf : WF w.g := hi.inv.winv.wf
  have hbl := Nat.lt_of_le_of_lt (base_le hwf ha) ha
  rw [step_eq (by simpa [Call.arrays] using ha)] at hs
  simp only [exec1] at hs
  cases ht : tolist b w a with
  | error e => rw [ht] at hs; cases hs
  | ok p =>
    obtain ⟨hw, data, hd⟩ := tolist_cpu hg ht
    rw [ht] at hs
    cases hs
    refine ⟨hw, p.1, rfl, ?_⟩
    have hcpu : w.cpu (base w.g a) = some data := by
      unfold cpuBuf at hd
      rwa [nonconst_val hwf hbl (hi.dirty.nonconst _ hD), Option.or_none] at hd
    have hp := hi.dirty.part _ hD _ hcpu
    have hf : List.Forall₂ (fun x y => x = y ∨ x = b.A.host 0) data (den b.A w.g (base w.g a)).flatten := by
      rw [List.forall₂_iff_get]
      refine ⟨hp.1, fun k h1 h2 => ?_⟩
      rcases hp.2 k _ (List.getElem?_eq_getElem h1) with h | h
      · rw [List.getElem?_eq_getElem h2] at h
        exact .inl (Option.some.inj h).symm
      · exact .inr h
    unfold tolist ensureCpu at ht
    simp only [hd, bind, Except.bind] at ht
    cases hl : ND.toNdlist data (w.g.shape a) (w.g.strides a) (w.g.offset a) with
    | error e => rw [hl] at ht; cases ht
    | ok l =>
      rw [hl] at ht
      cases ht
      exact toNdlist_rel hf _ _ _ hl (toNdlist_den b.A hwf ha hno)

/-! ### Demonstration: `a = array([[1,2,3],[4,5,6]]).transpose(1,0); b = a + a.sum()`, and `b.materialize()` is interrupted in its third kernel after three of the six stores. -/

namespace CrashDemo

def prog : List (Call Int) := [.array Demo.m23, .transpose 0 [1, 0], .sum 1 (.tuple [0, -1]) false, .bin .add 1 2]

/-- The world in which an interrupted `materialize` of array 4 (in function `k`, after `j` stores) leaves the program. -/
def left (b : Backend Int) (k j : Nat) : World Int := ((crashAt b (Demo.afterOn b prog) 4 k j).map (·.2)).getD Mat.init

theorem left_reach {b : Backend Int} (hb : Faithful b) (hr : Demo.runsOn b prog = true) {k j f : Nat} (hc : (crashAt b (Demo.afterOn b prog) 4 k j).map (·.1) = some f)
    (hok : argsOKb b (Demo.afterOn b prog) (.materialize 4) = true) (hlen : 4 < (Demo.afterOn b prog).g.length) :
    Interrupted b (Demo.afterOn b prog) 4 (some f) (left b k j) ∧ ReachableX b (left b k j) (spoiled (Demo.afterOn b prog) [] (some f)) := by
  have hre := Demo.reachOn hb hr
  obtain ⟨p, hp, rfl⟩ := Option.map_eq_some_iff.1 hc
  have e : left b k j = p.2 := by unfold left; rw [hp]; rfl
  have hi : Interrupted b (Demo.afterOn b prog) 4 (some p.1) (left b k j) := by rw [e]; exact crashAt_interrupted hp
  exact ⟨hi, RunsX.crash hre.x hlen (argsOKb_sound (by simpa [Call.arrays] using hlen) (hre.inv hb).winv.wf hok) hi⟩

/-- The list that reading array `a` gives in world `w`. -/
def read (b : Backend Int) (w : World Int) (a : Nat) : Option (List Int × List Int) := match step b w (.tolist a) with
  | .ok (.list l, _) => some (shapeOf l, leaves l)
  | _ => none

def after (b : Backend Int) (w : World Int) (c : Call Int) : World Int := (next b w c).getD Mat.init

theorem py_left : Interrupted Demo.py (Demo.afterOn Demo.py prog) 4 (some 4) (left Demo.py 2 3) ∧ ReachableX Demo.py (left Demo.py 2 3) [4] := by
  have := left_reach (k := 2) (j := 3) (f := 4) Demo.py_faithful (by decide +kernel) (by decide +kernel) (by decide +kernel) (by decide +kernel)
  exact ⟨this.1, by simpa [spoiled, show (cpuBuf (Demo.afterOn Demo.py prog) 4).isSome = false by decide +kernel] using this.2⟩

end CrashDemo

open CrashDemo in
/-- The world left by the interruption meets the hypotheses of `C51_keeps`, `C51_safe`, `C51_stays` (array 2, the sum, was complete), and `C51_recover`,
`C51_incomplete` (array 4 was interrupted; it reads as `[[22, 25], [23, 0], [0, 0]]`). -/
example : Interrupted Demo.py (Demo.afterOn Demo.py prog) 4 (some 4) (left Demo.py 2 3) ∧ ReachableX Demo.py (left Demo.py 2 3) [4] ∧ base (left Demo.py 2 3).g 2 ∉ [4] ∧
    read Demo.py (left Demo.py 2 3) 2 = some ([], [21]) ∧ base (left Demo.py 2 3).g 4 ∈ [4] ∧ read Demo.py (left Demo.py 2 3) 4 = some ([3, 2], [22, 25, 23, 0, 0, 0]) ∧
    argsOKb Demo.py (left Demo.py 2 3) (.materialize 4) = true ∧
    read Demo.py (after Demo.py (left Demo.py 2 3) (.materialize 4)) 4 = some ([3, 2], [22, 25, 23, 26, 24, 27]) := by
  refine ⟨py_left.1, py_left.2, ?_, ?_, ?_, ?_, ?_, ?_⟩ <;> decide +kernel

open CrashDemo in
/-- Reading the array whose own computation was interrupted raises no exception and gives wrong elements (so `base w.g a ∉ D` cannot be dropped from `C51_safe`). -/
theorem C51_counterexample : ReachableX Demo.py (left Demo.py 2 3) [4] ∧ read Demo.py (left Demo.py 2 3) 4 = some ([3, 2], [22, 25, 23, 0, 0, 0]) ∧
    read Demo.py (left Demo.py 2 3) 4 ≠ some (shapeOf (value Demo.py (left Demo.py 2 3) 4).toNested, leaves (value Demo.py (left Demo.py 2 3) 4).toNested) := by
  refine ⟨py_left.2, ?_, ?_⟩ <;> decide +kernel

open CrashDemo in
/-- On a GPU backend materializing again does not always help: if the array is read between the interruption and the second `materialize`, the incomplete data (here: what was
in the device memory, 77) are copied to the CPU, and later reads return this copy, although the second `materialize` computes the right elements on the device. -/
theorem C51_counterexample_gpu : ReachableX Demo.cuda (left Demo.cuda 2 3) [4] ∧ read Demo.cuda (left Demo.cuda 2 3) 4 = some ([3, 2], [22, 25, 23, 77, 77, 77]) ∧
    read Demo.cuda (after Demo.cuda (left Demo.cuda 2 3) (.materialize 4)) 4 = some ([3, 2], [22, 25, 23, 26, 24, 27]) ∧
    read Demo.cuda (after Demo.cuda (after Demo.cuda (left Demo.cuda 2 3) (.tolist 4)) (.materialize 4)) 4 = some ([3, 2], [22, 25, 23, 77, 77, 77]) := by
  refine ⟨?_, ?_, ?_, ?_⟩
  · have := left_reach (k := 2) (j := 3) (f := 4) Demo.cuda_faithful (by decide +kernel) (by decide +kernel) (by decide +kernel) (by decide +kernel)
    simpa [spoiled, show (cpuBuf (Demo.afterOn Demo.cuda prog) 4).isSome = false by decide +kernel] using this.2
  all_goals decide +kernel

end Whale.Props
