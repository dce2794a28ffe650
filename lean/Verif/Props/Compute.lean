import Verif.Proofs.Demo
/-
C14, C15: sum.  C16: pad.  C17: dilate.
-/
namespace Whale.Props
open Whale Mat Hist
variable {V : Type}

theorem axisList_eq (n : Nat) (ax : AxisArg) : ND.axisList n ax = if givenAxes ax = [] then (List.range n).map Int.ofNat else givenAxes ax := by
  unfold ND.axisList givenAxes
  cases ax <;> simp [List.isEmpty_iff]

theorem normAxis_meant {n : Nat} {ax : AxisArg} (h : AxesInRange n ax) : ND.normAxis n ax = .ok (meantAxes n ax) := by
  unfold ND.normAxis
  rw [axisList_eq]
  unfold meantAxes
  by_cases hg : givenAxes ax = []
  · rw [if_pos hg, if_pos hg, if_neg (by rintro ⟨rfl, h2⟩; simp at h2)]
    simp only [pure, Except.pure, Except.ok.injEq, List.map_map]
    apply List.ext_getElem (by simp)
    intro k h1 h2
    simp only [List.length_map, List.length_range] at h1
    simp only [List.getElem_map, List.getElem_range, Function.comp_def]
    rw [Int.ofNat_eq_natCast, Int.emod_eq_of_lt (by omega) (by omega)]; rfl
  · rw [if_neg hg, if_neg hg, if_neg]
    · simp only [pure, Except.pure, Except.ok.injEq]
      apply List.map_congr_left
      intro a ha
      obtain ⟨h1, h2⟩ := h a ha
      congr 1
      split
      · rw [← Int.add_emod_right, Int.emod_eq_of_lt (by omega) (by omega)]
      · rw [Int.emod_eq_of_lt (by omega) (by omega)]
    · rintro ⟨rfl, _⟩
      obtain ⟨a, ha⟩ := List.exists_mem_of_ne_nil _ hg
      have := h a ha
      omega

/-- C14.  For in-range axes `sum` does not raise; the result has the reduced axes removed (or 1 with `keepdims`) and each element is the left-to-right
row-major sum from 0 of exactly the elements of `a` whose remaining coordinates match. -/
theorem C14_sum {b : Backend V} (hb : Faithful b) {w : World V} (hw : Reachable b w) {a : Nat} (ha : a < w.g.length) {ax : AxisArg} (kd : Bool)
    (hax : AxesInRange (w.g.ndim a) ax) :
    ∃ r w', step b w (.sum a ax kd) = .ok (.arr r, w') ∧
      Is b w' r ⟨Tensor.sumShape (meantAxes (w.g.ndim a) ax) kd (w.g.shape a), fun idx =>
        ((indices (w.g.shape a)).filter fun j => Tensor.sumProj (meantAxes (w.g.ndim a) ax) kd j = idx).foldl (fun acc j => b.A.bin .Add acc ((value b w a).get j)) (b.A.ofInt 0)⟩ := by
  have h := hw.inv hb
  obtain ⟨r, g', e, m, d⟩ := sum_s (kd := kd) h.winv.wf h.nn ha (normAxis_meant hax)
  refine ⟨r, _, step_made (by simpa [Call.arrays] using ha) (by simp only [exec1, e]), made_is hb h m ?_⟩
  rw [d b.A]
  unfold Tensor.sum
  rw [den_shape b.A h.winv.wf ha]
  exact ⟨rfl, fun _ _ => rfl⟩

/-- Reducing the last axis by a negative number, keeping it; all axes; and two axes of three. -/
example : Demo.listOf [.array Demo.m23, .sum 0 (.int (-1)) true, .materialize 1] (.tolist 1) = some ([2, 1], [6, 15]) ∧
    Demo.listOf [.array Demo.m23, .sum 0 .none false, .materialize 1] (.tolist 1) = some ([], [21]) ∧
    Demo.listOf [.arange 12, .reshape 0 [2, 3, 2], .sum 1 (.tuple [0, -1]) false, .materialize 2] (.tolist 2) = some ([3], [14, 22, 30]) ∧
    meantAxes 3 (.tuple [0, -1]) = [0, 2] ∧ AxesInRange 3 (.tuple [0, -1]) := by
  refine ⟨by decide +kernel, by decide +kernel, by decide +kernel, by decide, ?_⟩
  unfold AxesInRange givenAxes; decide

/-- C15 as far as it holds: an out-of-range axis raises if the array has no dimensions.  Missing: with dimensions, an out-of-range axis never raises
(`C15_counterexample`). -/
theorem C15_rejects_partial {b : Backend V} {w : World V} {a : Nat} (ha : a < w.g.length) (ax : AxisArg) (kd : Bool) :
    (∃ e, step b w (.sum a ax kd) = .error e) ↔ w.g.ndim a = 0 ∧ givenAxes ax ≠ [] := by
  rw [step_eq (by simpa [Call.arrays] using ha)]
  simp only [exec1, ND.sum, ND.normAxis]
  rw [axisList_eq]
  by_cases h0 : w.g.ndim a = 0
  · by_cases hg : givenAxes ax = []
    · rw [h0]; simp [hg, madeE, made, bind, Except.bind, pure, Except.pure]
    · rw [h0]; simp [hg, madeE, made, bind, Except.bind, throw, throwThe, MonadExceptOf.throw]
  · simp [h0, madeE, made, bind, Except.bind, pure, Except.pure]

/-- C15 is false in the code: `sum(5)` of a two-dimensional array is accepted and reduces axis 1. -/
theorem C15_counterexample : Reachable Demo.py (Demo.after [.array Demo.m23]) ∧ ¬ AxesInRange ((Demo.after [.array Demo.m23]).g.ndim 0) (.int 5) ∧
    Demo.listOf [.array Demo.m23, .sum 0 (.int 5) false, .materialize 1] (.tolist 1) = some ([2], [6, 15]) := by
  refine ⟨Demo.reach (by decide +kernel), ?_, by decide +kernel⟩
  have : (Demo.after [.array Demo.m23]).g.ndim 0 = 2 := by decide +kernel
  rw [this]; unfold AxesInRange givenAxes; decide

/-- What the code does with the axes of an array that has dimensions, in every case: axes are taken modulo the number of dimensions, so that `sum` never raises and is the sum (C14) over
the axes so obtained. -/
theorem C15_exact {b : Backend V} {w : World V} {a : Nat} (ha : a < w.g.length) (h0 : 0 < w.g.ndim a) (ax : AxisArg) (hg : givenAxes ax ≠ []) (kd : Bool) :
    step b w (.sum a ax kd) = step b w (.sum a (.tuple ((givenAxes ax).map fun x => x % (w.g.ndim a : Int))) kd) ∧
    AxesInRange (w.g.ndim a) (.tuple ((givenAxes ax).map fun x => x % (w.g.ndim a : Int))) := by
  refine ⟨?_, ?_⟩
  · rw [step_eq (by simpa [Call.arrays] using ha), step_eq (by simpa [Call.arrays] using ha)]
    simp only [exec1, ND.sum]
    have : ND.normAxis (w.g.ndim a) ax = ND.normAxis (w.g.ndim a) (.tuple ((givenAxes ax).map fun x => x % (w.g.ndim a : Int))) := by
      unfold ND.normAxis
      rw [axisList_eq, axisList_eq, if_neg hg]
      have h1 : givenAxes (.tuple ((givenAxes ax).map fun x => x % (w.g.ndim a : Int))) = (givenAxes ax).map fun x => x % (w.g.ndim a : Int) := rfl
      have h2 : ¬ ((givenAxes ax).map fun x => x % (w.g.ndim a : Int)) = [] := by simpa using hg
      rw [h1, if_neg h2, if_neg (by rintro ⟨h, _⟩; omega), if_neg (by rintro ⟨h, _⟩; omega)]
      simp only [List.map_map, Function.comp_def, Int.emod_emod_of_dvd _ (Int.dvd_refl _)]
    rw [this]
  · intro x hx
    simp only [givenAxes, List.mem_map] at hx
    obtain ⟨y, _, rfl⟩ := hx
    have := Int.emod_nonneg y (show (w.g.ndim a : Int) ≠ 0 by omega)
    have := Int.emod_lt_of_pos y (show (0 : Int) < w.g.ndim a by omega)
    omega

example : (0 : Nat) < (Demo.after [.array Demo.m23]).g.ndim 0 ∧ givenAxes (.tuple [5, -7]) ≠ [] := by refine ⟨by decide +kernel, by decide⟩

/-- Error behaviour of `pad`: a dimension `≥ ndim` raises; a negative one below `-ndim` raises unless nothing is padded. -/
theorem C16_raises {b : Backend V} {w : World V} {a : Nat} (ha : a < w.g.length) (dim x y : Int) :
    (∃ e, step b w (.pad a dim x y) = .error e) ↔ (w.g.ndim a : Int) ≤ dim ∨ dim < -(w.g.ndim a : Int) ∧ ¬ (x = 0 ∧ y = 0) := by
  rw [step_eq (by simpa [Call.arrays] using ha)]
  simp only [exec1, ND.pad]
  by_cases h1 : (w.g.ndim a : Int) ≤ dim
  · rw [if_pos h1]; simp [h1, madeE, throw, throwThe, MonadExceptOf.throw, Except.bind]
  · rw [if_neg h1]
    by_cases h2 : x = 0 ∧ y = 0
    · rw [if_pos h2]; simp [h1, h2, madeE, made, pure, Except.pure, Except.bind]
    · rw [if_neg h2]
      unfold pyPos
      by_cases h3 : 0 ≤ dim
      · rw [if_pos ⟨h3, by omega⟩]
        simp only [madeE, made, pure, Except.pure, Except.bind, reduceCtorEq, exists_false, false_iff]; omega
      · rw [if_neg (by omega)]
        by_cases h4 : dim < -(w.g.ndim a : Int)
        · rw [if_neg (by omega)]; simp [h1, h2, h4, madeE, throw, throwThe, MonadExceptOf.throw, Except.bind]
        · rw [if_pos (by omega)]
          simp only [madeE, made, pure, Except.pure, Except.bind, reduceCtorEq, exists_false, false_iff]; omega

/-- C16 for `0 ≤ dim` (and a resulting size that is not negative): the axis grows by `before + after`; the element is that of `a` shifted by `before` inside,
0 outside.  Missing: a negative `dim` (`C16_counterexample`). -/
theorem C16_pad_partial {b : Backend V} (hb : Faithful b) {w : World V} (hw : Reachable b w) {a : Nat} (ha : a < w.g.length) {dim : Nat} (hd : dim < w.g.ndim a)
    {before after : Int} (hn : 0 ≤ geti (w.g.shape a) dim + (before + after)) :
    ∃ r w', step b w (.pad a dim before after) = .ok (.arr r, w') ∧
      Is b w' r ⟨(w.g.shape a).set dim (geti (w.g.shape a) dim + (before + after)), fun idx =>
        if before ≤ geti idx dim ∧ geti idx dim < before + geti (w.g.shape a) dim then (value b w a).get (idx.set dim (geti idx dim - before)) else b.A.ofInt 0⟩ := by
  have h := hw.inv hb
  obtain ⟨r, g', e, m, d⟩ := pad_s (dim := (dim : Int)) (b := before) (c := after) h.winv.wf h.nn ha (by omega) (by omega) (by simpa using hn)
  refine ⟨r, _, step_made (by simpa [Call.arrays] using ha) (by simp only [exec1, e]), made_is hb h m ((d b.A).trans ?_)⟩
  unfold Tensor.pad
  rw [den_shape b.A h.winv.wf ha]
  simp only [Int.toNat_natCast]
  exact ⟨rfl, fun _ _ => rfl⟩

example : Demo.listOf [.array Demo.m23, .pad 0 1 1 2, .materialize 1] (.tolist 1) = some ([2, 6], [0, 1, 2, 3, 0, 0, 0, 4, 5, 6, 0, 0]) := by decide +kernel

/-- C16 is false in the code for a negative `dim`: `arange(3).pad(-1, 1, 0)` is accepted and has shape `(4,)`, but materializing it fails. -/
theorem C16_counterexample : ∃ w : World Int, Reachable Demo.py w ∧ w.g.shape 0 = [3] ∧
    ∃ r w', step Demo.py w (.pad 0 (-1) 1 0) = .ok (.arr r, w') ∧ w'.g.shape r = [4] ∧ step Demo.py w' (.materialize r) = .error .assertion :=
  ⟨Demo.after [.arange 3], Demo.reach (by decide +kernel), by decide +kernel, 1, _, rfl, by decide +kernel, rfl⟩

/-- C17 for `0 ≤ dim` and a non-empty axis: `step - 1` zeros between consecutive elements along `dim`.  Missing: a negative `dim`, an empty axis
(`C17_counterexample`). -/
theorem C17_dilate_partial {b : Backend V} (hb : Faithful b) {w : World V} (hw : Reachable b w) {a : Nat} (ha : a < w.g.length) {dim : Nat} (hd : dim < w.g.ndim a)
    {st : Int} (hst : 1 ≤ st) (hn : 1 ≤ geti (w.g.shape a) dim) :
    ∃ r w', step b w (.dilate a dim st) = .ok (.arr r, w') ∧
      Is b w' r ⟨(w.g.shape a).set dim ((geti (w.g.shape a) dim - 1) * st + 1), fun idx =>
        if geti idx dim % st = 0 then (value b w a).get (idx.set dim (geti idx dim / st)) else b.A.ofInt 0⟩ := by
  have h := hw.inv hb
  have hr : 0 ≤ (geti (w.g.shape a) dim - 1) * st + 1 := by
    have := Int.mul_nonneg (show 0 ≤ geti (w.g.shape a) dim - 1 by omega) (show 0 ≤ st by omega); omega
  obtain ⟨r, g', e, m, d⟩ := dilate_s (dim := (dim : Int)) (st := st) h.winv.wf h.nn ha (by omega) (by omega) hst (by simpa using hr)
  refine ⟨r, _, step_made (by simpa [Call.arrays] using ha) (by simp only [exec1, e]), made_is hb h m ((d b.A).trans ?_)⟩
  unfold Tensor.dilate
  rw [den_shape b.A h.winv.wf ha]
  simp only [Int.toNat_natCast]
  exact ⟨rfl, fun _ _ => rfl⟩

example : Demo.listOf [.array Demo.m23, .dilate 0 1 2, .materialize 1] (.tolist 1) = some ([2, 5], [1, 0, 2, 0, 3, 4, 0, 5, 0, 6]) := by decide +kernel

/-- C17 is false in the code: dilating an empty axis gives a negative dimension, and a negative `dim` is accepted but cannot be materialized. -/
theorem C17_counterexample : (∃ w : World Int, Reachable Demo.py w ∧ w.g.shape 0 = [0] ∧ ∃ r w', step Demo.py w (.dilate 0 0 2) = .ok (.arr r, w') ∧ w'.g.shape r = [-1]) ∧
    ∃ w : World Int, Reachable Demo.py w ∧ w.g.shape 0 = [3] ∧
      ∃ r w', step Demo.py w (.dilate 0 (-1) 2) = .ok (.arr r, w') ∧ w'.g.shape r = [5] ∧ ∃ e, step Demo.py w' (.materialize r) = .error e :=
  ⟨⟨Demo.after [.arange 0], Demo.reach (by decide +kernel), by decide +kernel, 1, _, rfl, by decide +kernel⟩,
   ⟨Demo.after [.arange 3], Demo.reach (by decide +kernel), by decide +kernel, 1, _, rfl, by decide +kernel, _, rfl⟩⟩

/-- Dilating an empty axis gives a negative dimension, always. -/
theorem C17_empty {b : Backend V} {w : World V} {a : Nat} (ha : a < w.g.length) {dim : Nat} (hd : dim < w.g.ndim a) (hn : geti (w.g.shape a) dim = 0) {st : Int} (hst : 2 ≤ st) :
    ∃ r w', step b w (.dilate a dim st) = .ok (.arr r, w') ∧ w'.g.shape r = (w.g.shape a).set dim (1 - st) ∧ 1 - st < 0 := by
  have hp : pyPos (w.g.ndim a) (dim : Int) = some dim := by unfold pyPos; rw [if_pos (by omega)]; simp
  refine ⟨w.g.length, { w with g := w.g ++ [ND.dilateNode w.g a dim (dim : Int) st] }, ?_, ?_, by omega⟩
  · rw [step_eq (by simpa [Call.arrays] using ha)]
    simp only [exec1, ND.dilate, hp]
    rw [if_neg (by omega), if_neg (by omega)]
    rfl
  · have : ({ w with g := w.g ++ [ND.dilateNode w.g a dim (dim : Int) st] } : World V).g.shape w.g.length = (w.g.shape a).set dim ((geti (w.g.shape a) dim - 1) * st + 1) := by
      simp [Graph.shape, Graph.nd, ND.dilateNode]
    rw [this, hn]
    congr 1
    omega

example : geti ((Demo.after [.full [2, 0] 7]).g.shape 0) 1 = 0 ∧ (1 : Nat) < (Demo.after [.full [2, 0] 7]).g.ndim 0 := by decide +kernel

end Whale.Props
