import Verif.Proofs.Demo
/-
C09, C10, C18: reshape and contiguous.
-/
namespace Whale.Props
open Whale Mat Hist
variable {V : Type}

theorem reshape_flatten {t : Tensor V} {s : List Int} (hs : NonNeg s) (ht : NonNeg t.shape) (hp : prod s = prod t.shape) : (t.reshape s).flatten = t.flatten := by
  apply List.ext_getElem?
  intro k
  unfold Tensor.flatten
  by_cases hk : k < (prod s).toNat
  · obtain ⟨v1, e1⟩ := valid_unravel hs (k := k) (by omega) (by omega)
    obtain ⟨v2, e2⟩ := valid_unravel ht (k := k) (by omega) (by rw [← hp]; omega)
    have h1 := indices_getElem?_ravel v1
    have h2 := indices_getElem?_ravel v2
    rw [e1, Int.toNat_natCast] at h1
    rw [e2, Int.toNat_natCast] at h2
    rw [List.getElem?_map, List.getElem?_map, h2]
    rw [show (t.reshape s).shape = s from rfl, h1]
    simp only [Option.map_some, Tensor.reshape, e1]
  · rw [List.getElem?_eq_none, List.getElem?_eq_none]
    · rw [List.length_map, length_indices ht, ← hp]; omega
    · rw [List.length_map, show (t.reshape s).shape = s from rfl, length_indices hs]; omega

/-- C09.  `a.reshape(*s)`, for `s` of the same number of elements, has shape `s` and the same elements in row-major order, as operand of further computations
and when read back (`Is`).  Missing: reading back is wrong if the view chain contains a reshape of a view with an offset (`C09_counterexample`). -/
theorem C09_reshape_partial {b : Backend V} (hb : Faithful b) {w : World V} (hw : Reachable b w) {a : Nat} (ha : a < w.g.length) {s : List Int} (hs : NonNeg s)
    (hp : prod s = prod (w.g.shape a)) :
    ∃ r w' T, step b w (.reshape a s) = .ok (.arr r, w') ∧ Is b w' r T ∧ T.shape = s ∧ T.flatten = (value b w a).flatten := by
  have h := hw.inv hb
  have e : (value b w a).shape = w.g.shape a := den_shape b.A h.winv.wf ha
  obtain ⟨r, g', e1, m, d⟩ := reshape_s h.winv.wf h.nn ha hp hs
  exact ⟨r, _, (value b w a).reshape s, step_made (by simpa [Call.arrays] using ha) (by simp only [exec1, e1]), made_is hb h m (.of_eq (d b.A)), rfl,
    reshape_flatten hs (by rw [e]; exact (h.nn a ha).1) (by rw [e]; exact hp)⟩

/-- Reshaping a transposed array copies it first; the copy is read in row-major order of the transpose. -/
example : Demo.listOf [.array Demo.m23, .T 0, .reshape 1 [6], .un .neg 3, .materialize 4] (.tolist 4) = some ([6], [-1, -4, -2, -5, -3, -6]) ∧
    NonNeg [6] ∧ prod [6] = prod [3, 2] := by decide +kernel

/-- C09 is false in the code when the reshaped view has an offset: `arange(6)[2:].reshape(2, 2)` has the elements 2, 3, 4, 5 in every computation, but `tolist`
returns `[[0, 1], [2, 3]]`. -/
theorem C09_counterexample : ∃ (w : World Int) (a : Nat), Reachable Demo.py w ∧ w.g.shape a = [2, 2] ∧ (value Demo.py w a).flatten = [2, 3, 4, 5] ∧
    ∃ l w', step Demo.py w (.tolist a) = .ok (.list l, w') ∧ shapeOf l = [2, 2] ∧ leaves l = [0, 1, 2, 3] := by
  refine ⟨Demo.after [.arange 6, .getitem 0 [.slice (some 2) none none], .reshape 1 [2, 2]], 2, Demo.reach (by decide +kernel), by decide +kernel, by decide +kernel, ?_⟩
  have h : Demo.listOf [.arange 6, .getitem 0 [.slice (some 2) none none], .reshape 1 [2, 2]] (.tolist 2) = some ([2, 2], [0, 1, 2, 3]) := by decide +kernel
  unfold Demo.listOf at h
  split at h
  · rename_i l w' e
    simp only [Option.some.injEq, Prod.mk.injEq] at h
    exact ⟨l, w', e, h.1, h.2⟩
  · cases h

/-- C10 as far as it holds: `reshape` raises exactly when the products differ.  Missing: an even number of negative dimensions is accepted
(`C10_counterexample`). -/
theorem C10_rejects_partial {b : Backend V} {w : World V} {a : Nat} (ha : a < w.g.length) (s : List Int) :
    (∃ e, step b w (.reshape a s) = .error e) ↔ prod s ≠ prod (w.g.shape a) := by
  rw [step_eq (by simpa [Call.arrays] using ha)]
  simp only [exec1]
  by_cases hp : prod s = prod (w.g.shape a)
  · refine ⟨fun ⟨e, he⟩ => ?_, fun hn => absurd hp hn⟩
    simp [ND.reshape, hp, bind, Except.bind, pure, Except.pure, madeE, made] at he
  · refine ⟨fun _ => hp, fun _ => ⟨.invalidReshape, ?_⟩⟩
    simp [ND.reshape, hp, bind, Except.bind, throw, throwThe, MonadExceptOf.throw, madeE]

/-- A shape with exactly one negative dimension is rejected. -/
theorem C10_rejects_odd {b : Backend V} (hb : Faithful b) {w : World V} (hw : Reachable b w) {a : Nat} (ha : a < w.g.length) {s : List Int} (hneg : prod s < 0) :
    ∃ e, step b w (.reshape a s) = .error e := by
  rw [C10_rejects_partial ha]
  have := ((hw.inv hb).nn a ha).1.prod_nonneg
  omega

example : prod [-1, 6] < 0 := by decide

/-- C10 is false in the code: six elements can be "reshaped" to `(-2, -3)`. -/
theorem C10_counterexample : ∃ (w : World Int) (r : Nat) (w' : World Int), Reachable Demo.py w ∧ step Demo.py w (.reshape 0 [-2, -3]) = .ok (.arr r, w') ∧ w'.g.shape r = [-2, -3] :=
  ⟨Demo.after [.arange 6], 1, _, Demo.reach (by decide +kernel), rfl, rfl⟩

/-- C18.  `a.contiguous()` never raises; the result has the shape and elements of `a` and row-major strides. -/
theorem C18_contiguous {b : Backend V} (hb : Faithful b) {w : World V} (hw : Reachable b w) {a : Nat} (ha : a < w.g.length) :
    ∃ r w', step b w (.contiguous a) = .ok (.arr r, w') ∧ Is b w' r (value b w a) ∧
      (∀ d < (w.g.shape a).length, geti (w'.g.strides r) d = prod ((w.g.shape a).drop (d + 1))) ∧ (w'.g.strides r).length = (w.g.shape a).length := by
  have h := hw.inv hb
  obtain ⟨m, st, d⟩ := contiguous_s h.winv.wf h.nn ha
  refine ⟨_, _, step_made (by simpa [Call.arrays] using ha) (by simp only [exec1]; rfl), made_is hb h m (.of_eq (d b.A)), fun k hk => ?_, ?_⟩
  · show geti ((ND.contiguous w.g a).2.strides _) k = _
    rw [st]; unfold stridesFromShape
    rw [geti_map_range _ _ _ hk]
  · show ((ND.contiguous w.g a).2.strides _).length = _
    rw [st]; simp

/-- C18.  It is `a` itself, with nothing created, exactly if `a`'s strides are already row-major. -/
theorem C18_same {b : Backend V} {w : World V} {a : Nat} (ha : a < w.g.length) :
    step b w (.contiguous a) = .ok (.arr a, w) ↔ w.g.strides a = (List.range (w.g.shape a).length).map fun d => prod ((w.g.shape a).drop (d + 1)) := by
  rw [step_eq (by simpa [Call.arrays] using ha)]
  simp only [exec1]
  unfold ND.contiguous ND.isContiguous
  by_cases h : w.g.strides a = stridesFromShape (w.g.shape a)
  · rw [if_pos (by simpa using h)]
    exact ⟨fun _ => h, fun _ => rfl⟩
  · rw [if_neg (by simpa using h)]
    refine ⟨fun he => ?_, fun he => absurd he h⟩
    simp only [made, Graph.push, Except.ok.injEq, Prod.mk.injEq, Out.arr.injEq] at he
    omega

example : Demo.arrOf [.array Demo.m23, .T 0] (.contiguous 1) = some 2 ∧ Demo.arrOf [.array Demo.m23, .T 0] (.contiguous 0) = some 0 ∧
    Demo.runs [.array Demo.m23, .T 0] = true := by decide +kernel

end Whale.Props
