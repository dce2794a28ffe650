import Verif.Proofs.Demo
/-
C04, C05: addressing.
-/
namespace Whale.Props
open Whale Mat Hist
variable {V : Type}

/-- The buffer cell an array reads for index `idx`: `offset + Σ idx[d] * strides[d]`, from the public attributes `offset` and `strides`. -/
def cell (w : World V) (a : Nat) (idx : List Int) : Int := w.g.offset a + ((List.range (w.g.shape a).length).map fun d => geti idx d * geti (w.g.strides a) d).sum

theorem cell_eq {w : World V} (h : WF w.g) {a : Nat} (ha : a < w.g.length) {idx : List Int} (hi : ValidIdx (w.g.shape a) idx) : cell w a idx = addr w.g a idx := by
  unfold cell addr
  rw [dot_eq_sum hi.length (h.strides_length ha)]

theorem bufLen_eq {b : Backend V} {w : World V} (h : Inv b w) {a : Nat} (ha : a < w.g.length) : bufLen w a = prod (w.g.shape a) := by
  unfold bufLen
  cases hv : (w.g.nd a).val with
  | none => rfl
  | some l =>
    have hn := h.winv.wf a ha
    unfold NodeOK at hn
    split at hn
    case h_1 =>
      obtain ⟨l', h1, h2, _⟩ := hn
      rw [hv] at h1; cases h1
      exact h2
    all_goals
      have hn' := (by first | exact hn.2.2.2.2.2 | exact hn.2.2.2.2 | exact hn.2.2.2 | exact hn.2.2 | exact hn.2 : w.g.nd a = _)
      rw [hn'] at hv
      simp [ND.elemwiseNode, ND.reduceNode, ND.reshapeNode, ND.broadcastNode, ND.sliceNode, ND.transposeNode, ND.padNode, ND.dilateNode] at hv

/-- C04.  An array that owns its buffer (it is its own base) addresses the buffer's cells row-major: every address is inside the buffer, distinct indices
have distinct addresses, every cell is addressed; the address is the row-major position. -/
theorem C04_bijection {b : Backend V} (hb : Faithful b) {w : World V} (hw : Reachable b w) {a : Nat} (ha : a < w.g.length) (hbase : base w.g a = a) :
    (∀ idx, ValidIdx (w.g.shape a) idx → 0 ≤ cell w a idx ∧ cell w a idx < bufLen w a) ∧
    (∀ idx jdx, ValidIdx (w.g.shape a) idx → ValidIdx (w.g.shape a) jdx → cell w a idx = cell w a jdx → idx = jdx) ∧
    (∀ k, 0 ≤ k → k < bufLen w a → ∃ idx, ValidIdx (w.g.shape a) idx ∧ cell w a idx = k) ∧
    (∀ idx, ValidIdx (w.g.shape a) idx → cell w a idx = ravel (w.g.shape a) idx) := by
  have h := hw.inv hb
  have hv : (w.g.ctx a).op.isView = false := by have := base_base h.winv.wf ha; rwa [hbase] at this
  obtain ⟨hs, ho⟩ := nonview_layout h.winv.wf ha hv
  have e : ∀ idx, ValidIdx (w.g.shape a) idx → cell w a idx = ravel (w.g.shape a) idx := fun idx hi => by
    rw [cell_eq h.winv.wf ha hi]
    unfold addr
    rw [ho, hs, dot_strides hi.length]; omega
  rw [bufLen_eq h ha]
  refine ⟨fun idx hi => by rw [e idx hi]; exact ravel_bounds hi, fun i j hi hj he => ?_, fun k h0 h1 => ?_, e⟩
  · rw [e i hi, e j hj] at he; exact ravel_inj hi hj he
  · obtain ⟨h2, h3⟩ := valid_unravel (h.nn a ha).1 h0 h1
    exact ⟨_, h2, by rw [e _ h2]; exact h3⟩

/-- A 2×3 array and a computed array that own their buffers. -/
example : Reachable Demo.py (Demo.after [.array Demo.m23, .un .neg 0]) ∧ base (Demo.after [.array Demo.m23, .un .neg 0]).g 1 = 1 :=
  ⟨Demo.reach (by decide +kernel), by decide +kernel⟩

/-- C05.  Every valid index of every array reachable by any program addresses a cell inside the buffer of its base array. -/
theorem C05_in_base {b : Backend V} (hb : Faithful b) {w : World V} (hw : Reachable b w) {a : Nat} (ha : a < w.g.length) {idx : List Int}
    (hi : ValidIdx (w.g.shape a) idx) : 0 ≤ cell w a idx ∧ cell w a idx < bufLen w (base w.g a) := by
  have h := hw.inv hb
  have hbl := Nat.lt_of_le_of_lt (base_le h.winv.wf ha) ha
  obtain ⟨j, hj, e, _⟩ := layout b.A h.winv.wf ha hi
  rw [cell_eq h.winv.wf ha hi, e, bufLen_eq h hbl]
  exact ravel_bounds hj

/-- C05.  `tolist` raises only when the base has no data (it was never materialized): then it is an AttributeError, never an IndexError. -/
theorem C05_tolist {b : Backend V} (hb : Faithful b) {w : World V} (hw : Reachable b w) {a : Nat} (ha : a < w.g.length) :
    (∃ l w', step b w (.tolist a) = .ok (.list l, w')) ∨
    (step b w (.tolist a) = .error .attrError ∧ cpuBuf w (base w.g a) = none ∧ (b.isGpu = true → w.dev (base w.g a) = none)) := by
  have h := hw.inv hb
  rw [step_eq (by simpa [Call.arrays] using ha)]
  simp only [exec1]
  by_cases hav : Avail b w (base w.g a)
  · obtain ⟨l, cpu, ev, e, _⟩ := tolist_ok h.winv ha hav
    exact .inl ⟨l, _, by rw [e]; rfl⟩
  · right
    have h1 : cpuBuf w (base w.g a) = none := by
      cases hc : cpuBuf w (base w.g a) with
      | none => rfl
      | some l => exact absurd (.inl (by rw [hc]; rfl)) hav
    have h2 : b.isGpu = true → w.dev (base w.g a) = none := fun hg => by
      cases hc : w.dev (base w.g a) with
      | none => rfl
      | some l => exact absurd (.inr ⟨hg, by rw [hc]; rfl⟩) hav
    refine ⟨?_, h1, h2⟩
    have : tolist b w a = .error .attrError := by
      unfold tolist ensureCpu
      rw [h1]
      by_cases hg : b.isGpu = true
      · simp [hg, h2 hg, bind, Except.bind]
      · simp [hg, bind, Except.bind]
    rw [this]; rfl

/-- A sliced transpose of a broadcast: strides `[1, 0]`-like, offset not 0. -/
example : Reachable Demo.py (Demo.after [.array Demo.m23, .getitem 0 [.int 1], .broadcastTo 1 [2, 3], .transpose 2 [1, 0], .getitem 3 [.slice (some (-2)) none none]]) ∧
    (Demo.after [.array Demo.m23, .getitem 0 [.int 1], .broadcastTo 1 [2, 3], .transpose 2 [1, 0], .getitem 3 [.slice (some (-2)) none none]]).g.shape 4 = [2, 2] ∧
    (Demo.after [.array Demo.m23, .getitem 0 [.int 1], .broadcastTo 1 [2, 3], .transpose 2 [1, 0], .getitem 3 [.slice (some (-2)) none none]]).g.offset 4 = 4 :=
  ⟨Demo.reach (by decide +kernel), by decide +kernel, by decide +kernel⟩

end Whale.Props
