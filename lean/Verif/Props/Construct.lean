import Verif.Proofs.Demo
/-
C01, C02, C03: construction of arrays.
-/
namespace Whale.Props
open Whale Mat Hist
variable {V : Type}

/-- C01.  For every rectangular nested list `v`, in every reachable state: `array(v)` returns an array whose shape is the list of lengths of `v`, and
whatever is called afterwards, `tolist()` of it returns `v`. -/
theorem C01_roundtrip {b : Backend V} (hb : Faithful b) {w : World V} (hw : Reachable b w) {v : Nested V} (hv : Rect v) :
    ∃ r w', step b w (.array v) = .ok (.arr r, w') ∧ w'.g.shape r = shapeOf v ∧
      ∀ w1, Runs b w' w1 → ∃ w2, step b w1 (.tolist r) = .ok (.list v, w2) := by
  have h := hw.inv hb
  obtain ⟨e, m, hd⟩ := array_s b.A h.winv.wf h.nn hv
  refine ⟨_, _, step_made (by simp [Call.arrays]) (by simp only [exec1, e]), m.shape, ?_⟩
  have hr := readable_const hb (made_inv h m).inv (a := (ND.const b.A w.g (shapeOf v) (leaves v)).1) m.lt (by
    show Graph.ctx (ND.const b.A w.g (shapeOf v) (leaves v)).2 _ = _
    simp [ND.const, Graph.push, Graph.ctx, nd_push, ND.constNode])
  have e2 : (value b { w with g := (ND.const b.A w.g (shapeOf v) (leaves v)).2 } (ND.const b.A w.g (shapeOf v) (leaves v)).1).toNested = v := by
    have : value b { w with g := (ND.const b.A w.g (shapeOf v) (leaves v)).2 } (ND.const b.A w.g (shapeOf v) (leaves v)).1 = .ofFlat (b.A.ofInt 0) (shapeOf v) (leaves v) := hd b.A
    rw [this]
    have := toNested_leaves (b.A.ofInt 0) (pre := []) (post := []) hv (shapeOf_nonNeg v)
    simpa [Tensor.toNested, Tensor.ofFlat] using this
  unfold Reads at hr
  rw [e2] at hr
  exact hr

/-- A rectangular 2×3 list in a state with other arrays and a cached kernel. -/
example : Reachable Demo.py (Demo.after [.array Demo.m23, .un .neg 0, .materialize 1]) ∧ Rect Demo.m23 ∧ shapeOf Demo.m23 = [2, 3] :=
  ⟨Demo.reach (by decide +kernel), hasShapeB_sound _ _ (by decide), by decide⟩

/-- C02 as far as it holds.  `array(v)` raises exactly for the lists in which two lists at the same depth have different lengths.
Missing from the full property: a list may contain numbers beside lists (`C02_counterexample`). -/
theorem C02_rejects_partial {b : Backend V} (w : World V) (v : Nested V) : (∃ e, step b w (.array v) = .error e) ↔ ¬ UniformLengths v := by
  rw [← array_accepts_iff b.A w.g v, step_eq (by simp [Call.arrays])]
  simp only [exec1]
  cases h : ND.array b.A w.g v with
  | error e => exact ⟨fun _ ⟨r, hr⟩ => (by cases hr), fun _ => ⟨e, rfl⟩⟩
  | ok p => exact ⟨fun ⟨e, he⟩ => (by cases he), fun hn => absurd ⟨p, rfl⟩ hn⟩

/-- Rectangular lists are not rejected. -/
theorem C02_accepts_rect {b : Backend V} (w : World V) (v : Nested V) (h : Rect v) : ¬ ∃ e, step b w (.array v) = .error e := by
  rw [C02_rejects_partial]; exact not_not.2 h.uniform

/-- `[[1, 2], [3]]` is rejected. -/
example : ∃ e, step Demo.py Mat.init (.array (.node [.node [.leaf 1, .leaf 2], .node [.leaf 3]])) = .error e := by
  rw [C02_rejects_partial]
  intro h
  have := h 1 2 (by decide) 1 (by decide)
  omega

theorem not_hasShape_of {s : List Int} {v : Nested V} (h : hasShapeB s v = false) : ¬ HasShape s v := by
  intro hs
  suffices ∀ (s : List Int) (v : Nested V), HasShape s v → hasShapeB s v = true by rw [this s v hs] at h; cases h
  intro s v hs
  exact Nested.rec (motive_1 := fun v => ∀ s, HasShape s v → hasShapeB s v = true) (motive_2 := fun l => ∀ s, HasShapeL s l → hasShapeLB s l = true)
    (fun x s h => by cases s <;> [rfl; exact absurd h (by simp [HasShape])])
    (fun l ih s h => by
      cases s with
      | nil => exact absurd h (by simp [HasShape])
      | cons a s => simp only [hasShapeB, Bool.and_eq_true, decide_eq_true_eq]; exact ⟨h.1, ih s h.2⟩)
    (fun s _ => rfl)
    (fun x l ih1 ih2 s h => by simp only [hasShapeLB, Bool.and_eq_true]; exact ⟨ih1 s h.1, ih2 s h.2⟩) v s hs

/-- C02 is false in the code: `[1, [2, 3]]` is not rectangular but accepted. -/
theorem C02_counterexample : ∃ v : Nested Int, (¬ ∃ s, HasShape s v) ∧ ∃ r w', step Demo.py Mat.init (.array v) = .ok (.arr r, w') := by
  refine ⟨.node [.leaf 1, .node [.leaf 2, .leaf 3]], ?_, ?_⟩
  · rintro ⟨s, h⟩
    match s, h with
    | [], h => exact h
    | [_], h => exact h.2.2.1
    | _ :: _ :: _, h => exact h.2.1
  · exact ⟨0, _, rfl⟩

/-- C03.  `full(s, v)`: exactly shape `s`, `v` at every position; readable at once. -/
theorem C03_full {b : Backend V} (hb : Faithful b) {w : World V} (hw : Reachable b w) {s : List Int} (hs : NonNeg s) (v : V) :
    ∃ r w', step b w (.full s v) = .ok (.arr r, w') ∧ Is b w' r ⟨s, fun _ => v⟩ ∧ Reads b w' r ⟨s, fun _ => v⟩ := by
  have h := hw.inv hb
  obtain ⟨m, hd⟩ := full_s b.A h.winv.wf h.nn hs v
  refine ⟨_, _, step_made (by simp [Call.arrays]) (by simp only [exec1]; rfl), made_is hb h m (hd b.A), ?_⟩
  have hr := readable_const hb (made_inv h m).inv m.lt (by
    show Graph.ctx (ND.const b.A w.g _ _).2 _ = _
    simp [ND.const, ND.full, Graph.push, Graph.ctx, nd_push, ND.constNode])
  unfold Reads at *
  have e : (value b { w with g := (ND.full b.A w.g s v).2 } (ND.full b.A w.g s v).1).toNested = (⟨s, fun _ => v⟩ : Tensor V).toNested := (hd b.A).toNested
  rw [e] at hr
  exact hr

/-- `full((2, 3), 7)` in a non-empty state. -/
example : Reachable Demo.py (Demo.after [.array Demo.m23]) ∧ NonNeg [2, 3] := ⟨Demo.reach (by decide +kernel), by decide⟩

theorem like_eq {b : Backend V} {w : World V} {a : Nat} (ha : a < w.g.length) (v : V) : step b w (.fullLike a v) = step b w (.full (w.g.shape a) v) := by
  rw [step_eq (by simpa [Call.arrays] using ha), step_eq (by simp [Call.arrays])]; rfl

/-- C03.  `full_like(a, v)`: exactly the shape of `a`, `v` at every position. -/
theorem C03_full_like {b : Backend V} (hb : Faithful b) {w : World V} (hw : Reachable b w) {a : Nat} (ha : a < w.g.length) (v : V) :
    ∃ r w', step b w (.fullLike a v) = .ok (.arr r, w') ∧ Is b w' r ⟨w.g.shape a, fun _ => v⟩ ∧ Reads b w' r ⟨w.g.shape a, fun _ => v⟩ := by
  rw [like_eq ha]; exact C03_full hb hw ((hw.inv hb).nn a ha).1 v

/-- C03.  `zeros_like(a)`: the number 0 everywhere. -/
theorem C03_zeros_like {b : Backend V} (hb : Faithful b) {w : World V} (hw : Reachable b w) {a : Nat} (ha : a < w.g.length) :
    ∃ r w', step b w (.zerosLike a) = .ok (.arr r, w') ∧ Is b w' r ⟨w.g.shape a, fun _ => b.A.host 0⟩ ∧ Reads b w' r ⟨w.g.shape a, fun _ => b.A.host 0⟩ :=
  C03_full_like hb hw ha (b.A.host 0)

/-- C03.  `ones_like(a)`: the number 1 everywhere (the integer 1 for integer arrays, the float 1.0 otherwise). -/
theorem C03_ones_like {b : Backend V} (hb : Faithful b) {w : World V} (hw : Reachable b w) {a : Nat} (ha : a < w.g.length) :
    ∃ r w' one, one = (if w.g.dtype a = .int32 ∨ w.g.dtype a = .int64 then b.A.host 1 else b.A.fone) ∧
      step b w (.onesLike a) = .ok (.arr r, w') ∧ Is b w' r ⟨w.g.shape a, fun _ => one⟩ ∧ Reads b w' r ⟨w.g.shape a, fun _ => one⟩ := by
  obtain ⟨r, w', h⟩ := C03_full_like hb hw ha (if w.g.dtype a = .int32 ∨ w.g.dtype a = .int64 then b.A.host 1 else b.A.fone)
  exact ⟨r, w', _, rfl, h⟩

example : Reachable Demo.py (Demo.after [.array Demo.m23]) ∧ 0 < (Demo.after [.array Demo.m23]).g.length ∧ (Demo.after [.array Demo.m23]).g.shape 0 = [2, 3] :=
  ⟨Demo.reach (by decide +kernel), by decide +kernel, by decide +kernel⟩

/-- C03.  `arange(n)`: `n` elements (none for negative `n`), `i` at position `i`. -/
theorem C03_arange {b : Backend V} (hb : Faithful b) {w : World V} (hw : Reachable b w) (n : Int) :
    ∃ r w', step b w (.arange n) = .ok (.arr r, w') ∧ Is b w' r ⟨[max n 0], fun idx => b.A.host (geti idx 0)⟩ ∧
      Reads b w' r ⟨[max n 0], fun idx => b.A.host (geti idx 0)⟩ := by
  have h := hw.inv hb
  obtain ⟨e, m, hd⟩ := array_s b.A h.winv.wf h.nn (arange_rect b.A n)
  have hsh : shapeOf (.node ((irange n).map fun i => Nested.leaf (b.A.host i))) = [max n 0] := by
    cases hl : irange n with
    | nil =>
      have := congrArg List.length hl
      simp [irange] at this
      simp [shapeOf]; omega
    | cons x l =>
      have := congrArg List.length hl
      simp [irange] at this
      simp [shapeOf]; omega
  have hlv : ∀ l : List Int, leavesL (l.map fun i => Nested.leaf (b.A.host i)) = l.map b.A.host := by
    intro l; induction l with
    | nil => rfl
    | cons x l ih => simp [leavesL, leaves, ih]
  have hlv' : leaves (.node ((irange n).map fun i => Nested.leaf (b.A.host i))) = (irange n).map b.A.host := hlv _
  rw [hsh, hlv'] at e m hd
  have heq : (den b.A (ND.const b.A w.g [max n 0] ((irange n).map b.A.host)).2 (ND.const b.A w.g [max n 0] ((irange n).map b.A.host)).1).Equiv
      ⟨[max n 0], fun idx => b.A.host (geti idx 0)⟩ := by
    rw [hd b.A]
    refine ⟨rfl, fun idx hi => ?_⟩
    match idx, hi with
    | [i], hi =>
      have hi' : 0 ≤ i ∧ i < max n 0 := hi.1
      simp only [Tensor.ofFlat, ravel, prod, geti]
      have hlt : i.toNat < n.toNat := by omega
      simp [irange, hlt, hi'.1]
  refine ⟨_, _, step_made (by simp [Call.arrays]) (by simp only [exec1, ND.arange, e]), made_is hb h m heq, ?_⟩
  have hr := readable_const hb (made_inv h m).inv m.lt (by
    show Graph.ctx (ND.const b.A w.g _ _).2 _ = _
    simp [ND.const, Graph.push, Graph.ctx, nd_push, ND.constNode])
  unfold Reads at *
  have e2 : (value b { w with g := (ND.const b.A w.g [max n 0] ((irange n).map b.A.host)).2 } (ND.const b.A w.g [max n 0] ((irange n).map b.A.host)).1).toNested = _ := heq.toNested
  rw [e2] at hr
  exact hr

example : Demo.listOf [.arange 4] (.tolist 0) = some ([4], [0, 1, 2, 3]) := by decide +kernel

end Whale.Props
