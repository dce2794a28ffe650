import Verif.Proofs.Layout
/-
Reading an array back as a nested list.
-/
namespace Whale
variable {V : Type}

theorem mapM_ok {α β ε : Type} {l : List α} {f : α → Except ε β} {h : α → β} (hf : ∀ x ∈ l, f x = .ok (h x)) :
    l.mapM f = .ok (l.map h) := by
  induction l with
  | nil => rfl
  | cons a l ih =>
    rw [List.mapM_cons, hf a (by simp), ih (fun x hx => hf x (by simp [hx]))]
    rfl

theorem toNdlist_ok {data : List V} {shape strides : List Int} {off : Int} {f : List Int → V}
    (hl : strides.length = shape.length)
    (h : ∀ idx, ValidIdx shape idx → ND.fetch data (off + dot idx strides) = .ok (f idx)) :
    ND.toNdlist data shape strides off = .ok (Tensor.toNestedAux shape f) := by
  induction shape generalizing strides off f with
  | nil =>
    have := h [] trivial
    simp only [dot_nil, Int.add_zero] at this
    simp [ND.toNdlist, this, bind, Except.bind, Tensor.toNestedAux, pure, Except.pure]
  | cons s ss ih => cases strides with
    | nil => simp at hl
    | cons st strides =>
      simp only [ND.toNdlist, Tensor.toNestedAux]
      rw [mapM_ok (h := fun i => Tensor.toNestedAux ss (fun r => f (i :: r)))]
      · rfl
      · intro i hi
        apply ih (by simpa using hl)
        intro idx hv
        have := h (i :: idx) ⟨mem_irange.1 hi, hv⟩
        simp only [dot] at this
        rw [Int.add_assoc]; exact this

theorem fetch_flatten {t : Tensor V} {j : List Int} (h : ValidIdx t.shape j) :
    ND.fetch t.flatten (ravel t.shape j) = .ok (t.get j) := by
  have := ravel_bounds h
  simp only [ND.fetch, if_pos this.1, flatten_getElem? h]; rfl

/-- Reading back a view whose base buffer holds the base's meaning. -/
theorem toNdlist_den (A : Scalar V) {g : Graph V} (h : WF g) {i : Nat} (hi : i < g.length) (hno : NoOffsetReshape g i) :
    ND.toNdlist (den A g (base g i)).flatten (g.shape i) (g.strides i) (g.offset i) = .ok (den A g i).toNested := by
  unfold Tensor.toNested
  rw [den_shape A h hi]
  apply toNdlist_ok (h.strides_length hi)
  intro idx hv
  obtain ⟨j, hj, ha, hd⟩ := layout A h hi hv
  have hb : base g i < g.length := Nat.lt_of_le_of_lt (base_le h hi) hi
  rw [hd hno, show g.offset i + dot idx (g.strides i) = addr g i idx from rfl, ha, ← den_shape A h hb]
  exact fetch_flatten (by rw [den_shape A h hb]; exact hj)

/-- Reading back never leaves the base buffer. -/
theorem toNdlist_ok_of_length {g : Graph V} (A : Scalar V) (h : WF g) {i : Nat} (hi : i < g.length) {data : List V}
    (hl : data.length = (prod (g.shape (base g i))).toNat) :
    ∃ n, ND.toNdlist data (g.shape i) (g.strides i) (g.offset i) = .ok n := by
  refine ⟨_, toNdlist_ok (f := fun idx => data.getD (addr g i idx).toNat (A.ofInt 0)) (h.strides_length hi) ?_⟩
  intro idx hv
  obtain ⟨j, hj, ha, _⟩ := layout A h hi hv
  have hb := ravel_bounds hj
  rw [show g.offset i + dot idx (g.strides i) = addr g i idx from rfl, ha]
  simp only [ND.fetch, if_pos hb.1]
  rw [List.getD_eq_getElem?_getD, List.getElem?_eq_getElem (by omega)]
  simp [pure, Except.pure]

end Whale
